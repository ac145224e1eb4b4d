import Verif.Proofs.Float

/-! # Rounding errors of `Evaluate1/2/3` and of the division by the weight -/

set_option linter.unusedSectionVars false

namespace Igakit
open Spec

variable {K : Type} [Field K] [LinearOrder K] [IsStrictOrderedRing K]

namespace Fp

variable {δ : K} {rd : K → K} (h0 : 0 ≤ δ) (h1 : δ < 1) (hr : RelErr δ rd)
include h0 h1

theorem growth_pow (m : ℕ) : 1 ≤ growth δ ^ m := one_le_pow₀ (one_le_growth h0 h1)

theorem growth_sub {m m' : ℕ} (h : m ≤ m') : growth δ ^ m - 1 ≤ growth δ ^ m' - 1 :=
  sub_le_sub_right (pow_le_pow_right₀ (one_le_growth h0 h1) h) _

include hr

/-- one more rounding -/
theorem err_rd {x y A : K} {m : ℕ} (h : |x - y| ≤ (growth δ ^ m - 1) * A) (hy : |y| ≤ A) :
    |rd x - y| ≤ (growth δ ^ (m + 1) - 1) * A := by
  have hA : 0 ≤ A := (abs_nonneg y).trans hy
  have hg := growth_pow h0 h1 m
  have hl := le_growth h0 h1
  have e1 : |x| ≤ growth δ ^ m * A := by
    calc |x| = |(x - y) + y| := by rw [sub_add_cancel]
      _ ≤ |x - y| + |y| := abs_add_le _ _
      _ ≤ (growth δ ^ m - 1) * A + A := add_le_add h hy
      _ = _ := by ring
  calc |rd x - y| = |(rd x - x) + (x - y)| := by rw [sub_add_sub_cancel]
    _ ≤ |rd x - x| + |x - y| := abs_add_le _ _
    _ ≤ δ * (growth δ ^ m * A) + (growth δ ^ m - 1) * A :=
      add_le_add ((hr x).trans (mul_le_mul_of_nonneg_left e1 h0)) h
    _ = ((1 + δ) * growth δ ^ m - 1) * A := by ring
    _ ≤ (growth δ ^ (m + 1) - 1) * A := by
      refine mul_le_mul_of_nonneg_right (sub_le_sub_right ?_ _) hA
      rw [pow_succ, mul_comm]
      exact mul_le_mul_of_nonneg_left hl (by linarith)

/-- a component and the weight of a point, after at most `m` roundings each -/
structure HC (δ B : K) (c m : ℕ) (CF : ℕ → Fp K) (C : ℕ → K) : Prop where
  pt : ∃ x, CF c = some x ∧ |x - C c| ≤ (growth δ ^ m - 1) * (B * C 3) ∧ |C c| ≤ B * C 3
  wt : Close (growth δ) m (CF 3) (C 3)

omit hr in
theorem HC.mono {B : K} {c m m' : ℕ} {CF : ℕ → Fp K} {C : ℕ → K} (h : HC δ B c m CF C) (hm : m ≤ m') :
    HC δ B c m' CF C := by
  obtain ⟨x, e, h2, h3⟩ := h.pt
  exact ⟨⟨x, e, h2.trans (mul_le_mul_of_nonneg_right (growth_sub h0 h1 hm) ((abs_nonneg _).trans h3)), h3⟩,
    h.wt.mono h0 h1 hm⟩

omit hr in
theorem HC.zero (B : K) (c m : ℕ) : HC δ B c m (fun _ => some 0) 0 :=
  ⟨⟨0, rfl, by simp, by simp⟩, Close.exact h0 h1 le_rfl _⟩

/-- `C = C + M * P` -/
theorem HC.step {B : K} {c m a : ℕ} {CF : ℕ → Fp K} {C : ℕ → K} (h : HC δ B c m CF C) {MF : Fp K} {M : K}
    (hM : Close (growth δ) a MF M) (ha : a + 1 ≤ m) {P : ℕ → K} (hw : 0 ≤ P 3) (hP : |P c| ≤ B * P 3) :
    HC δ B c (m + 1) (accum rd MF P CF) (C + M • P) := by
  refine ⟨?_, ?_⟩
  · obtain ⟨x, e1, e2, e3⟩ := h.pt
    obtain ⟨y, rfl, y0, M0, hn⟩ := hM
    have hmul : |y * P c - M * P c| ≤ (growth δ ^ a - 1) * (M * (B * P 3)) := by
      rw [← sub_mul, abs_mul]
      calc |y - M| * |P c| ≤ (growth δ ^ a - 1) * M * (B * P 3) :=
            mul_le_mul (hn.abs (one_le_growth h0 h1) M0) hP (abs_nonneg _)
              (mul_nonneg (by have := growth_pow h0 h1 a; linarith) M0)
        _ = _ := by ring
    have hA : |M * P c| ≤ M * (B * P 3) := by
      rw [abs_mul, abs_of_nonneg M0]
      exact mul_le_mul_of_nonneg_left hP M0
    have ht := err_rd h0 h1 hr hmul hA
    have ht' := ht.trans (mul_le_mul_of_nonneg_right (growth_sub h0 h1 ha) ((abs_nonneg _).trans hA))
    refine ⟨rd (x + rd (y * P c)), ?_, ?_, ?_⟩
    · unfold accum
      rw [e1]
      rfl
    · have hs : |x + rd (y * P c) - (C c + M * P c)| ≤ (growth δ ^ m - 1) * (B * C 3 + M * (B * P 3)) := by
        rw [add_sub_add_comm, mul_add]
        exact (abs_add_le _ _).trans (add_le_add e2 ht')
      have hb : |C c + M * P c| ≤ B * C 3 + M * (B * P 3) := (abs_add_le _ _).trans (add_le_add e3 hA)
      have := err_rd h0 h1 hr hs hb
      have e : B * C 3 + M * (B * P 3) = B * (C + M • P) 3 := by
        show _ = B * (C 3 + M * P 3)
        ring
      rw [e] at this
      exact this
    · show |C c + M * P c| ≤ B * (C 3 + M * P 3)
      calc |C c + M * P c| ≤ B * C 3 + M * (B * P 3) := (abs_add_le _ _).trans (add_le_add e3 hA)
        _ = _ := by ring
  · exact h.wt.add h0 h1 hr ((hM.mul h0 h1 hr (Close.exact h0 h1 hw 0)).mono h0 h1 (by omega))

/-- the division by the weight -/
theorem HC.div {B : K} {c m : ℕ} {CF : ℕ → Fp K} {C : ℕ → K} (h : HC δ B c m CF C) (hB : 0 ≤ B) (hw : 0 < C 3) :
    ∃ y, Fp.div rd (CF c) (CF 3) = some y ∧ |y - C c / C 3| ≤ (growth δ ^ (2 * m + 1) - 1) * B := by
  obtain ⟨x, e1, e2, e3⟩ := h.pt
  obtain ⟨w, e4, w0, -, hn⟩ := h.wt
  have hρ := one_le_growth h0 h1
  have hw' : 0 < w := hn.pos hρ hw
  have hg := growth_pow h0 h1 m
  refine ⟨rd (x / w), by rw [e1, e4]; exact if_neg hw'.ne', ?_⟩
  have hq : |C c / C 3| ≤ B := by
    rw [abs_div, abs_of_pos hw, div_le_iff₀ hw]
    exact e3
  refine err_rd h0 h1 hr ?_ hq
  -- the weight, relative to the exact one
  have hwr : C 3 / w ≤ growth δ ^ m := by
    rw [div_le_iff₀ hw']
    exact hn.2
  have hw1 : |C 3 / w - 1| ≤ growth δ ^ m - 1 := by
    rw [abs_le]
    refine ⟨?_, by linarith⟩
    have : (growth δ ^ m)⁻¹ ≤ C 3 / w := by
      rw [inv_le_comm₀ (by linarith) (by positivity), inv_div, div_le_iff₀ hw]
      exact hn.1
    have h2 : 2 - growth δ ^ m ≤ (growth δ ^ m)⁻¹ := by
      rw [inv_eq_one_div, le_div_iff₀ (by linarith)]
      nlinarith [sq_nonneg (growth δ ^ m - 1)]
    linarith
  have e : x / w - C c / C 3 = (x - C c) / w + C c / C 3 * (C 3 / w - 1) := by
    field_simp
    ring
  rw [e]
  have t1 : |(x - C c) / w| ≤ (growth δ ^ m - 1) * B * growth δ ^ m := by
    rw [abs_div, abs_of_pos hw', div_le_iff₀ hw']
    calc |x - C c| ≤ (growth δ ^ m - 1) * (B * C 3) := e2
      _ ≤ (growth δ ^ m - 1) * (B * (growth δ ^ m * w)) :=
        mul_le_mul_of_nonneg_left (mul_le_mul_of_nonneg_left hn.2 hB) (by linarith)
      _ = _ := by ring
  have t2 : |C c / C 3 * (C 3 / w - 1)| ≤ B * (growth δ ^ m - 1) := by
    rw [abs_mul]
    exact mul_le_mul hq hw1 (abs_nonneg _) hB
  calc |(x - C c) / w + C c / C 3 * (C 3 / w - 1)| ≤ _ := abs_add_le _ _
    _ ≤ (growth δ ^ m - 1) * B * growth δ ^ m + B * (growth δ ^ m - 1) := add_le_add t1 t2
    _ = (growth δ ^ (2 * m) - 1) * B := by rw [two_mul, pow_add]; ring

/-! ## the loops -/

/-- the basis functions at a parameter of the domain -/
theorem basis_at {n : ℤ} {p : ℕ} {U : ℤ → K} (hv : ValidKnots n p U) {u : K} (hu1 : U p ≤ u) (hu2 : u ≤ U (n + 1))
    (jkF : ℤ → Fp K) (jk : ℤ → K) : ∀ r : ℤ, 0 ≤ r → r ≤ p →
      Close (growth δ) (6 * p) (Fp.basisFuns rd jkF (findSpan n p u U) u p U r)
        (Igakit.basisFuns jk (findSpan n p u U) u p U r) := by
  have hp := hv.one_le
  have hle := hv.le
  have hrg := findSpan_range (U := U) u (by omega : (0 : ℤ) ≤ p) hle
  have hin := findSpan_inSpan hv hu1 hu2
  exact basisFuns_close h0 h1 hr jkF jk
    (fun i j a b c => hv.sorted i j (by omega) b (by omega)) hin.ne hin.left hin.right

omit h0 h1 hr in
theorem axisTables_spec (jk : ℤ → Fp K) (n p : ℤ) (U : ℤ → K) (r : ℤ) (X : ℤ → K) (i : ℤ)
    (h1 : 0 ≤ i) (h2 : i ≤ r) :
    (Fp.axisTables rd jk n p U r X).1 i = findSpan n p (X i) U ∧
    (Fp.axisTables rd jk n p U r X).2 i = Fp.basisFuns rd jk (findSpan n p (X i) U) (X i) p U := by
  have := forUp_inv (f := fun ix (t : (ℤ → ℤ) × (ℤ → ℤ → Fp K)) =>
    let span := upd t.1 ix (findSpan n p (X ix) U)
    (span, upd t.2 ix (Fp.basisFuns rd jk (span ix) (X ix) p U)))
    (fun i t => ∀ j, 0 ≤ j → j < i → t.1 j = findSpan n p (X j) U ∧
      t.2 j = Fp.basisFuns rd jk (findSpan n p (X j) U) (X j) p U) (lo := 0) (hi := r)
    (s := (fun _ => 0, fun _ => jk)) (by omega) (by intro j a b; omega)
    (by
      intro i t _ _ ih j a b
      by_cases hj : j = i
      · subst hj
        dsimp only
        rw [upd_same, upd_same]
        exact ⟨rfl, rfl⟩
      · dsimp only
        rw [upd_ne _ _ hj, upd_ne _ _ hj]
        exact ih j a (by omega))
  exact this i h1 (by omega)

theorem evaluate1_close (jkF : ℤ → Fp K) (jeF : ℤ → ℕ → Fp K) (jk : ℤ → K) (je : ℤ → ℕ → K) {n : ℤ} {p : ℕ} {U : ℤ → K}
    (hv : ValidKnots n p U) {P : ℤ → ℕ → K} {B : K} {c : ℕ}
    (hP : ∀ i, 0 ≤ i → i ≤ n → 0 ≤ P i 3 ∧ |P i c| ≤ B * P i 3) (r : ℤ) (X : ℤ → K) {i : ℤ} (hi : 0 ≤ i ∧ i ≤ r)
    (hu1 : U p ≤ X i) (hu2 : X i ≤ U (n + 1)) :
    HC δ B c (6 * p + 1 + (p + 1)) (Fp.evaluate1 rd jkF jeF n p U P r X i) (BSp.evaluate1 jk je n p U P r X i) := by
  have hp := hv.one_le
  have hrg := findSpan_range (U := U) (X i) (by omega : (0 : ℤ) ≤ p) hv.le
  have hb := basis_at h0 h1 hr hv hu1 hu2 jkF jk
  unfold Fp.evaluate1 BSp.evaluate1
  simp only
  rw [Igakit.forUp_fill (fun i => forUp 0 (p : ℤ) (fun j C => accum rd (Fp.basisFuns rd jkF (findSpan n p (X i) U) (X i) p U j)
    (P (findSpan n p (X i) U - p + j)) C) (fun _ => some 0)), if_pos hi,
    Igakit.forUp_fill (fun i => forUp 0 (p : ℤ) (fun j C => C +
    Igakit.basisFuns jk (findSpan n p (X i) U) (X i) p U j • P (findSpan n p (X i) U - p + j)) 0), if_pos hi]
  have key := forUp_rel (fun j (s : ℕ → Fp K) (t : ℕ → K) => HC δ B c (6 * p + 1 + j.toNat) s t) (lo := 0) (hi := (p : ℤ))
    (f := fun j C => accum rd (Fp.basisFuns rd jkF (findSpan n p (X i) U) (X i) p U j) (P (findSpan n p (X i) U - p + j)) C)
    (g := fun j C => C + Igakit.basisFuns jk (findSpan n p (X i) U) (X i) p U j • P (findSpan n p (X i) U - p + j))
    (s := fun _ => some 0) (t := 0) (by omega) (HC.zero h0 h1 B c _) (fun j s t a b h => by
      obtain ⟨q1, q2⟩ := hP (findSpan n p (X i) U - p + j) (by omega) (by omega)
      exact (h.step h0 h1 hr (hb j a b) (by omega) q1 q2).mono h0 h1 (by omega))
  exact key.mono h0 h1 (by omega)

theorem evaluate2_close (jkF : ℤ → Fp K) (jeF : ℤ → ℤ → ℕ → Fp K) (jk : ℤ → K) (je : ℤ → ℤ → ℕ → K) {nx ny : ℤ} {px py : ℕ}
    {Ux Uy : ℤ → K} (hvx : ValidKnots nx px Ux) (hvy : ValidKnots ny py Uy) {P : ℤ → ℤ → ℕ → K} {B : K} {c : ℕ}
    (hP : ∀ i, 0 ≤ i → i ≤ nx → ∀ j, 0 ≤ j → j ≤ ny → 0 ≤ P i j 3 ∧ |P i j c| ≤ B * P i j 3)
    (rx : ℤ) (X : ℤ → K) (ry : ℤ) (Y : ℤ → K) {ix iy : ℤ} (hix : 0 ≤ ix ∧ ix ≤ rx) (hiy : 0 ≤ iy ∧ iy ≤ ry)
    (hx1 : Ux px ≤ X ix) (hx2 : X ix ≤ Ux (nx + 1)) (hy1 : Uy py ≤ Y iy) (hy2 : Y iy ≤ Uy (ny + 1)) :
    HC δ B c (6 * (px + py) + 2 + (px + 1) * (py + 1)) (Fp.evaluate2 rd jkF jeF nx px Ux ny py Uy P rx X ry Y ix iy)
      (BSp.evaluate2 jk je nx px Ux ny py Uy P rx X ry Y ix iy) := by
  have hpx := hvx.one_le
  have hpy := hvy.one_le
  have hrx := findSpan_range (U := Ux) (X ix) (by omega : (0 : ℤ) ≤ px) hvx.le
  have hry := findSpan_range (U := Uy) (Y iy) (by omega : (0 : ℤ) ≤ py) hvy.le
  have hbx := basis_at h0 h1 hr hvx hx1 hx2 jkF jk
  have hby := basis_at h0 h1 hr hvy hy1 hy2 jkF jk
  obtain ⟨a1, a2⟩ := Igakit.axisTables_spec jk nx px Ux rx X ix hix.1 hix.2
  obtain ⟨b1, b2⟩ := Igakit.axisTables_spec jk ny py Uy ry Y iy hiy.1 hiy.2
  obtain ⟨c1, c2⟩ := Fp.axisTables_spec (rd := rd) jkF nx px Ux rx X ix hix.1 hix.2
  obtain ⟨d1, d2⟩ := Fp.axisTables_spec (rd := rd) jkF ny py Uy ry Y iy hiy.1 hiy.2
  unfold Fp.evaluate2 BSp.evaluate2
  simp only
  rw [Igakit.forUp_fill2 (fun ix iy => forUp 0 (px : ℤ) (fun jx C => forUp 0 (py : ℤ) (fun jy C =>
      accum rd (Fp.mul rd ((Fp.axisTables rd jkF nx px Ux rx X).2 ix jx) ((Fp.axisTables rd jkF ny py Uy ry Y).2 iy jy))
      (P ((Fp.axisTables rd jkF nx px Ux rx X).1 ix - px + jx)
        ((Fp.axisTables rd jkF ny py Uy ry Y).1 iy - py + jy)) C) C) (fun _ => some 0)) rx ry jeF ix iy hix hiy,
    Igakit.forUp_fill2 (fun ix iy => forUp 0 (px : ℤ) (fun jx C => forUp 0 (py : ℤ) (fun jy C =>
    C + ((BSp.axisTables jk nx px Ux rx X).2 ix jx * (BSp.axisTables jk ny py Uy ry Y).2 iy jy) •
      P ((BSp.axisTables jk nx px Ux rx X).1 ix - px + jx)
        ((BSp.axisTables jk ny py Uy ry Y).1 iy - py + jy)) C) 0) rx ry je ix iy hix hiy, a1, a2, b1, b2, c1, c2, d1, d2]
  generalize hsx : findSpan nx px (X ix) Ux = sx at *
  generalize hsy : findSpan ny py (Y iy) Uy = sy at *
  have key := forUp_rel (fun jx (s : ℕ → Fp K) (t : ℕ → K) => 0 ≤ jx ∧ HC δ B c (6 * (px + py) + 2 + jx.toNat * (py + 1)) s t)
    (lo := 0) (hi := (px : ℤ))
    (f := fun jx C => forUp 0 (py : ℤ) (fun jy C => accum rd (Fp.mul rd (Fp.basisFuns rd jkF sx (X ix) px Ux jx)
      (Fp.basisFuns rd jkF sy (Y iy) py Uy jy)) (P (sx - px + jx) (sy - py + jy)) C) C)
    (g := fun jx C => forUp 0 (py : ℤ) (fun jy C => C + (Igakit.basisFuns jk sx (X ix) px Ux jx *
      Igakit.basisFuns jk sy (Y iy) py Uy jy) • P (sx - px + jx) (sy - py + jy)) C)
    (s := fun _ => some 0) (t := 0) (by omega) ⟨le_rfl, HC.zero h0 h1 B c _⟩ (fun jx s t a b h => ?_)
  · refine key.2.mono h0 h1 ?_
    have : ((px : ℤ) + 1).toNat = px + 1 := by omega
    rw [this]
  · have k2 := forUp_rel (fun jy (s : ℕ → Fp K) (t : ℕ → K) => 0 ≤ jy ∧
        HC δ B c (6 * (px + py) + 2 + jx.toNat * (py + 1) + jy.toNat) s t) (lo := 0) (hi := (py : ℤ))
      (f := fun jy C => accum rd (Fp.mul rd (Fp.basisFuns rd jkF sx (X ix) px Ux jx)
        (Fp.basisFuns rd jkF sy (Y iy) py Uy jy)) (P (sx - px + jx) (sy - py + jy)) C)
      (g := fun jy C => C + (Igakit.basisFuns jk sx (X ix) px Ux jx *
        Igakit.basisFuns jk sy (Y iy) py Uy jy) • P (sx - px + jx) (sy - py + jy))
      (s := s) (t := t) (by omega) ⟨le_rfl, h.2⟩ (fun jy s t a' b' h' => ⟨by omega, by
        obtain ⟨q1, q2⟩ := hP (sx - px + jx) (by omega) (by omega) (sy - py + jy) (by omega) (by omega)
        exact (h'.2.step h0 h1 hr ((hbx jx a b).mul h0 h1 hr (hby jy a' b')) (by omega) q1 q2).mono h0 h1 (by omega)⟩)
    refine ⟨by omega, k2.2.mono h0 h1 ?_⟩
    have e1 : (jx + 1).toNat = jx.toNat + 1 := by omega
    have e2 : ((py : ℤ) + 1).toNat = py + 1 := by omega
    rw [e1, e2]
    ring_nf
    omega

theorem evaluate3_close (jkF : ℤ → Fp K) (jeF : ℤ → ℤ → ℤ → ℕ → Fp K) (jk : ℤ → K) (je : ℤ → ℤ → ℤ → ℕ → K)
    {nx ny nz : ℤ} {px py pz : ℕ} {Ux Uy Uz : ℤ → K} (hvx : ValidKnots nx px Ux) (hvy : ValidKnots ny py Uy)
    (hvz : ValidKnots nz pz Uz) {P : ℤ → ℤ → ℤ → ℕ → K} {B : K} {c : ℕ}
    (hP : ∀ i, 0 ≤ i → i ≤ nx → ∀ j, 0 ≤ j → j ≤ ny → ∀ k, 0 ≤ k → k ≤ nz → 0 ≤ P i j k 3 ∧ |P i j k c| ≤ B * P i j k 3)
    (rx : ℤ) (X : ℤ → K) (ry : ℤ) (Y : ℤ → K) (rz : ℤ) (Z : ℤ → K) {ix iy iz : ℤ} (hix : 0 ≤ ix ∧ ix ≤ rx)
    (hiy : 0 ≤ iy ∧ iy ≤ ry) (hiz : 0 ≤ iz ∧ iz ≤ rz)
    (hx1 : Ux px ≤ X ix) (hx2 : X ix ≤ Ux (nx + 1)) (hy1 : Uy py ≤ Y iy) (hy2 : Y iy ≤ Uy (ny + 1))
    (hz1 : Uz pz ≤ Z iz) (hz2 : Z iz ≤ Uz (nz + 1)) :
    HC δ B c (6 * (px + py + pz) + 3 + (px + 1) * ((py + 1) * (pz + 1)))
      (Fp.evaluate3 rd jkF jeF nx px Ux ny py Uy nz pz Uz P rx X ry Y rz Z ix iy iz)
      (BSp.evaluate3 jk je nx px Ux ny py Uy nz pz Uz P rx X ry Y rz Z ix iy iz) := by
  have hpx := hvx.one_le
  have hpy := hvy.one_le
  have hpz := hvz.one_le
  have hrx := findSpan_range (U := Ux) (X ix) (by omega : (0 : ℤ) ≤ px) hvx.le
  have hry := findSpan_range (U := Uy) (Y iy) (by omega : (0 : ℤ) ≤ py) hvy.le
  have hrz := findSpan_range (U := Uz) (Z iz) (by omega : (0 : ℤ) ≤ pz) hvz.le
  have hbx := basis_at h0 h1 hr hvx hx1 hx2 jkF jk
  have hby := basis_at h0 h1 hr hvy hy1 hy2 jkF jk
  have hbz := basis_at h0 h1 hr hvz hz1 hz2 jkF jk
  obtain ⟨a1, a2⟩ := Igakit.axisTables_spec jk nx px Ux rx X ix hix.1 hix.2
  obtain ⟨b1, b2⟩ := Igakit.axisTables_spec jk ny py Uy ry Y iy hiy.1 hiy.2
  obtain ⟨f1, f2⟩ := Igakit.axisTables_spec jk nz pz Uz rz Z iz hiz.1 hiz.2
  obtain ⟨c1, c2⟩ := Fp.axisTables_spec (rd := rd) jkF nx px Ux rx X ix hix.1 hix.2
  obtain ⟨d1, d2⟩ := Fp.axisTables_spec (rd := rd) jkF ny py Uy ry Y iy hiy.1 hiy.2
  obtain ⟨g1, g2⟩ := Fp.axisTables_spec (rd := rd) jkF nz pz Uz rz Z iz hiz.1 hiz.2
  unfold Fp.evaluate3 BSp.evaluate3
  simp only
  rw [Igakit.forUp_fill3 (fun ix iy iz => forUp 0 (px : ℤ) (fun jx C => forUp 0 (py : ℤ) (fun jy C =>
      forUp 0 (pz : ℤ) (fun jz C =>
      accum rd (Fp.mul rd (Fp.mul rd ((Fp.axisTables rd jkF nx px Ux rx X).2 ix jx)
        ((Fp.axisTables rd jkF ny py Uy ry Y).2 iy jy)) ((Fp.axisTables rd jkF nz pz Uz rz Z).2 iz jz))
      (P ((Fp.axisTables rd jkF nx px Ux rx X).1 ix - px + jx)
        ((Fp.axisTables rd jkF ny py Uy ry Y).1 iy - py + jy)
        ((Fp.axisTables rd jkF nz pz Uz rz Z).1 iz - pz + jz)) C) C) C) (fun _ => some 0)) rx ry rz jeF ix iy iz hix hiy hiz,
    Igakit.forUp_fill3 (fun ix iy iz => forUp 0 (px : ℤ) (fun jx C => forUp 0 (py : ℤ) (fun jy C => forUp 0 (pz : ℤ) (fun jz C =>
    C + ((BSp.axisTables jk nx px Ux rx X).2 ix jx * (BSp.axisTables jk ny py Uy ry Y).2 iy jy *
        (BSp.axisTables jk nz pz Uz rz Z).2 iz jz) •
      P ((BSp.axisTables jk nx px Ux rx X).1 ix - px + jx)
        ((BSp.axisTables jk ny py Uy ry Y).1 iy - py + jy)
        ((BSp.axisTables jk nz pz Uz rz Z).1 iz - pz + jz)) C) C) 0) rx ry rz je ix iy iz hix hiy hiz,
    a1, a2, b1, b2, c1, c2, d1, d2, f1, f2, g1, g2]
  generalize hsx : findSpan nx px (X ix) Ux = sx at *
  generalize hsy : findSpan ny py (Y iy) Uy = sy at *
  generalize hsz : findSpan nz pz (Z iz) Uz = sz at *
  have key := forUp_rel (fun jx (s : ℕ → Fp K) (t : ℕ → K) => 0 ≤ jx ∧
      HC δ B c (6 * (px + py + pz) + 3 + jx.toNat * ((py + 1) * (pz + 1))) s t)
    (lo := 0) (hi := (px : ℤ))
    (f := fun jx C => forUp 0 (py : ℤ) (fun jy C => forUp 0 (pz : ℤ) (fun jz C =>
      accum rd (Fp.mul rd (Fp.mul rd (Fp.basisFuns rd jkF sx (X ix) px Ux jx)
      (Fp.basisFuns rd jkF sy (Y iy) py Uy jy)) (Fp.basisFuns rd jkF sz (Z iz) pz Uz jz))
        (P (sx - px + jx) (sy - py + jy) (sz - pz + jz)) C) C) C)
    (g := fun jx C => forUp 0 (py : ℤ) (fun jy C => forUp 0 (pz : ℤ) (fun jz C =>
      C + (Igakit.basisFuns jk sx (X ix) px Ux jx * Igakit.basisFuns jk sy (Y iy) py Uy jy *
        Igakit.basisFuns jk sz (Z iz) pz Uz jz) • P (sx - px + jx) (sy - py + jy) (sz - pz + jz)) C) C)
    (s := fun _ => some 0) (t := 0) (by omega) ⟨le_rfl, HC.zero h0 h1 B c _⟩ (fun jx s t a b h => ?_)
  · refine key.2.mono h0 h1 ?_
    have : ((px : ℤ) + 1).toNat = px + 1 := by omega
    rw [this]
  · have k2 := forUp_rel (fun jy (s : ℕ → Fp K) (t : ℕ → K) => 0 ≤ jy ∧
        HC δ B c (6 * (px + py + pz) + 3 + jx.toNat * ((py + 1) * (pz + 1)) + jy.toNat * (pz + 1)) s t)
      (lo := 0) (hi := (py : ℤ))
      (f := fun jy C => forUp 0 (pz : ℤ) (fun jz C =>
        accum rd (Fp.mul rd (Fp.mul rd (Fp.basisFuns rd jkF sx (X ix) px Ux jx)
        (Fp.basisFuns rd jkF sy (Y iy) py Uy jy)) (Fp.basisFuns rd jkF sz (Z iz) pz Uz jz))
          (P (sx - px + jx) (sy - py + jy) (sz - pz + jz)) C) C)
      (g := fun jy C => forUp 0 (pz : ℤ) (fun jz C =>
        C + (Igakit.basisFuns jk sx (X ix) px Ux jx * Igakit.basisFuns jk sy (Y iy) py Uy jy *
          Igakit.basisFuns jk sz (Z iz) pz Uz jz) • P (sx - px + jx) (sy - py + jy) (sz - pz + jz)) C)
      (s := s) (t := t) (by omega) ⟨le_rfl, h.2.mono h0 h1 (by omega)⟩ (fun jy s t a' b' h' => ?_)
    · refine ⟨by omega, k2.2.mono h0 h1 ?_⟩
      have e1 : (jx + 1).toNat = jx.toNat + 1 := by omega
      have e2 : ((py : ℤ) + 1).toNat = py + 1 := by omega
      rw [e1, e2]
      exact le_of_eq (by ring)
    · have k3 := forUp_rel (fun jz (s : ℕ → Fp K) (t : ℕ → K) => 0 ≤ jz ∧
          HC δ B c (6 * (px + py + pz) + 3 + jx.toNat * ((py + 1) * (pz + 1)) + jy.toNat * (pz + 1) + jz.toNat) s t)
        (lo := 0) (hi := (pz : ℤ))
        (f := fun jz C => accum rd (Fp.mul rd (Fp.mul rd (Fp.basisFuns rd jkF sx (X ix) px Ux jx)
          (Fp.basisFuns rd jkF sy (Y iy) py Uy jy)) (Fp.basisFuns rd jkF sz (Z iz) pz Uz jz))
            (P (sx - px + jx) (sy - py + jy) (sz - pz + jz)) C)
        (g := fun jz C => C + (Igakit.basisFuns jk sx (X ix) px Ux jx * Igakit.basisFuns jk sy (Y iy) py Uy jy *
            Igakit.basisFuns jk sz (Z iz) pz Uz jz) • P (sx - px + jx) (sy - py + jy) (sz - pz + jz))
        (s := s) (t := t) (by omega) ⟨le_rfl, h'.2.mono h0 h1 (by omega)⟩ (fun jz s t a'' b'' h'' => ⟨by omega, by
          obtain ⟨q1, q2⟩ := hP (sx - px + jx) (by omega) (by omega) (sy - py + jy) (by omega) (by omega)
            (sz - pz + jz) (by omega) (by omega)
          exact (h''.2.step h0 h1 hr (((hbx jx a b).mul h0 h1 hr (hby jy a' b')).mul h0 h1 hr (hbz jz a'' b''))
            (by omega) q1 q2).mono h0 h1 (by omega)⟩)
      refine ⟨by omega, k3.2.mono h0 h1 ?_⟩
      have e1 : (jy + 1).toNat = jy.toNat + 1 := by omega
      have e2 : ((pz : ℤ) + 1).toNat = pz + 1 := by omega
      rw [e1, e2]
      exact le_of_eq (by ring)

end Fp
end Igakit
