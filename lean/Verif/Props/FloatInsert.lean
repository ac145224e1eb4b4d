import Verif.Proofs.FloatInsert
import Verif.Props.Float

/-! # Property C73: rounding errors of knot insertion -/

set_option linter.unusedSectionVars false

namespace Igakit
open Spec

variable {K : Type} [Field K] [LinearOrder K] [IsStrictOrderedRing K] {ι : Type}

/-- two nets that differ by at most `e` give curves that differ by at most `e` -/
theorem curve_dist {n : ℤ} {p : ℕ} {U : ℤ → K} (hv : ValidKnots n p U) {P Q : ℤ → K} {e : K}
    (h : ∀ i, 0 ≤ i → i ≤ n → |P i - Q i| ≤ e) {u : K} (h1 : U p ≤ u) (h2 : u ≤ U (n + 1)) :
    |curve n p U P u - curve n p U Q u| ≤ e := by
  unfold curve
  rw [← Finset.sum_sub_distrib]
  refine (Finset.abs_sum_le_sum_abs _ _).trans ?_
  calc _ ≤ ∑ i ∈ Finset.Icc 0 n, bsplineD n U p i u * e := by
        refine Finset.sum_le_sum fun i hi => ?_
        have hi := Finset.mem_Icc.mp hi
        have hb := bsplineD_nonneg hv h1 h2 hi.1 hi.2
        rw [← smul_sub, smul_eq_mul, abs_mul, abs_of_nonneg hb]
        exact mul_le_mul_of_nonneg_left (h i hi.1 hi.2) hb
    _ = e := by rw [← Finset.sum_mul, bsplineD_sum_one hv h1 h2, one_mul]

/-- a curve lies between the bounds of its net -/
theorem curve_between {n : ℤ} {p : ℕ} {U : ℤ → K} (hv : ValidKnots n p U) {P : ℤ → K} {lo hi : K}
    (h : ∀ i, 0 ≤ i → i ≤ n → lo ≤ P i ∧ P i ≤ hi) {u : K} (h1 : U p ≤ u) (h2 : u ≤ U (n + 1)) :
    lo ≤ curve n p U P u ∧ curve n p U P u ≤ hi := by
  have hs := bsplineD_sum_one hv h1 h2
  have key : ∀ c : K, c = ∑ i ∈ Finset.Icc 0 n, bsplineD n U p i u * c := fun c => by
    rw [← Finset.sum_mul, hs, one_mul]
  unfold curve
  constructor
  · rw [key lo]
    refine Finset.sum_le_sum fun i hi => ?_
    have hi := Finset.mem_Icc.mp hi
    exact mul_le_mul_of_nonneg_left (h i hi.1 hi.2).1 (bsplineD_nonneg hv h1 h2 hi.1 hi.2)
  · rw [key hi]
    refine Finset.sum_le_sum fun i hi => ?_
    have hi := Finset.mem_Icc.mp hi
    exact mul_le_mul_of_nonneg_left (h i hi.1 hi.2).2 (bsplineD_nonneg hv h1 h2 hi.1 hi.2)

theorem curve_component (n : ℤ) (p : ℕ) (U : ℤ → K) (P : ℤ → ι → K) (u : K) (c : ι) :
    curve n p U P u c = curve n p U (fun i => P i c) u := by
  unfold curve
  rw [Finset.sum_apply]
  rfl

/-- the computed curve `V`, `Q` stands for the curve `U`, `P`, or a part of it, up to `k` combinations of control points: every component of the new
net is a number; it is larger by at most `8 k` roundings than the largest old one, and so is the distance of the curves; positive
components stay positive and within their bounds, up to `3 k` roundings -/
structure NearCurve (δ : K) (k : ℕ) (n : ℤ) (p : ℕ) (U : ℤ → K) (P : ℤ → ι → K) (n' : ℤ) (V : ℤ → K) (Q : ℤ → ι → Fp K)
    (Q' : ℤ → ι → K) : Prop where
  num : ∀ c i, 0 ≤ i → i ≤ n' → Q i c = some (Q' i c)
  size : ∀ c A, (∀ i, 0 ≤ i → i ≤ n → |P i c| ≤ A) → ∀ i, 0 ≤ i → i ≤ n' → |Q' i c| ≤ growth δ ^ (8 * k) * A
  dist : ∀ c A, (∀ i, 0 ≤ i → i ≤ n → |P i c| ≤ A) → ∀ u, V p ≤ u → u ≤ V (n' + 1) →
    |curve n' p V (fun i => Q' i c) u - curve n p U (fun i => P i c) u| ≤ (growth δ ^ (8 * k) - 1) * A
  box : ∀ c lo hi, 0 < lo → (∀ i, 0 ≤ i → i ≤ n → lo ≤ P i c ∧ P i c ≤ hi) → ∀ i, 0 ≤ i → i ≤ n' →
    lo / growth δ ^ (3 * k) ≤ Q' i c ∧ Q' i c ≤ growth δ ^ (3 * k) * hi

/-- from errors of the entries to errors of the curve -/
theorem near_of_err {δ : K} (h0 : 0 ≤ δ) (hδ : δ < 1) {k : ℕ} {n n' : ℤ} {p : ℕ} {U V : ℤ → K} {P Q : ℤ → ι → K}
    {QF : ℤ → ι → Fp K} (hV : ValidKnots n' p V)
    (e6 : ∀ u, V p ≤ u → u ≤ V (n' + 1) → curve n' p V Q u = curve n p U P u)
    (g2 : ∀ c A, (∀ i, 0 ≤ i → i ≤ n → |P i c| ≤ A) → ∀ i, 0 ≤ i → i ≤ n' → Fp.Err δ A (8 * k) (QF i c) (Q i c))
    (g3 : ∀ c lo hi, 0 < lo → (∀ i, 0 ≤ i → i ≤ n → lo ≤ P i c ∧ P i c ≤ hi) → ∀ i, 0 ≤ i → i ≤ n' →
      Fp.Box δ lo hi (3 * k) (QF i c)) :
    NearCurve δ k n p U P n' V QF (fun i c => (QF i c).getD 0) := by
  have hρ := Fp.one_le_growth h0 hδ
  refine ⟨fun c i a b => ?_, fun c A hA i a b => ?_, fun c A hA u u1 u2 => ?_, fun c lo hi hlo hb i a b => ?_⟩
  · obtain ⟨x, q1, -, -⟩ := g2 c (∑ i ∈ Finset.Icc 0 n, |P i c|) (fun i a b =>
      Finset.single_le_sum (f := fun i => |P i c|) (fun _ _ => abs_nonneg _) (Finset.mem_Icc.mpr ⟨a, b⟩)) i a b
    rw [q1]
    rfl
  · obtain ⟨x, q1, q2, q3⟩ := g2 c A hA i a b
    rw [q1, Option.getD_some]
    calc |x| = |(x - Q i c) + Q i c| := by ring_nf
      _ ≤ |x - Q i c| + |Q i c| := abs_add_le _ _
      _ ≤ (growth δ ^ (8 * k) - 1) * A + A := add_le_add q2 q3
      _ = _ := by ring
  · have := e6 u u1 u2
    have := congrFun this c
    rw [curve_component, curve_component] at this
    rw [← this]
    refine curve_dist hV (fun i a b => ?_) u1 u2
    obtain ⟨x, q1, q2, -⟩ := g2 c A hA i a b
    rw [q1]
    exact q2
  · obtain ⟨x, q1, q2, q3⟩ := g3 c lo hi hlo hb i a b
    rw [q1]
    refine ⟨?_, q3⟩
    rw [div_le_iff₀ (by positivity), mul_comm]
    exact q2

/-- C73: knot insertion in floating point.  The knots are exact; each component of the new net is finite, and the curve it defines
differs from the old one by at most `8 r` roundings of the largest control point.  Positive components (weights) stay positive and
within their bounds, up to `3 r` roundings. -/
theorem C73_InsertKnot {δ : K} {rd : K → K} (h0 : 0 ≤ δ) (hδ : δ < 1) (hrd : RelErr δ rd) (hmono : Monotone rd)
    (hone : rd 1 = 1) {eps : K} (heps : 0 < eps) (hE : ∀ x, eps ≤ |x| → eps ≤ |rd x|) (jk : ℤ → K) (je : ℤ → ι → Fp K)
    {n : ℤ} {p : ℕ} {U : ℤ → K} (hv : ValidKnots n p U) (P : ℤ → ι → K) {uu : K} (h1 : U p < uu) (h2 : uu < U (n + 1))
    (hsep : SepFrom eps uu U 0 (n + p + 1)) {r : ℕ} (hr : r + mult U 0 (n + p + 1) uu ≤ p) :
    ∃ V Q, Fp.InsertKnot rd eps jk je n p U P uu r = .ok (V, Q) ∧
      ValidKnots (n + r) p V ∧ V p = U p ∧ V (n + r + 1) = U (n + 1) ∧
      knotMS V (n + r + p + 1) = knotMS U (n + p + 1) + Multiset.replicate r uu ∧
      ∃ Q' : ℤ → ι → K, NearCurve δ r n p U P (n + r) V Q Q' := by
  have hp := hv.one_le
  have hle := hv.le
  have hρ := Fp.one_le_growth h0 hδ
  have hz : rd 0 = 0 := by
    have := hrd 0
    rw [abs_zero, mul_zero, sub_zero] at this
    exact abs_eq_zero.mp (le_antisymm this (abs_nonneg _))
  obtain ⟨b1, b2, b3, b4⟩ := findSpan_mid (by omega) hle h1 h2
  have hs := findMult_mid heps hv b1 b2 b3 b4 hsep (by omega)
  have hsF : Fp.findMult rd eps (findSpan n p uu U) uu p U = findMult eps (findSpan n p uu U) uu p U :=
    Fp.findMult_eq hz hE (fun j a b => hsep j (by omega) (by omega))
  obtain ⟨V, Q, e1, e2, e3, e4, e5, e6⟩ := C07_InsertKnot heps jk (fun _ => 0) hv P h1 h2 hsep hr
  have hgo : n ≥ 1 ∧ (p : ℤ) ≥ 1 ∧ (uu ≥ U p ∧ uu ≤ U (n + 1)) ∧ ((r : ℤ) ≥ 0 ∧ (r : ℤ) ≤ p) :=
    ⟨by omega, hp, ⟨h1.le, h2.le⟩, by omega, by omega⟩
  -- everything follows from the two relations
  suffices fin : ∃ QF : ℤ → ι → Fp K, Fp.InsertKnot rd eps jk je n p U P uu r = .ok (V, QF) ∧
      (∀ c A, (∀ i, 0 ≤ i → i ≤ n → |P i c| ≤ A) → ∀ i, 0 ≤ i → i ≤ n + r → Fp.Err δ A (8 * r) (QF i c) (Q i c)) ∧
      (∀ c lo hi, 0 < lo → (∀ i, 0 ≤ i → i ≤ n → lo ≤ P i c ∧ P i c ≤ hi) → ∀ i, 0 ≤ i → i ≤ n + r →
        Fp.Box δ lo hi (3 * r) (QF i c)) by
    obtain ⟨QF, g1, g2, g3⟩ := fin
    exact ⟨V, QF, g1, e2, e3, e4, e5, _, near_of_err h0 hδ e2 (by rw [e3, e4]; exact e6) g2 g3⟩
  unfold BSp.InsertKnot at e1
  rw [if_pos hgo] at e1
  by_cases hr0 : r = 0
  · rw [if_pos (by exact_mod_cast hr0)] at e1
    injection e1 with e1
    injection e1 with eV eQ
    refine ⟨fillRange je 0 n 0 (fun i c => some (P i c)), ?_, ?_, ?_⟩
    · unfold Fp.InsertKnot
      rw [if_pos hgo, if_pos (by exact_mod_cast hr0), eV]
    · intro c A hA i a b
      rw [← eQ, fillRange_in _ _ _ _ _ (by omega) (by omega), fillRange_in _ _ _ _ _ (by omega) (by omega)]
      exact ⟨_, rfl, by
        rw [sub_self, abs_zero]
        exact mul_nonneg (by have := Fp.growth_pow h0 hδ (8 * r); linarith)
          ((abs_nonneg _).trans (hA 0 le_rfl (by omega))), hA _ (by omega) (by omega)⟩
    · intro c lo hi hlo hb i a b
      rw [fillRange_in _ _ _ _ _ (by omega) (by omega), hr0]
      obtain ⟨q1, q2⟩ := hb (i - 0) (by omega) (by omega)
      exact ⟨_, rfl, by simpa using q1, by simpa using q2⟩
  · rw [if_neg (by exact_mod_cast hr0)] at e1
    injection e1 with e1
    injection e1 with eV eQ
    refine ⟨Fp.insertKnotQ rd je n p U P uu (findSpan n p uu U) (Fp.findMult rd eps (findSpan n p uu U) uu p U) r, ?_, ?_, ?_⟩
    · unfold Fp.InsertKnot
      rw [if_pos hgo, if_neg (by exact_mod_cast hr0), ← eV]
    · intro c A hA i a b
      rw [← eQ, hsF, hs]
      have := Fp.insertKnotQ_rel (rd := rd) (Rel := fun m a x => Fp.Err δ A (8 * m) a x)
        (fun m a x h => h.mono h0 hδ (by omega))
        (fun m u a b xF x yF y ha hb hx hy => Fp.Err.cut h0 hδ hrd ha hb.le (ha.trans_lt hb) hx hy) c je (fun _ => 0) hv (P := P) (s := mult U 0 (n + p + 1) uu)
        (r := r) (k := findSpan n p uu U)
        (fun i i0 i1 => ⟨_, rfl, by simp, hA i i0 i1⟩) (by omega) (by omega) (by omega) b1 b2 b3 b4 i a b
      rw [Int.toNat_natCast] at this
      exact this
    · intro c lo hi hlo hb i a b
      rw [hsF, hs]
      have hlh : lo ≤ hi := (hb 0 le_rfl (by omega)).1.trans (hb 0 le_rfl (by omega)).2
      have := Fp.insertKnotQ_rel (rd := rd) (Rel := fun m a _ => Fp.Box δ lo hi (3 * m) a)
        (fun m a x h => h.mono h0 hδ hlo hlh (by omega))
        (fun m u a b xF x yF y ha hb hx hy => Fp.Box.cut h0 hδ hrd hmono hone hlo ha hb.le (ha.trans_lt hb) hx hy) c je (fun _ => 0) hv (P := P) (s := mult U 0 (n + p + 1) uu)
        (r := r) (k := findSpan n p uu U)
        (fun i i0 i1 => ⟨_, rfl, by simpa using (hb i i0 i1).1, by simpa using (hb i i0 i1).2⟩) (by omega) (by omega) (by omega)
        b1 b2 b3 b4 i a b
      rw [Int.toNat_natCast] at this
      exact this

/-- the distance of two quotients -/
theorem quot_dist {X W x y e g lo hi B : K} (hlo : 0 < lo) (hhi : 0 ≤ hi) (hg : 0 < g) (he : 0 ≤ e) (hB0 : 0 ≤ B) (hWo : lo ≤ y)
    (hWn : lo / g ≤ W) (hx : |X - x| ≤ e * (B * hi)) (hy : |W - y| ≤ e * hi) (hq : |x| ≤ B * y) :
    |X / W - x / y| ≤ 2 * e * g * (hi / lo) * B := by
  have hy0 : 0 < y := hlo.trans_le hWo
  have hW0 : 0 < W := (div_pos hlo hg).trans_le hWn
  have hWi : 1 / W ≤ g / lo := by
    rw [div_le_div_iff₀ hW0 hlo, one_mul]
    rwa [div_le_iff₀ hg, mul_comm] at hWn
  have e1 : X / W - x / y = ((X - x) + x / y * (y - W)) * (1 / W) := by
    field_simp
    ring
  have hb : |(X - x) + x / y * (y - W)| ≤ 2 * (e * (B * hi)) := by
    refine (abs_add_le _ _).trans ?_
    have hxy : |x / y| ≤ B := by
      rw [abs_div, abs_of_pos hy0, div_le_iff₀ hy0]
      exact hq
    have : |x / y * (y - W)| ≤ B * (e * hi) := by
      rw [abs_mul, abs_sub_comm]
      exact mul_le_mul hxy hy (abs_nonneg _) hB0
    linarith
  rw [e1, abs_mul, abs_of_pos (by positivity : 0 < 1 / W)]
  calc |(X - x) + x / y * (y - W)| * (1 / W) ≤ 2 * (e * (B * hi)) * (g / lo) :=
        mul_le_mul hb hWi (by positivity) (by positivity)
    _ = _ := by ring

/-- C73: the curve in space, for weights between `lo > 0` and `hi` and control points of size at most `B` -/
theorem C73_points {δ : K} {rd : K → K} (h0 : 0 ≤ δ) (hδ : δ < 1) (hrd : RelErr δ rd) (hmono : Monotone rd)
    (hone : rd 1 = 1) {eps : K} (heps : 0 < eps) (hE : ∀ x, eps ≤ |x| → eps ≤ |rd x|) (jk : ℤ → K) (je : ℤ → ι → Fp K)
    {n : ℤ} {p : ℕ} {U : ℤ → K} (hv : ValidKnots n p U) (P : ℤ → ι → K) {uu : K} (h1 : U p < uu) (h2 : uu < U (n + 1))
    (hsep : SepFrom eps uu U 0 (n + p + 1)) {r : ℕ} (hr : r + mult U 0 (n + p + 1) uu ≤ p) {w c : ι} {lo hi B : K}
    (hlo : 0 < lo) (hw : ∀ i, 0 ≤ i → i ≤ n → lo ≤ P i w ∧ P i w ≤ hi) (hB : ∀ i, 0 ≤ i → i ≤ n → |P i c / P i w| ≤ B) :
    ∃ V Q, Fp.InsertKnot rd eps jk je n p U P uu r = .ok (V, Q) ∧
      ∃ X W : ℤ → K, (∀ i, 0 ≤ i → i ≤ n + r → Q i c = some (X i) ∧ Q i w = some (W i) ∧ 0 < W i) ∧
        ∀ u, U p ≤ u → u ≤ U (n + 1) →
          |curve (n + r) p V X u / curve (n + r) p V W u - curve n p U (fun i => P i c) u / curve n p U (fun i => P i w) u| ≤
            2 * (growth δ ^ (8 * r) - 1) * growth δ ^ (3 * r) * (hi / lo) * B := by
  obtain ⟨V, Q, e1, e2, e3, e4, -, Q', e5⟩ := C73_InsertKnot h0 hδ hrd hmono hone heps hE jk je hv P h1 h2 hsep hr
  have hle := hv.le
  have hp := hv.one_le
  have hB0 : 0 ≤ B := (abs_nonneg _).trans (hB 0 le_rfl (by omega))
  have hhi : 0 < hi := hlo.trans_le ((hw 0 le_rfl (by omega)).1.trans (hw 0 le_rfl (by omega)).2)
  have hPc : ∀ i, 0 ≤ i → i ≤ n → |P i c| ≤ B * P i w := by
    intro i a b
    have hwp := hlo.trans_le (hw i a b).1
    have := hB i a b
    rwa [abs_div, abs_of_pos hwp, div_le_iff₀ hwp] at this
  have c2 := e5.dist c (B * hi) (fun i a b => (hPc i a b).trans (mul_le_mul_of_nonneg_left (hw i a b).2 hB0))
  have w2 := e5.dist w hi (fun i a b => by
    rw [abs_of_pos (hlo.trans_le (hw i a b).1)]
    exact (hw i a b).2)
  have w3 := e5.box w lo hi hlo hw
  have hg : 0 < growth δ ^ (3 * r) := by linarith [Fp.growth_pow h0 hδ (3 * r)]
  have hg8 := Fp.growth_pow h0 hδ (8 * r)
  refine ⟨V, Q, e1, fun i => Q' i c, fun i => Q' i w, fun i a b => ⟨e5.num c i a b, e5.num w i a b,
    (div_pos hlo hg).trans_le (w3 i a b).1⟩, fun u u1 u2 => ?_⟩
  have hWn := (curve_between e2 w3 (u := u) (by rw [e3]; exact u1) (by rw [e4]; exact u2)).1
  have hWo := (curve_between hv hw u1 u2).1
  rw [e3, e4] at c2 w2
  have hx := c2 u u1 u2
  have hy := w2 u u1 u2
  -- the exact quotient is at most `B`
  have hq : |curve n p U (fun i => P i c) u| ≤ B * curve n p U (fun i => P i w) u := by
    unfold curve
    rw [Finset.mul_sum]
    refine (Finset.abs_sum_le_sum_abs _ _).trans (Finset.sum_le_sum fun i hi => ?_)
    have hi := Finset.mem_Icc.mp hi
    have hb := bsplineD_nonneg hv u1 u2 hi.1 hi.2
    rw [smul_eq_mul, smul_eq_mul, abs_mul, abs_of_nonneg hb, mul_left_comm]
    exact mul_le_mul_of_nonneg_left (hPc i hi.1 hi.2) hb
  exact quot_dist hlo hhi.le hg (by linarith) hB0 hWo hWn hx hy hq

/-- the knot `1/2` inserted twice into the quadratic curve on `Ex.U`, in doubles: with weights between 1 and 2 and control points of
size at most 10 the curve moves by less than `10^-12` -/
example (jk : ℤ → ℚ) (je : ℤ → ℕ → Fp ℚ) {P : ℤ → ℕ → ℚ} (hw : ∀ i, 0 ≤ i → i ≤ 5 → 1 ≤ P i 3 ∧ P i 3 ≤ 2)
    (hB : ∀ i, 0 ≤ i → i ≤ 5 → |P i 0 / P i 3| ≤ 10) :
    ∃ V Q, Fp.InsertKnot (Ex.fl 53) (1 / 2 ^ 52) jk je 5 2 Ex.U P (1 / 2) 2 = .ok (V, Q) ∧
      ∃ X W : ℤ → ℚ, (∀ i, 0 ≤ i → i ≤ 7 → Q i 0 = some (X i) ∧ Q i 3 = some (W i) ∧ 0 < W i) ∧
        ∀ u, 0 ≤ u → u ≤ 3 →
          |curve 7 2 V X u / curve 7 2 V W u - curve 5 2 Ex.U (fun i => P i 0) u / curve 5 2 Ex.U (fun i => P i 3) u| ≤
            1 / 10 ^ 12 := by
  have hsep : SepFrom (1 / 2 ^ 52) (1 / 2 : ℚ) Ex.U 0 (5 + 2 + 1) := by
    have : ∀ j ∈ Finset.Icc (0 : ℤ) 8, (1 / 2 ^ 52 : ℚ) ≤ |1 / 2 - Ex.U j| := by decide +kernel
    exact fun j a b => .inr (this j (Finset.mem_Icc.mpr ⟨a, b⟩))
  obtain ⟨V, Q, e1, X, W, e2, e3⟩ := C73_points (by positivity) (by norm_num) (Ex.fl_relErr 53) (Ex.fl_mono (by norm_num))
    (Ex.fl_one (by norm_num)) (eps := 1 / 2 ^ 52) (by norm_num)
    (fun x h => by
      have := Ex.fl_ge (t := 53) (by norm_num) (-52) (x := x) (by rw [zpow_neg]; norm_num at h ⊢; exact h)
      rw [zpow_neg] at this
      norm_num at this ⊢
      exact this) jk je Ex.U_valid P (uu := 1 / 2)
    (show (0 : ℚ) < 1 / 2 by norm_num) (show (1 / 2 : ℚ) < 3 by norm_num) hsep (r := 2) (by decide +kernel)
    (w := 3) (c := 0) (lo := 1) (hi := 2) (B := 10) one_pos hw hB
  refine ⟨V, Q, e1, X, W, e2, fun u u1 u2 => (e3 u u1 u2).trans ?_⟩
  have g1 := growth_le (δ := (2 : ℚ) ^ (-((53 : ℕ) : ℤ))) (by positivity) (m := 8 * 2) (by norm_num)
  have g2 := growth_le (δ := (2 : ℚ) ^ (-((53 : ℕ) : ℤ))) (by positivity) (m := 3 * 2) (by norm_num)
  have g3 := Fp.growth_pow (δ := (2 : ℚ) ^ (-((53 : ℕ) : ℤ))) (by positivity) (by norm_num) (8 * 2)
  have g4 := Fp.growth_pow (δ := (2 : ℚ) ^ (-((53 : ℕ) : ℤ))) (by positivity) (by norm_num) (3 * 2)
  generalize growth ((2 : ℚ) ^ (-((53 : ℕ) : ℤ))) ^ (8 * 2) = a at *
  generalize growth ((2 : ℚ) ^ (-((53 : ℕ) : ℤ))) ^ (3 * 2) = b at *
  norm_num at g1 g2
  have ha : a - 1 ≤ 2 / 10 ^ 15 := by norm_num; linarith
  have hb : b ≤ 2 := by linarith
  have := mul_le_mul ha hb (by linarith) (by norm_num)
  norm_num at this ⊢
  linarith

end Igakit
