import Verif.Proofs.FloatComp
import Verif.Proofs.Clamp

/-!
# Evaluation in floating point: uninitialised memory, and factors that commute with the rounding
-/

set_option linter.unusedSectionVars false

namespace Igakit
open Spec

variable {K : Type} [Field K] [LinearOrder K] [IsStrictOrderedRing K] {d : ℕ}

namespace Fp

/-- factors commute with sums -/
theorem add_map {rd : K → K} {g : K} (hg : ∀ x, rd (g * x) = g * rd x) (a b : Fp K) :
    add rd (a.map (g * ·)) (b.map (g * ·)) = (add rd a b).map (g * ·) := by
  cases a with
  | none => rfl
  | some x =>
    cases b with
    | none => rfl
    | some y =>
      show some (rd (g * x + g * y)) = some (g * rd (x + y))
      rw [← mul_add, hg]

theorem inv_commutes {rd : K → K} {g : K} (h0 : g ≠ 0) (hg : ∀ x, rd (g * x) = g * rd x) (x : K) : rd (g⁻¹ * x) = g⁻¹ * rd x := by
  have := hg (g⁻¹ * x)
  rw [mul_inv_cancel_left₀ h0] at this
  rw [this, inv_mul_cancel_left₀ h0]

theorem div_map {rd : K → K} {g : K} (h0 : g ≠ 0) (hg : ∀ x, rd (g * x) = g * rd x) (a b : Fp K) :
    div rd a (b.map (g * ·)) = (div rd a b).map (g⁻¹ * ·) := by
  cases a with
  | none => rfl
  | some x =>
    cases b with
    | none => rfl
    | some y =>
      show (if g * y = 0 then none else some (rd (x / (g * y)))) = (if y = 0 then none else some (rd (x / y))).map (g⁻¹ * ·)
      by_cases hy : y = 0
      · rw [if_pos hy, if_pos (by rw [hy, mul_zero])]
        rfl
      · rw [if_neg hy, if_neg (mul_ne_zero h0 hy), show x / (g * y) = g⁻¹ * (x / y) by field_simp, inv_commutes h0 hg]
        rfl

theorem mul_map {rd : K → K} {g : K} (h0 : g ≠ 0) (a b : Fp K) : mul rd (a.map (g * ·)) (b.map (g⁻¹ * ·)) = mul rd a b := by
  cases a with
  | none => rfl
  | some x =>
    cases b with
    | none => rfl
    | some y =>
      show some (rd (g * x * (g⁻¹ * y))) = some (rd (x * y))
      rw [show g * x * (g⁻¹ * y) = x * y by field_simp]

/-- the basis functions do not depend on the initial contents of the arrays, nor on a common factor of knots and parameter that
commutes with the rounding -/
theorem basisFuns_scale {rd : K → K} {g : K} (h0 : g ≠ 0) (hg : ∀ x, rd (g * x) = g * rd x) (jk jk' : ℤ → Fp K) {i n : ℤ} {uu uu' : K}
    (hu : uu' = g * uu) {p : ℤ} (hp : 0 ≤ p) (hi : p ≤ i ∧ i ≤ n) {U U' : ℤ → K} (hU : ∀ j, 0 ≤ j → j ≤ n + p + 1 → U' j = g * U j) :
    ∀ j, 0 ≤ j → j ≤ p → basisFuns rd jk i uu p U j = basisFuns rd jk' i uu' p U' j := by
  unfold basisFuns
  have hsub : ∀ x y : K, sub rd (some (g * x)) (some (g * y)) = (sub rd (some x) (some y)).map (g * ·) := fun x y => by
    show some (rd (g * x - g * y)) = some (g * rd (x - y))
    rw [← mul_sub, hg]
  have key := forUp_rel (fun j (s t : BasisSt K) => 1 ≤ j ∧ (∀ k, 0 ≤ k → k < j → s.N k = t.N k) ∧
      ∀ k, 1 ≤ k → k < j → t.left k = (s.left k).map (g * ·) ∧ t.right k = (s.right k).map (g * ·)) (lo := 1) (hi := p)
    (f := basisOuter rd i uu U) (g := basisOuter rd i uu' U')
    (s := { N := upd jk 0 (some 1), left := jk, right := jk }) (t := { N := upd jk' 0 (some 1), left := jk', right := jk' })
    (by omega) ⟨le_rfl, fun k k0 k1 => by
      have : k = 0 := by omega
      subst this
      simp [upd], fun k k0 k1 => by omega⟩ (fun j s t j1 jp h => ?_)
  · intro j j0 j1
    exact key.2.1 j j0 (by omega)
  · obtain ⟨-, hN, hlr⟩ := h
    have hl : ∀ k, 1 ≤ k → k ≤ j → upd t.left j (sub rd (some uu') (some (U' (i + 1 - j)))) k =
        (upd s.left j (sub rd (some uu) (some (U (i + 1 - j)))) k).map (g * ·) := by
      intro k k0 k1
      unfold upd
      split_ifs with e
      · rw [hu, hU _ (by omega) (by omega), hsub]
      · exact (hlr k k0 (by omega)).1
    have hrr : ∀ k, 1 ≤ k → k ≤ j → upd t.right j (sub rd (some (U' (i + j))) (some uu')) k =
        (upd s.right j (sub rd (some (U (i + j))) (some uu)) k).map (g * ·) := by
      intro k k0 k1
      unfold upd
      split_ifs with e
      · rw [hu, hU _ (by omega) (by omega), hsub]
      · exact (hlr k k0 (by omega)).2
    have hin : ∀ L L' R R' : ℤ → Fp K, (∀ k, 1 ≤ k → k ≤ j → L' k = (L k).map (g * ·)) →
        (∀ k, 1 ≤ k → k ≤ j → R' k = (R k).map (g * ·)) →
        (∀ k, 0 ≤ k → k < j → (basisInner rd L R j s.N).1 k = (basisInner rd L' R' j t.N).1 k) ∧
        (basisInner rd L R j s.N).2 = (basisInner rd L' R' j t.N).2 := by
      intro L L' R R' hL hR
      unfold basisInner
      exact (forUp_rel (fun r (a b : (ℤ → Fp K) × Fp K) => 0 ≤ r ∧ (∀ k, 0 ≤ k → k < j → a.1 k = b.1 k) ∧ a.2 = b.2)
        (lo := 0) (hi := j - 1)
        (f := fun r (s : (ℤ → Fp K) × Fp K) =>
          let temp := div rd (s.1 r) (add rd (R (r + 1)) (L (j - r)))
          (upd s.1 r (add rd s.2 (mul rd (R (r + 1)) temp)), mul rd (L (j - r)) temp))
        (g := fun r (s : (ℤ → Fp K) × Fp K) =>
          let temp := div rd (s.1 r) (add rd (R' (r + 1)) (L' (j - r)))
          (upd s.1 r (add rd s.2 (mul rd (R' (r + 1)) temp)), mul rd (L' (j - r)) temp))
        (s := (s.N, some 0)) (t := (t.N, some 0)) (by omega) ⟨le_rfl, hN, rfl⟩ (fun r a b r0 r1 h => by
          obtain ⟨-, g1, g2⟩ := h
          have e1 := g1 r r0 (by omega)
          have e2 := hR (r + 1) (by omega) (by omega)
          have e3 := hL (j - r) (by omega) (by omega)
          refine ⟨by omega, fun k k0 k1 => ?_, ?_⟩
          · simp only [upd, e1, e2, e3, g2, add_map hg, div_map h0 hg, mul_map h0]
            split_ifs
            · rfl
            · exact g1 k k0 k1
          · simp only [e1, e2, e3, add_map hg, div_map h0 hg, mul_map h0])).2
    obtain ⟨i1, i2⟩ := hin _ _ _ _ hl hrr
    refine ⟨by omega, fun k k0 k1 => ?_, fun k k0 k1 => ⟨hl k k0 (by omega), hrr k k0 (by omega)⟩⟩
    simp only [basisOuter, upd] at i1 i2 ⊢
    split_ifs with e
    · exact i2
    · exact i1 k k0 (by omega)

/-- the span does not depend on a common positive factor -/
theorem findSpan_scale {g : K} (h0 : 0 < g) {n p : ℤ} (hp : 0 ≤ p) (hn : p ≤ n) {u u' : K} (hu : u' = g * u) {U U' : ℤ → K}
    (hs : SortedOn U p (n + 1)) (hU : ∀ j, 0 ≤ j → j ≤ n + p + 1 → U' j = g * U j) : findSpan n p u' U' = findSpan n p u U := by
  have e1 : findSpan n p u' U' = findSpan n p (g * u) (fun j => g * U j) := by
    rw [hu]
    exact findSpan_congr hp hn (fun i j a b c => mul_le_mul_of_nonneg_left (hs i j a b c) h0.le)
      (fun j j0 j1 => hU j (by omega) (by omega)) _
  rw [e1]
  have hc : findSpanCond (g * u) (fun j => g * U j) = findSpanCond u U := by
    funext s
    unfold findSpanCond
    simp only [ge_iff_le, mul_lt_mul_iff_right₀ h0, mul_le_mul_iff_right₀ h0]
  have hb : findSpanBody (g * u) (fun j => g * U j) = findSpanBody u U := by
    funext s
    unfold findSpanBody
    simp only [mul_lt_mul_iff_right₀ h0]
  unfold findSpan findSpanLoop
  rw [hc, hb]
  simp only [ge_iff_le, mul_le_mul_iff_right₀ h0]

/-- the entries of `C'` are those of `C` in another order and times factors -/
def Times (f : ℕ → K) (s : ℕ → ℕ) (C C' : ℕ → Fp K) : Prop := ∀ c, C' c = (C (s c)).map (f c * ·)

variable {rd : K → K} {f : ℕ → K} {s : ℕ → ℕ}

theorem Times.zero : Times f s (fun _ => some 0) (fun _ => some (0 : K)) := fun c => by simp

theorem Times.accum (hf : ∀ c x, rd (f c * x) = f c * rd x) {C C' : ℕ → Fp K} (h : Times f s C C') {M M' : Fp K} (hM : M = M')
    {P P' : ℕ → K} (hP : ∀ c, P' c = f c * P (s c)) : Times f s (accum rd M P C) (accum rd M' P' C') := by
  subst hM
  intro c
  unfold Fp.accum
  rw [h c, hP c]
  cases M with
  | none => cases C (s c) <;> rfl
  | some m =>
    cases C (s c) with
    | none => rfl
    | some x =>
      show some (rd (f c * x + rd (m * (f c * P (s c))))) = some (f c * rd (x + rd (m * P (s c))))
      rw [mul_left_comm, hf, ← mul_add, hf]

theorem evaluate1_times (hf : ∀ c x, rd (f c * x) = f c * rd x) (jk jk' : ℤ → Fp K) (je je' : ℤ → ℕ → Fp K) {n p : ℤ} (h0 : 0 ≤ p)
    (hn : p ≤ n) {g : K} (g0 : 0 < g) (hg : ∀ x, rd (g * x) = g * rd x) {U U' : ℤ → K} (hs : SortedOn U p (n + 1))
    (hU : ∀ j, 0 ≤ j → j ≤ n + p + 1 → U' j = g * U j) {P P' : ℤ → ℕ → K}
    (hP : ∀ i, 0 ≤ i → i ≤ n → ∀ c, P' i c = f c * P i (s c)) (r : ℤ) (X X' : ℤ → K)
    {i : ℤ} (hi : 0 ≤ i ∧ i ≤ r) (hX : X' i = g * X i) :
    Times f s (evaluate1 rd jk je n p U P r X i) (evaluate1 rd jk' je' n p U' P' r X' i) := by
  have hrg := findSpan_range (U := U) (X i) h0 hn
  unfold evaluate1
  simp only
  rw [Igakit.forUp_fill (fun i => forUp 0 p (fun j C => accum rd (basisFuns rd jk (findSpan n p (X i) U) (X i) p U j)
    (P (findSpan n p (X i) U - p + j)) C) (fun _ => some 0)), if_pos hi,
    Igakit.forUp_fill (fun i => forUp 0 p (fun j C => accum rd (basisFuns rd jk' (findSpan n p (X' i) U') (X' i) p U' j)
    (P' (findSpan n p (X' i) U' - p + j)) C) (fun _ => some 0)), if_pos hi, findSpan_scale g0 h0 hn hX hs hU]
  exact forUp_rel (fun _ => Times f s) (by omega) Times.zero (fun j a b j0 j1 h =>
    h.accum hf (basisFuns_scale g0.ne' hg jk jk' hX h0 hrg hU j j0 j1) (hP _ (by omega) (by omega)))

theorem evaluate2_times (hf : ∀ c x, rd (f c * x) = f c * rd x) (jk jk' : ℤ → Fp K) (je je' : ℤ → ℤ → ℕ → Fp K) {nx px ny py : ℤ}
    (hx0 : 0 ≤ px) (hxn : px ≤ nx) (hy0 : 0 ≤ py) (hyn : py ≤ ny) {gx gy : K} (gx0 : 0 < gx) (hgx : ∀ x, rd (gx * x) = gx * rd x)
    (gy0 : 0 < gy) (hgy : ∀ x, rd (gy * x) = gy * rd x) {Ux Uy Ux' Uy' : ℤ → K}
    (hsx : SortedOn Ux px (nx + 1)) (hsy : SortedOn Uy py (ny + 1))
    (hUx : ∀ j, 0 ≤ j → j ≤ nx + px + 1 → Ux' j = gx * Ux j) (hUy : ∀ j, 0 ≤ j → j ≤ ny + py + 1 → Uy' j = gy * Uy j)
    {P P' : ℤ → ℤ → ℕ → K}
    (hP : ∀ i, 0 ≤ i → i ≤ nx → ∀ j, 0 ≤ j → j ≤ ny → ∀ c, P' i j c = f c * P i j (s c)) (rx : ℤ) (X X' : ℤ → K) (ry : ℤ)
    (Y Y' : ℤ → K) {i j : ℤ} (hi : 0 ≤ i ∧ i ≤ rx) (hj : 0 ≤ j ∧ j ≤ ry) (hX : X' i = gx * X i) (hY : Y' j = gy * Y j) :
    Times f s (evaluate2 rd jk je nx px Ux ny py Uy P rx X ry Y i j)
      (evaluate2 rd jk' je' nx px Ux' ny py Uy' P' rx X' ry Y' i j) := by
  have hrx := findSpan_range (U := Ux) (X i) hx0 hxn
  have hry := findSpan_range (U := Uy) (Y j) hy0 hyn
  have val : ∀ (jk : ℤ → Fp K) (je : ℤ → ℤ → ℕ → Fp K) (P : ℤ → ℤ → ℕ → K) (Ux Uy X Y : ℤ → K), evaluate2 rd jk je nx px Ux ny py Uy P rx X ry Y i j =
      forUp 0 px (fun jx C => forUp 0 py (fun jy C =>
        accum rd (mul rd (basisFuns rd jk (findSpan nx px (X i) Ux) (X i) px Ux jx) (basisFuns rd jk (findSpan ny py (Y j) Uy) (Y j) py Uy jy))
        (P (findSpan nx px (X i) Ux - px + jx) (findSpan ny py (Y j) Uy - py + jy)) C) C) (fun _ => some 0) := by
    intro jk je P Ux Uy X Y
    obtain ⟨c1, c2⟩ := axisTables_spec (rd := rd) jk nx px Ux rx X i hi.1 hi.2
    obtain ⟨d1, d2⟩ := axisTables_spec (rd := rd) jk ny py Uy ry Y j hj.1 hj.2
    unfold evaluate2
    simp only
    rw [Igakit.forUp_fill2 (fun ix iy => forUp 0 px (fun jx C => forUp 0 py (fun jy C =>
      accum rd (mul rd ((axisTables rd jk nx px Ux rx X).2 ix jx) ((axisTables rd jk ny py Uy ry Y).2 iy jy))
      (P ((axisTables rd jk nx px Ux rx X).1 ix - px + jx) ((axisTables rd jk ny py Uy ry Y).1 iy - py + jy)) C) C)
      (fun _ => some 0)) rx ry je i j hi hj, c1, c2, d1, d2]
  rw [val, val, findSpan_scale gx0 hx0 hxn hX hsx hUx, findSpan_scale gy0 hy0 hyn hY hsy hUy]
  exact forUp_rel (fun _ => Times f s) (by omega) Times.zero (fun jx a b a0 a1 h =>
    forUp_rel (fun _ => Times f s) (by omega) h (fun jy a b b0 b1 h =>
      h.accum hf (by rw [basisFuns_scale gx0.ne' hgx jk jk' hX hx0 hrx hUx jx a0 a1, basisFuns_scale gy0.ne' hgy jk jk' hY hy0 hry hUy jy b0 b1])
        (hP _ (by omega) (by omega) _ (by omega) (by omega))))

theorem evaluate3_times (hf : ∀ c x, rd (f c * x) = f c * rd x) (jk jk' : ℤ → Fp K) (je je' : ℤ → ℤ → ℤ → ℕ → Fp K)
    {nx px ny py nz pz : ℤ} (hx0 : 0 ≤ px) (hxn : px ≤ nx) (hy0 : 0 ≤ py) (hyn : py ≤ ny) (hz0 : 0 ≤ pz) (hzn : pz ≤ nz)
    {gx gy gz : K} (gx0 : 0 < gx) (hgx : ∀ x, rd (gx * x) = gx * rd x) (gy0 : 0 < gy) (hgy : ∀ x, rd (gy * x) = gy * rd x)
    (gz0 : 0 < gz) (hgz : ∀ x, rd (gz * x) = gz * rd x) {Ux Uy Uz Ux' Uy' Uz' : ℤ → K}
    (hsx : SortedOn Ux px (nx + 1)) (hsy : SortedOn Uy py (ny + 1)) (hsz : SortedOn Uz pz (nz + 1))
    (hUx : ∀ j, 0 ≤ j → j ≤ nx + px + 1 → Ux' j = gx * Ux j) (hUy : ∀ j, 0 ≤ j → j ≤ ny + py + 1 → Uy' j = gy * Uy j)
    (hUz : ∀ j, 0 ≤ j → j ≤ nz + pz + 1 → Uz' j = gz * Uz j) {P P' : ℤ → ℤ → ℤ → ℕ → K}
    (hP : ∀ i, 0 ≤ i → i ≤ nx → ∀ j, 0 ≤ j → j ≤ ny → ∀ k, 0 ≤ k → k ≤ nz → ∀ c, P' i j k c = f c * P i j k (s c))
    (rx : ℤ) (X X' : ℤ → K) (ry : ℤ) (Y Y' : ℤ → K) (rz : ℤ) (Z Z' : ℤ → K)
    {i j k : ℤ} (hi : 0 ≤ i ∧ i ≤ rx) (hj : 0 ≤ j ∧ j ≤ ry) (hk : 0 ≤ k ∧ k ≤ rz) (hX : X' i = gx * X i) (hY : Y' j = gy * Y j)
    (hZ : Z' k = gz * Z k) :
    Times f s (evaluate3 rd jk je nx px Ux ny py Uy nz pz Uz P rx X ry Y rz Z i j k)
      (evaluate3 rd jk' je' nx px Ux' ny py Uy' nz pz Uz' P' rx X' ry Y' rz Z' i j k) := by
  have hrx := findSpan_range (U := Ux) (X i) hx0 hxn
  have hry := findSpan_range (U := Uy) (Y j) hy0 hyn
  have hrz := findSpan_range (U := Uz) (Z k) hz0 hzn
  have val : ∀ (jk : ℤ → Fp K) (je : ℤ → ℤ → ℤ → ℕ → Fp K) (P : ℤ → ℤ → ℤ → ℕ → K) (Ux Uy Uz X Y Z : ℤ → K),
      evaluate3 rd jk je nx px Ux ny py Uy nz pz Uz P rx X ry Y rz Z i j k =
      forUp 0 px (fun jx C => forUp 0 py (fun jy C => forUp 0 pz (fun jz C =>
        accum rd (mul rd (mul rd (basisFuns rd jk (findSpan nx px (X i) Ux) (X i) px Ux jx)
          (basisFuns rd jk (findSpan ny py (Y j) Uy) (Y j) py Uy jy)) (basisFuns rd jk (findSpan nz pz (Z k) Uz) (Z k) pz Uz jz))
        (P (findSpan nx px (X i) Ux - px + jx) (findSpan ny py (Y j) Uy - py + jy) (findSpan nz pz (Z k) Uz - pz + jz)) C) C) C)
        (fun _ => some 0) := by
    intro jk je P Ux Uy Uz X Y Z
    obtain ⟨c1, c2⟩ := axisTables_spec (rd := rd) jk nx px Ux rx X i hi.1 hi.2
    obtain ⟨d1, d2⟩ := axisTables_spec (rd := rd) jk ny py Uy ry Y j hj.1 hj.2
    obtain ⟨e1, e2⟩ := axisTables_spec (rd := rd) jk nz pz Uz rz Z k hk.1 hk.2
    unfold evaluate3
    simp only
    rw [Igakit.forUp_fill3 (fun ix iy iz => forUp 0 px (fun jx C => forUp 0 py (fun jy C => forUp 0 pz (fun jz C =>
      accum rd (mul rd (mul rd ((axisTables rd jk nx px Ux rx X).2 ix jx) ((axisTables rd jk ny py Uy ry Y).2 iy jy))
        ((axisTables rd jk nz pz Uz rz Z).2 iz jz))
      (P ((axisTables rd jk nx px Ux rx X).1 ix - px + jx) ((axisTables rd jk ny py Uy ry Y).1 iy - py + jy)
        ((axisTables rd jk nz pz Uz rz Z).1 iz - pz + jz)) C) C) C)
      (fun _ => some 0)) rx ry rz je i j k hi hj hk, c1, c2, d1, d2, e1, e2]
  rw [val, val, findSpan_scale gx0 hx0 hxn hX hsx hUx, findSpan_scale gy0 hy0 hyn hY hsy hUy, findSpan_scale gz0 hz0 hzn hZ hsz hUz]
  exact forUp_rel (fun _ => Times f s) (by omega) Times.zero (fun jx a b a0 a1 h =>
    forUp_rel (fun _ => Times f s) (by omega) h (fun jy a b b0 b1 h =>
      forUp_rel (fun _ => Times f s) (by omega) h (fun jz a b g0 g1 h =>
        h.accum hf (by rw [basisFuns_scale gx0.ne' hgx jk jk' hX hx0 hrx hUx jx a0 a1, basisFuns_scale gy0.ne' hgy jk jk' hY hy0 hry hUy jy b0 b1,
            basisFuns_scale gz0.ne' hgz jk jk' hZ hz0 hrz hUz jz g0 g1])
          (hP _ (by omega) (by omega) _ (by omega) (by omega) _ (by omega) (by omega)))))

end Fp

theorem Nrb.evaluateF_times {rd : K → K} {f : ℕ → K} {s : ℕ → ℕ} (hf : ∀ c x, rd (f c * x) = f c * rd x) (jk jk' : ℤ → Fp K)
    (je je' : ℤ → ℕ → Fp K) {N : Nrb K d} (hd : d ≤ 3) (hv : N.Valid) {g : Fin d → K} (g0 : ∀ a, 0 < g a)
    (hg : ∀ a x, rd (g a * x) = g a * rd x) {U' : Fin d → ℤ → K} (hU : ∀ a j, 0 ≤ j → j < N.len a → U' a j = g a * N.U a j)
    {P' : (Fin d → ℤ) → ℕ → K} (q : ℕ)
    (hP : ∀ idx, (∀ a, 0 ≤ idx a ∧ idx a ≤ N.n a) → ∀ c, P' idx c = f c * N.P idx (s c)) (r : Fin d → ℤ) {X X' : Fin d → ℤ → K}
    (hX : ∀ a i, 0 ≤ i → i ≤ r a → X' a i = g a * X a i) :
    ∃ C C', Nrb.evaluateF rd jk je N r X = .ok C ∧ Nrb.evaluateF rd jk' je' { N with U := U', P := P', nc := q } r X' = .ok C' ∧
      ∀ i : Fin d → ℤ, (∀ a, 0 ≤ i a ∧ i a ≤ r a) → Fp.Times f s (C i) (C' i) := by
  have hp : ∀ a, 0 ≤ N.degree a ∧ N.degree a ≤ N.n a := fun a => by
    have h1 := (hv a).one_le
    have h2 := (hv a).le
    have h3 := hv.degNat a
    omega
  have hU : ∀ a j, 0 ≤ j → j ≤ N.n a + N.degree a + 1 → U' a j = g a * N.U a j := fun a j j0 j1 => hU a j j0 (by
    unfold Nrb.n Nrb.degree at j1
    omega)
  have hs : ∀ a, SortedOn (N.U a) (N.degree a) (N.n a + 1) := fun a i j h1 h2 h3 => by
    have := (hp a).1
    have e := hv.degNat a
    exact (hv a).sorted i j (by omega) h2 (by omega)
  match d, hd, N, hv, g, g0, hg, U', P', hP, r, X, X', hX, hp, hU, hs with
  | 0, _, N, hv, g, g0, hg, U', P', hP, r, X, X', hX, hp, hU, hs =>
    exact ⟨_, _, rfl, rfl, fun i hi c => congrArg some (hP ![] (fun a => a.elim0) c)⟩
  | 1, _, N, hv, g, g0, hg, U', P', hP, r, X, X', hX, hp, hU, hs =>
    refine ⟨_, _, rfl, rfl, fun i hi => ?_⟩
    exact Fp.evaluate1_times hf jk jk' je je' (hp 0).1 (hp 0).2 (g0 0) (hg 0) (hs 0) (hU 0) (P := fun j => N.P ![j]) (P' := fun j => P' ![j])
      (fun j a b => hP ![j] (fun k => by fin_cases k; exact ⟨a, b⟩)) (r 0) (X 0) (X' 0) (hi 0) (hX 0 _ (hi 0).1 (hi 0).2)
  | 2, _, N, hv, g, g0, hg, U', P', hP, r, X, X', hX, hp, hU, hs =>
    refine ⟨_, _, rfl, rfl, fun i hi => ?_⟩
    exact Fp.evaluate2_times hf jk jk' (fun _ => je) (fun _ => je') (hp 0).1 (hp 0).2 (hp 1).1 (hp 1).2 (g0 0) (hg 0) (g0 1) (hg 1)
      (hs 0) (hs 1) (hU 0) (hU 1) (P := fun j k => N.P ![j, k]) (P' := fun j k => P' ![j, k])
      (fun j a b k a' b' => hP ![j, k] (fun l => by
        fin_cases l
        · exact ⟨a, b⟩
        · exact ⟨a', b'⟩)) (r 0) (X 0) (X' 0) (r 1) (X 1) (X' 1) (hi 0) (hi 1) (hX 0 _ (hi 0).1 (hi 0).2) (hX 1 _ (hi 1).1 (hi 1).2)
  | 3, _, N, hv, g, g0, hg, U', P', hP, r, X, X', hX, hp, hU, hs =>
    refine ⟨_, _, rfl, rfl, fun i hi => ?_⟩
    exact Fp.evaluate3_times hf jk jk' (fun _ _ => je) (fun _ _ => je') (hp 0).1 (hp 0).2 (hp 1).1 (hp 1).2 (hp 2).1 (hp 2).2
      (g0 0) (hg 0) (g0 1) (hg 1) (g0 2) (hg 2) (hs 0) (hs 1) (hs 2) (hU 0) (hU 1) (hU 2)
      (P := fun j k l => N.P ![j, k, l]) (P' := fun j k l => P' ![j, k, l])
      (fun j a b k a' b' l a'' b'' => hP ![j, k, l] (fun m => by
        fin_cases m
        · exact ⟨a, b⟩
        · exact ⟨a', b'⟩
        · exact ⟨a'', b''⟩)) (r 0) (X 0) (X' 0) (r 1) (X 1) (X' 1) (r 2) (X 2) (X' 2) (hi 0) (hi 1) (hi 2)
      (hX 0 _ (hi 0).1 (hi 0).2) (hX 1 _ (hi 1).1 (hi 1).2) (hX 2 _ (hi 2).1 (hi 2).2)

end Igakit
