import Verif.Proofs.Eval23
import Verif.Proofs.FindMult
import Verif.Spec.Examples

/-!
# Properties C01-C05: span search, multiplicity, basis functions, evaluation
-/

set_option linter.unusedSectionVars false

namespace Igakit
open Spec

variable {K : Type*} [Field K] [LinearOrder K] [IsStrictOrderedRing K]
variable {E : Type*} [AddCommGroup E] [Module K E]

/-! ## C01 -/

/-- Specification of the knot span of `u` for degree `p` and control points `0..n`. -/
structure Spec.IsSpan (n p : ℤ) (U : ℤ → K) (u : K) (k : ℤ) : Prop where
  ge : p ≤ k
  le : k ≤ n
  interior : U p < u → u < U (n + 1) → U k ≤ u ∧ u < U (k + 1)
  right : U (n + 1) ≤ u → k = n
  left : u < U (n + 1) → u ≤ U p → k = p

/-- C01, termination: for *every* array (sorted or not) whenever the `while` loop is entered it
stops after at most `n+1-p` passes, and every larger number of passes gives the same result. -/
theorem C01_loop_terminates (n p : ℤ) (uu : K) (U : ℤ → K) (h0 : 0 ≤ p) (hpn : p ≤ n)
    (h1 : ¬ uu ≥ U (n + 1)) (h2 : ¬ uu ≤ U p) :
    ∃ s, ∀ fuel, (n + 1 - p).toNat ≤ fuel → findSpanLoop fuel n p uu U = some s := by
  obtain ⟨s, hs, -⟩ := findSpanLoop_spec (n + 1 - p).toNat n p uu U h0 hpn (not_le.mp h2)
    (not_le.mp h1) (le_refl _)
  exact ⟨s, fun fuel hf => whileFuel_mono _ _ _ _ hf hs⟩

/-- C01: `bsp.FindSpan` returns the span for every array and every parameter; calls with
`p < 1` or a too short knot vector are rejected. -/
theorem C01_FindSpan (p m : ℤ) (U : ℤ → K) (u : K) :
    (1 ≤ p ∧ 2 * p + 1 ≤ m →
      ∃ k, BSp.FindSpan p m U u = .ok k ∧ IsSpan (m - p - 1) p U u k) ∧
    (¬ (1 ≤ p ∧ 2 * p + 1 ≤ m) → BSp.FindSpan p m U u = .error .f2py) := by
  unfold BSp.FindSpan
  constructor
  · intro h
    rw [if_pos h]
    have e : m - (p + 1) = m - p - 1 := by ring
    refine ⟨_, rfl, ?_⟩
    rw [e]
    have hr := findSpan_range (n := m - p - 1) (U := U) u (by omega : 0 ≤ p) (by omega)
    refine ⟨hr.1, hr.2, fun a b => ?_, fun a => findSpan_ge a, fun a b => findSpan_le a b⟩
    have := findSpan_mid (n := m - p - 1) (by omega : 0 ≤ p) (by omega) a b
    exact this.2.2
  · intro h
    rw [if_neg h]

/-- C01, uniqueness: on a nondecreasing array an interior parameter has only one span. -/
theorem C01_span_unique {n p : ℤ} {U : ℤ → K} (hp : 0 ≤ p) (hs : SortedOn U 0 (n + p + 1)) {u : K}
    {k k' : ℤ} (h1 : U p < u) (h2 : u < U (n + 1)) (hk : IsSpan n p U u k)
    (hk' : IsSpan n p U u k') : k = k' := by
  have a := hk.interior h1 h2
  have b := hk'.interior h1 h2
  have := hk.ge; have := hk.le; have := hk'.ge; have := hk'.le
  exact span_unique hs (by omega) (by omega) (by omega) (by omega) a.1 a.2 b.1 b.2

example : BSp.FindSpan 2 8 Ex.U (3 / 2) = .ok 3 := by decide +kernel
example : BSp.FindSpan 2 8 Ex.U 2 = .ok 5 := by decide +kernel
example : BSp.FindSpan 2 8 Ex.U 3 = .ok 5 := by decide +kernel
/-- the loop is entered, also for an array that is not sorted -/
example : ¬ (1 : ℚ) ≥ vec [0, 0, 0, 5, -1, 2, 2, 2] (4 + 1) ∧
    ¬ (1 : ℚ) ≤ vec [0, 0, 0, 5, -1, 2, 2, 2] 2 ∧
    BSp.FindSpan 2 7 (vec [0, 0, 0, 5, -1, 2, 2, 2]) 1 = .ok 2 := by decide +kernel

/-! ## C02 -/

/-- C02: the multiplicity reported for a parameter of the domain is the number of knots equal to
it.  (`u` may occur up to `p+1` times; at the domain ends the bound is automatic.) -/
theorem C02_FindMult {eps : K} (heps : 0 < eps) {n : ℤ} {p : ℕ} {U : ℤ → K}
    (hv : ValidKnots n p U) {u : K} (h1 : U p ≤ u) (h2 : u ≤ U (n + 1))
    (hsep : SepFrom eps u U 0 (n + p + 1)) (hm : mult U 0 (n + p + 1) u ≤ p + 1) :
    BSp.FindMult eps p (n + p + 1) U u = .ok (mult U 0 (n + p + 1) u : ℤ) := by
  have hp := hv.one_le
  have hle := hv.le
  unfold BSp.FindMult
  rw [if_pos (by omega), if_neg (by omega)]
  have e : n + (p : ℤ) + 1 - (p + 1) = n := by ring
  rw [e]
  congr 1
  rcases h2.eq_or_lt with h | h
  · subst h
    rw [findSpan_ge (le_refl _)]
    exact findMult_last heps hv hsep
  · rcases h1.eq_or_lt with h' | h'
    · subst h'
      rw [findSpan_le h (le_refl _)]
      exact findMult_first heps hv hsep
    · obtain ⟨b1, b2, b3, b4⟩ := findSpan_mid (by omega) hle h' h
      exact findMult_mid heps hv b1 b2 b3 b4 hsep (by exact_mod_cast hm)

/-- C02: a parameter that is not a knot has multiplicity 0. -/
theorem C02_not_a_knot {eps : K} (heps : 0 < eps) {n : ℤ} {p : ℕ} {U : ℤ → K}
    (hv : ValidKnots n p U) {u : K} (h1 : U p ≤ u) (h2 : u ≤ U (n + 1))
    (hfar : ∀ j, 0 ≤ j → j ≤ n + p + 1 → eps ≤ |u - U j|) :
    BSp.FindMult eps p (n + p + 1) U u = .ok 0 := by
  have hz : mult U 0 (n + p + 1) u = 0 := by
    unfold mult
    rw [Finset.card_eq_zero, Finset.filter_eq_empty_iff]
    intro j hj e
    have hj := Finset.mem_Icc.mp hj
    have := hfar j hj.1 hj.2
    rw [e, sub_self, abs_zero] at this
    exact absurd this (not_le.mpr heps)
  have := C02_FindMult heps hv h1 h2 (fun j a b => Or.inr (hfar j a b)) (by omega)
  rw [this, hz]; rfl

example : BSp.FindMult (1 / 1000) 2 8 Ex.U 2 = .ok 2 ∧ mult Ex.U 0 8 2 = 2 ∧
    BSp.FindMult (1 / 1000) 2 8 Ex.U (1 / 2) = .ok 0 ∧
    BSp.FindMult (1 / 1000) 2 8 Ex.U 3 = .ok 3 := by decide +kernel
example : SepFrom (1 / 1000) 2 Ex.U 0 (5 + (2 : ℕ) + 1) := by
  intro j h1 h2
  have h2 : j ≤ 8 := by simpa using h2
  interval_cases j <;> decide +kernel

/-- The hypothesis "at most `p+1` times" cannot be dropped: the search window is too short. -/
example : BSp.FindMult (1 / 1000) 1 9 (vec [0, 0, 1, 1, 1, 1, 1, 1, 2, 2]) (1 : ℚ) = .ok 2 ∧
    mult (vec [0, 0, 1, 1, 1, 1, 1, 1, 2, 2]) 0 9 (1 : ℚ) = 6 := by decide +kernel
/-- Distinct knots closer than `eps` are counted together. -/
example : BSp.FindMult (1 / 1000) 1 4 (vec [0, 0, 1 / 10000, 1, 1]) (0 : ℚ) = .ok 3 := by
  decide +kernel

/-! ## C03 -/

/-- C03: the values returned by `bsp.EvalBasisFuns` are the Cox-de Boor functions of the window
of the span, and all other B-splines vanish at `u`.  The result does not depend on the initial
contents `jk` of the output and work arrays. -/
theorem C03_EvalBasisFuns (jk : ℤ → K) {n : ℤ} {p : ℕ} {U : ℤ → K} (hv : ValidKnots n p U) {u : K}
    (h1 : U p ≤ u) (h2 : u ≤ U (n + 1)) :
    ∃ k N, BSp.FindSpan p (n + p + 1) U u = .ok k ∧
      BSp.EvalBasisFuns jk p (n + p + 1) U u = .ok N ∧
      (∀ r : ℤ, 0 ≤ r → r ≤ p → N r = bsplineD n U p (k - p + r) u) ∧
      (∀ i, 0 ≤ i → i ≤ n → i < k - p ∨ k < i → bsplineD n U p i u = 0) := by
  have hp := hv.one_le
  have hle := hv.le
  have e : n + (p : ℤ) + 1 - (p + 1) = n := by ring
  have hr := findSpan_range (U := U) u (by omega : (0 : ℤ) ≤ p) hle
  refine ⟨findSpan n p u U, basisFuns jk (findSpan n p u U) u p U, ?_, ?_, ?_, ?_⟩
  · unfold BSp.FindSpan; rw [if_pos (by omega), e]
  · unfold BSp.EvalBasisFuns; rw [if_pos (by omega), if_neg (by omega), e]
  · intro r a b
    rw [basisFuns_piece jk _ u p U r a b, bsplineD_eq_piece hv h1 h2 _ (by omega) (by omega)]
  · intro i a b c
    exact bsplineD_zero_outside hv h1 h2 i a b c

/-- C03 for a caller-supplied span: on any nondecreasing array (ends may be degenerate), for `u` in
the half-open span `[U[k],U[k+1])`, the returned values are the right-continuous B-splines. -/
theorem C03_given_span (jk : ℤ → K) {m : ℤ} {p : ℕ} {U : ℤ → K} (hp : 1 ≤ p)
    (hm : 2 * (p : ℤ) + 1 ≤ m) (hs : SortedOn U 0 m) {k : ℤ} (hk1 : (p : ℤ) ≤ k)
    (hk2 : k ≤ m - p - 1) {u : K} (h1 : U k ≤ u) (h2 : u < U (k + 1)) :
    ∃ N, BSp.EvalBasisFuns jk p m U u k = .ok N ∧
      (∀ r : ℤ, 0 ≤ r → r ≤ p → N r = bspline U p (k - p + r) u) ∧
      (∀ i, 0 ≤ i → i ≤ m - p - 1 → i < k - p ∨ k < i → bspline U p i u = 0) := by
  refine ⟨basisFuns jk k u p U, ?_, ?_, ?_⟩
  · unfold BSp.EvalBasisFuns; rw [if_pos (by omega), if_pos (by omega)]
  · intro r a b
    rw [basisFuns_piece jk _ u p U r a b,
      bspline_eq_piece hs (by omega) (by omega) h1 h2 p _ (by omega) (by omega)]
  · intro i a b c
    rw [bspline_eq_piece hs (by omega) (by omega) h1 h2 p _ (by omega) (by omega)]
    rcases c with c | c
    · exact piece_zero_of_lt _ _ _ _ _ (by omega)
    · exact piece_zero_of_gt _ _ _ _ _ c

example : (BSp.EvalBasisFuns (fun _ => 7) 2 8 Ex.U (3 / 2)).map (fun N => [N 0, N 1, N 2]) =
      .ok [1 / 8, 5 / 8, 1 / 4] ∧
    [0, 1, 2, 3, 4, 5].map (fun i => bsplineD 5 Ex.U 2 i (3 / 2)) =
      [0, 1 / 8, 5 / 8, 1 / 4, 0, 0] := by decide +kernel
example : ValidKnots 5 ((2 : ℕ) : ℤ) Ex.U := Ex.U_valid

/-! ## C04 -/

/-- C04: the basis values are nonnegative and sum to one. -/
theorem C04_partition_of_unity (jk : ℤ → K) {n : ℤ} {p : ℕ} {U : ℤ → K} (hv : ValidKnots n p U)
    {u : K} (h1 : U p ≤ u) (h2 : u ≤ U (n + 1)) :
    ∃ N, BSp.EvalBasisFuns jk p (n + p + 1) U u = .ok N ∧
      (∀ r : ℤ, 0 ≤ r → r ≤ p → 0 ≤ N r) ∧ ∑ r ∈ Finset.range (p + 1), N r = 1 := by
  have hp := hv.one_le
  have hle := hv.le
  have e : n + (p : ℤ) + 1 - (p + 1) = n := by ring
  have hr := findSpan_range (U := U) u (by omega : (0 : ℤ) ≤ p) hle
  have hin := findSpan_inSpan hv h1 h2
  refine ⟨basisFuns jk (findSpan n p u U) u p U, ?_, ?_, ?_⟩
  · unfold BSp.EvalBasisFuns; rw [if_pos (by omega), if_neg (by omega), e]
  · intro r a b
    rw [basisFuns_piece jk _ u p U r a b]
    exact piece_nonneg hin.left hin.right p
      (fun i j a b c => hv.sorted i j (by omega) b (by omega)) p (le_refl _) _
  · rw [← piece_sum_one (win_of_valid hv hr.1 hr.2 hin.ne) u]
    apply Finset.sum_congr rfl
    intro r hr
    rw [basisFuns_piece jk _ u p U r (by omega) (by have := Finset.mem_range.mp hr; omega)]

example : (1 / 8 + 5 / 8 + 1 / 4 : ℚ) = 1 ∧ Ex.U 2 ≤ 3 / 2 ∧ 3 / 2 ≤ Ex.U 6 := by decide +kernel

/-! ## C05 -/

/-- C05, curves: `bsp.Evaluate1` is the B-spline sum over all control points. -/
theorem C05_Evaluate1 (jk : ℤ → K) (je : ℤ → E) {n : ℤ} {p : ℕ} {U : ℤ → K}
    (hv : ValidKnots n p U) (P : ℤ → E) (r : ℤ) (X : ℤ → K) (i : ℤ) (hi : 0 ≤ i ∧ i ≤ r)
    (h1 : U p ≤ X i) (h2 : X i ≤ U (n + 1)) :
    BSp.evaluate1 jk je n p U P r X i = ∑ a ∈ Finset.Icc 0 n, bsplineD n U p a (X i) • P a := by
  rw [evaluate1_eq _ _ _ _ _ _ _ _ _ hi.1 hi.2, curvePoint_eq_bsplineD jk hv h1 h2]

/-- C05, surfaces. -/
theorem C05_Evaluate2 (jk : ℤ → K) (je : ℤ → ℤ → E) {nx : ℤ} {px : ℕ} {Ux : ℤ → K}
    (hvx : ValidKnots nx px Ux) {ny : ℤ} {py : ℕ} {Uy : ℤ → K} (hvy : ValidKnots ny py Uy)
    (P : ℤ → ℤ → E) (rx : ℤ) (X : ℤ → K) (ry : ℤ) (Y : ℤ → K) (i j : ℤ)
    (hi : 0 ≤ i ∧ i ≤ rx) (hj : 0 ≤ j ∧ j ≤ ry)
    (hx1 : Ux px ≤ X i) (hx2 : X i ≤ Ux (nx + 1)) (hy1 : Uy py ≤ Y j) (hy2 : Y j ≤ Uy (ny + 1)) :
    BSp.evaluate2 jk je nx px Ux ny py Uy P rx X ry Y i j =
      ∑ a ∈ Finset.Icc 0 nx, ∑ b ∈ Finset.Icc 0 ny,
        (bsplineD nx Ux px a (X i) * bsplineD ny Uy py b (Y j)) • P a b := by
  rw [evaluate2_eq _ _ _ _ _ _ _ _ _ _ _ _ _ _ _ hi hj, curvePoint_eq_bsplineD jk hvx hx1 hx2]
  simp only [curvePoint_eq_bsplineD jk hvy hy1 hy2, Finset.smul_sum, mul_smul]

/-- C05, volumes. -/
theorem C05_Evaluate3 (jk : ℤ → K) (je : ℤ → ℤ → ℤ → E) {nx : ℤ} {px : ℕ} {Ux : ℤ → K}
    (hvx : ValidKnots nx px Ux) {ny : ℤ} {py : ℕ} {Uy : ℤ → K} (hvy : ValidKnots ny py Uy)
    {nz : ℤ} {pz : ℕ} {Uz : ℤ → K} (hvz : ValidKnots nz pz Uz)
    (P : ℤ → ℤ → ℤ → E) (rx : ℤ) (X : ℤ → K) (ry : ℤ) (Y : ℤ → K) (rz : ℤ) (Z : ℤ → K) (i j k : ℤ)
    (hi : 0 ≤ i ∧ i ≤ rx) (hj : 0 ≤ j ∧ j ≤ ry) (hk : 0 ≤ k ∧ k ≤ rz)
    (hx1 : Ux px ≤ X i) (hx2 : X i ≤ Ux (nx + 1)) (hy1 : Uy py ≤ Y j) (hy2 : Y j ≤ Uy (ny + 1))
    (hz1 : Uz pz ≤ Z k) (hz2 : Z k ≤ Uz (nz + 1)) :
    BSp.evaluate3 jk je nx px Ux ny py Uy nz pz Uz P rx X ry Y rz Z i j k =
      ∑ a ∈ Finset.Icc 0 nx, ∑ b ∈ Finset.Icc 0 ny, ∑ c ∈ Finset.Icc 0 nz,
        (bsplineD nx Ux px a (X i) * bsplineD ny Uy py b (Y j) * bsplineD nz Uz pz c (Z k)) •
          P a b c := by
  rw [evaluate3_eq _ _ _ _ _ _ _ _ _ _ _ _ _ _ _ _ _ _ _ _ _ hi hj hk,
    curvePoint_eq_bsplineD jk hvx hx1 hx2]
  simp only [curvePoint_eq_bsplineD jk hvy hy1 hy2, curvePoint_eq_bsplineD jk hvz hz1 hz2,
    Finset.smul_sum, mul_smul]

/-- C05: the result depends only on in-range knots and control points, and not on the initial
contents of work arrays. -/
theorem C05_locality (jk jk' : ℤ → K) (je je' : ℤ → E) {n : ℤ} {p : ℕ} {U U' : ℤ → K}
    (hv : ValidKnots n p U) (P P' : ℤ → E) (r : ℤ) (X : ℤ → K) (i : ℤ) (hi : 0 ≤ i ∧ i ≤ r)
    (h1 : U p ≤ X i) (h2 : X i ≤ U (n + 1))
    (hU : ∀ j, 0 ≤ j → j ≤ n + p + 1 → U' j = U j) (hP : ∀ j, 0 ≤ j → j ≤ n → P' j = P j) :
    BSp.evaluate1 jk' je' n p U' P' r X i = BSp.evaluate1 jk je n p U P r X i := by
  have hp := hv.one_le
  have hle := hv.le
  have hv' : ValidKnots n p U' := by
    refine ⟨hp, hle, ?_, ?_, ?_⟩
    · intro a b x y z
      rw [hU a (by omega) (by omega), hU b (by omega) (by omega)]
      exact hv.sorted a b x y z
    · rw [hU _ (by omega) (by omega), hU _ (by omega) (by omega)]; exact hv.first
    · rw [hU _ (by omega) (by omega), hU _ (by omega) (by omega)]; exact hv.last
  have e1 : U' p = U p := hU _ (by omega) (by omega)
  have e2 : U' (n + 1) = U (n + 1) := hU _ (by omega) (by omega)
  rw [C05_Evaluate1 jk' je' hv' P' r X i hi (by rw [e1]; exact h1) (by rw [e2]; exact h2),
    C05_Evaluate1 jk je hv P r X i hi h1 h2]
  apply Finset.sum_congr rfl
  intro a ha
  have ha := Finset.mem_Icc.mp ha
  rw [hP a ha.1 ha.2]
  congr 1
  have hin : ∀ (χ : ℤ → K) (x : K) (q : ℕ) (i : ℤ), 0 ≤ i → i + q ≤ n + p →
      coxDB U' χ x q i = coxDB U χ x q i := by
    intro χ x q
    induction q with
    | zero => intros; rfl
    | succ q ih =>
      intro i a b
      push_cast at b
      rw [coxDB, coxDB, ih i a (by omega), ih (i + 1) (by omega) (by omega),
        hU i (by omega) (by omega), hU (i + q + 1) (by omega) (by omega),
        hU (i + q + 2) (by omega) (by omega), hU (i + 1) (by omega) (by omega)]
  unfold bsplineD
  rw [e2]
  have hc : ∀ j, a ≤ j → j ≤ a + p → U' j = U j ∧ U' (j + 1) = U (j + 1) := fun j x y =>
    ⟨hU _ (by omega) (by omega), hU _ (by omega) (by omega)⟩
  split_ifs
  · unfold bspline
    rw [hin _ _ p a ha.1 (by omega)]
    apply coxDB_congr_chi
    intro j x y
    rw [(hc j x y).1, (hc j x y).2]
  · unfold bsplineL
    rw [hin _ _ p a ha.1 (by omega)]
    apply coxDB_congr_chi
    intro j x y
    rw [(hc j x y).1, (hc j x y).2]

example : [0, 1].map (BSp.evaluate1 (fun _ => 7) (fun _ => 9) 5 2 Ex.U
    (vec [0, 1, 4, 2, 5, 3] : ℤ → ℚ) 1 (vec [3 / 2, 3])) = [25 / 8, 3] := by decide +kernel
example : BSp.evaluate2 (fun _ => 7) (fun _ _ => 9) 5 2 Ex.U 2 2 Ex.W
    (fun i j => (vec [0, 1, 4, 9, 16, 25] i + vec [0, 1, 2] j : ℚ)) 0 (vec [3 / 2]) 0 (vec [1 / 2]) 0 0 = 47 / 8 := by
  decide +kernel

end Igakit
