import Verif.Props.FloatKnotsEx
import Verif.Props.Greville

/-! # C76: Greville abscissae in floating point arithmetic -/

set_option linter.unusedSectionVars false

namespace Igakit
open Spec

variable {K : Type} [Field K] [LinearOrder K] [IsStrictOrderedRing K]

/-- C76: `bsp.Greville(p,U)` in floating point gives floating point numbers in ascending order; value `i` differs from the mean of the
knots `U(i+1), …, U(i+p)` by at most `p + 1` roundings of their mean absolute value.  It lies between two bounds of these knots if
the multiples of the bounds up to the `p`-th are floating point numbers. -/
theorem C76_Greville {F : K → Prop} {rd : K → K} (hF : Rounds F rd) {n : ℤ} {p : ℕ} {U : ℤ → K} (hv : ValidKnots n p U) :
    ∃ X, Fp.Greville rd p (n + p + 1) U = .ok X ∧ (∀ i, F (X i)) ∧ (∀ i j, 0 ≤ i → i ≤ j → j ≤ n → X i ≤ X j) ∧
      (∀ δ, 0 ≤ δ → δ < 1 → RelErr δ rd → ∀ i, |X i - (∑ j ∈ Finset.Icc 1 (p : ℤ), U (i + j)) / p| ≤
        (growth δ ^ (p + 1) - 1) * ((∑ j ∈ Finset.Icc 1 (p : ℤ), |U (i + j)|) / p)) ∧
      (∀ lo hi, (∀ j : ℕ, j ≤ p → F (j * lo) ∧ F (j * hi)) → ∀ i, (∀ j : ℤ, 1 ≤ j → j ≤ p → lo ≤ U (i + j) ∧ U (i + j) ≤ hi) →
        lo ≤ X i ∧ X i ≤ hi) := by
  have h1 := hv.one_le
  have h2 := hv.le
  refine ⟨fun i => Fp.greville rd p U i, ?_, fun i => hF.mem _, ?_, fun δ h0 hδ hr i => Fp.greville_err h0 hδ hr U i (by omega),
    fun lo hi hm i hb => Fp.greville_between hF (by omega) hm hb⟩
  · unfold Fp.Greville
    rw [if_pos ⟨by omega, by omega⟩]
  · intro i j i0 hij j1
    have hp : (0 : K) < (p : K) := by exact_mod_cast (by omega : 0 < p)
    refine hF.mono (div_le_div_of_nonneg_right (Fp.fsum_mono hF.mono fun k k0 k1 => ?_) (by push_cast; exact hp.le))
    exact hv.sorted _ _ (by omega) (by omega) (by omega)

/-- C76: for degrees 1 and 2 no more than exact doubling is needed: the values stay between the knots they are computed from, so inside
the domain of a clamped axis, whose ends are among them. -/
theorem C76_low_degree {F : K → Prop} {rd : K → K} (hF : Rounds F rd) (h2 : ∀ x, F x → F (2 * x)) {n : ℤ} {p : ℕ} (hp : p ≤ 2)
    {U : ℤ → K} (hv : ValidKnots n p U) (fU : ∀ j, 0 ≤ j → j ≤ n + p + 1 → F (U j)) :
    ∃ X, Fp.Greville rd p (n + p + 1) U = .ok X ∧ (∀ i, 0 ≤ i → i ≤ n → U (i + 1) ≤ X i ∧ X i ≤ U (i + p)) ∧
      (ClampedL p U → ClampedR n p U → X 0 = U p ∧ X n = U (n + 1) ∧ ∀ i, 0 ≤ i → i ≤ n → U p ≤ X i ∧ X i ≤ U (n + 1)) := by
  have h1 := hv.one_le
  have h3 := hv.le
  obtain ⟨X, e1, -, -, -, e5⟩ := C76_Greville hF hv
  have mulF : ∀ x, F x → ∀ j : ℕ, j ≤ p → F (j * x) := by
    intro x hx j hj
    have : j = 0 ∨ j = 1 ∨ j = 2 := by omega
    rcases this with rfl | rfl | rfl
    · rw [Nat.cast_zero, zero_mul]; exact hF.zero
    · rw [Nat.cast_one, one_mul]; exact hx
    · exact_mod_cast h2 x hx
  have hb : ∀ i, 0 ≤ i → i ≤ n → U (i + 1) ≤ X i ∧ X i ≤ U (i + p) := by
    intro i i0 i1
    refine e5 _ _ (fun j hj => ⟨mulF _ (fU _ (by omega) (by omega)) j hj, mulF _ (fU _ (by omega) (by omega)) j hj⟩) i ?_
    intro j j0 j1
    exact ⟨hv.sorted _ _ (by omega) (by omega) (by omega), hv.sorted _ _ (by omega) (by omega) (by omega)⟩
  refine ⟨X, e1, hb, fun cl cr => ?_⟩
  have low : ∀ i, 0 ≤ i → i ≤ n → U p ≤ X i := by
    intro i i0 i1
    refine le_trans ?_ (hb i i0 i1).1
    rw [← cl 0 le_rfl (by omega)]
    exact hv.sorted _ _ le_rfl (by omega) (by omega)
  have high : ∀ i, 0 ≤ i → i ≤ n → X i ≤ U (n + 1) := by
    intro i i0 i1
    refine le_trans (hb i i0 i1).2 ?_
    rw [← cr (n + p + 1) (by omega) le_rfl]
    exact hv.sorted _ _ (by omega) (by omega) le_rfl
  refine ⟨le_antisymm ?_ (low 0 le_rfl (by omega)), le_antisymm (high n (by omega) le_rfl) ?_, fun i a b => ⟨low i a b, high i a b⟩⟩
  · have := (hb 0 le_rfl (by omega)).2
    rwa [zero_add] at this
  · exact (hb n (by omega) le_rfl).1

section nrb
variable {d : ℕ}

/-- C76: on a clamped axis whose ends have floating point multiples up to the degree (for instance small integers), evaluation
at the values of `nrb.greville(axis)` is accepted -/
theorem C76_inside {F : K → Prop} {rd : K → K} (hF : Rounds F rd) {N : Nrb K d} (hv : N.Valid) {axis : ℤ} {a : Fin d}
    (ha : normAxis d axis = .ok a) (hcl : ClampedL (N.degree a) (N.U a)) (hcr : ClampedR (N.n a) (N.degree a) (N.U a))
    (hm : ∀ j : ℕ, (j : ℤ) ≤ N.degree a → F (j * N.lo a) ∧ F (j * N.hi a)) :
    ∃ X, N.grevilleF rd axis = .ok (N.shape a, X) ∧ ∀ i, 0 ≤ i → i < N.shape a → N.lo a ≤ X i ∧ X i ≤ N.hi a := by
  obtain ⟨p, hp, hk, _⟩ := deg_nat hv a
  have h1 := hk.one_le
  have h2 := hk.le
  obtain ⟨X, e1, -, -, -, e5⟩ := C76_Greville hF hk
  have hlen : N.len a - 1 = N.n a + p + 1 := by
    rw [← hp]; unfold Nrb.n Nrb.degree; ring
  rw [hp] at hcl hcr
  refine ⟨X, ?_, fun i i0 i1 => e5 _ _ (fun j hj => hm j (by rw [hp]; exact_mod_cast hj)) i fun j j0 j1 => ?_⟩
  · unfold Nrb.grevilleF
    rw [ha, res_ok_bind, hp, hlen, e1, res_ok_bind, show N.n a + p + 1 - p = N.shape a by unfold Nrb.n; ring]
    rfl
  · have hs : N.shape a = N.n a + 1 := by unfold Nrb.n; ring
    rw [N.lo_eq, N.hi_eq, hp]
    constructor
    · rw [← hcl 0 le_rfl (by omega)]
      exact hk.sorted _ _ le_rfl (by omega) (by omega)
    · rw [← hcr (N.n a + p + 1) (by omega) le_rfl]
      exact hk.sorted _ _ (by omega) (by omega) le_rfl

end nrb

/-! ## concrete cases -/

/-- one cubic span from 0 to `x` -/
def Ex.cubic (x : ℚ) : Nrb ℚ 1 where
  shape := ![4]
  nc := 4
  len := ![8]
  U := ![vec [0, 0, 0, 0, x, x, x, x]]
  P := fun idx c => if c = 3 then 1 else if c = 0 then idx 0 else 0

theorem Ex.cubic_valid : (Ex.cubic 1).Valid := Ex.valid1 (by decide +kernel)

example := C76_Greville (Ex.fl_rounds (t := 53) (by norm_num)) Ex.U_valid
example := C76_low_degree (Ex.fl_rounds (t := 53) (by norm_num))
  (fun x ⟨m, e, h1, h2⟩ => ⟨m, e + 1, h1, by rw [h2, zpow_add_one₀ (by norm_num)]; ring⟩) (by norm_num) Ex.U_valid (by
    intro j j0 j1
    have : ∀ j ∈ Finset.Icc (0 : ℤ) 8, ∃ m ∈ Finset.Icc (0 : ℤ) 3, Ex.U j = (m : ℚ) := by decide +kernel
    obtain ⟨m, hm, e⟩ := this j (Finset.mem_Icc.mpr ⟨j0, by simpa using j1⟩)
    have hm := Finset.mem_Icc.mp hm
    rw [e]
    exact Ex.isFl_int (by rw [abs_of_nonneg hm.1]; omega))
example := C76_inside (Ex.fl_rounds (t := 53) (by norm_num)) Ex.cubic_valid (axis := 0) (a := 0) rfl
  (by
    have : ∀ j ∈ Finset.Icc (0 : ℤ) 3, (Ex.cubic 1).U 0 j = (Ex.cubic 1).U 0 ((Ex.cubic 1).degree 0) := by decide +kernel
    intro j j0 j1
    exact this j (Finset.mem_Icc.mpr ⟨j0, j1⟩))
  (by
    have : ∀ j ∈ Finset.Icc (4 : ℤ) 7, (Ex.cubic 1).U 0 j = (Ex.cubic 1).U 0 ((Ex.cubic 1).n 0 + 1) := by decide +kernel
    intro j j0 j1
    exact this j (Finset.mem_Icc.mpr ⟨j0, j1⟩))
  (by
    intro j hj
    have hj : (j : ℤ) ≤ 3 := hj
    have e0 : (Ex.cubic 1).lo 0 = 0 := rfl
    have e1 : (Ex.cubic 1).hi 0 = 1 := rfl
    rw [e0, e1, mul_zero, mul_one]
    exact ⟨(Ex.fl_rounds (by norm_num)).zero, by
      have := Ex.isFl_int (t := 53) (m := (j : ℤ)) (by rw [abs_of_nonneg (by omega)]; omega)
      exact_mod_cast this⟩)

/-- C76: for degree 3 the values may leave the domain.  On `[0, 0.1]` (0.1 the double next to it) the last one is
`(0.1+0.1+0.1)/3 = 0.10000000000000002`, and evaluation at the values of `nrb.greville(0)` is rejected. -/
theorem C76_leaves : let x : ℚ := 3602879701896397 / 2 ^ 55
    (Ex.cubic x).Valid ∧ ∃ X, (Ex.cubic x).grevilleF (Ex.fl 53) 0 = .ok (4, X) ∧ X 3 = x + 1 / 2 ^ 56 ∧
      ∀ jk je, (Ex.cubic x).callF (Ex.fl 53) jk je (fun _ => 3) (fun _ => X) = .error .assertion := by
  intro x
  have h : ∃ X, (Ex.cubic x).grevilleF (Ex.fl 53) 0 = .ok (4, X) ∧ X 3 = x + 1 / 2 ^ 56 := ⟨_, rfl, by decide +kernel⟩
  obtain ⟨X, h1, h2⟩ := h
  have hh : (Ex.cubic x).hi 0 = x := rfl
  exact ⟨Ex.valid1 (by decide +kernel), X, h1, h2, fun jk je =>
    call_below _ jk je (fun _ => by norm_num) (a := 0) (i := 3) (by norm_num) le_rfl
      (Or.inr (by rw [h2, hh]; linarith [show (0 : ℚ) < 1 / 2 ^ 56 by norm_num]))⟩

end Igakit
