import Verif.Proofs.Nrb
import Verif.Props.Basis
import Mathlib.Tactic.FinCases

/-! # `NURBS.__call__` computes the tensor product sum -/

set_option linter.unusedSectionVars false

namespace Igakit
open Spec

variable {K : Type} [Field K] [LinearOrder K] {d : ℕ}
variable {E : Type*} [AddCommGroup E] [Module K E]

theorem tensor_zero (n : Fin 0 → ℤ) (p : Fin 0 → ℕ) (U : Fin 0 → ℤ → K) (P : (Fin 0 → ℤ) → E)
    (x : Fin 0 → K) : tensor n p U P x = P ![] := by
  unfold tensor
  have : Fintype.piFinset (fun a => Finset.Icc 0 (n a)) = {![]} := by
    apply Finset.eq_singleton_iff_unique_mem.mpr
    exact ⟨Fintype.mem_piFinset.mpr (fun a => a.elim0), fun z _ => Subsingleton.elim _ _⟩
  rw [this, Finset.sum_singleton, Fin.prod_univ_zero, one_smul]

theorem tensor_one (n : Fin 1 → ℤ) (p : Fin 1 → ℕ) (U : Fin 1 → ℤ → K) (P : (Fin 1 → ℤ) → E)
    (x : Fin 1 → K) : tensor n p U P x =
      ∑ i ∈ Finset.Icc 0 (n 0), bsplineD (n 0) (U 0) (p 0) i (x 0) • P ![i] := by
  rw [tensor_split 0, tensor_zero, curve_apply]
  unfold curve
  apply Finset.sum_congr rfl
  intro i _
  congr 1
  exact congrArg P (by funext b; fin_cases b; rfl)

theorem tensor_two (n : Fin 2 → ℤ) (p : Fin 2 → ℕ) (U : Fin 2 → ℤ → K) (P : (Fin 2 → ℤ) → E)
    (x : Fin 2 → K) : tensor n p U P x =
      ∑ i ∈ Finset.Icc 0 (n 0), ∑ j ∈ Finset.Icc 0 (n 1),
        (bsplineD (n 0) (U 0) (p 0) i (x 0) * bsplineD (n 1) (U 1) (p 1) j (x 1)) • P ![i, j] := by
  rw [tensor_split 0, tensor_one, Finset.sum_comm]
  apply Finset.sum_congr rfl
  intro j _
  rw [curve_apply, curve, Finset.smul_sum]
  apply Finset.sum_congr rfl
  intro i _
  rw [smul_smul, mul_comm]
  congr 1
  exact congrArg P (by funext b; fin_cases b <;> rfl)

theorem tensor_three (n : Fin 3 → ℤ) (p : Fin 3 → ℕ) (U : Fin 3 → ℤ → K) (P : (Fin 3 → ℤ) → E)
    (x : Fin 3 → K) : tensor n p U P x =
      ∑ i ∈ Finset.Icc 0 (n 0), ∑ j ∈ Finset.Icc 0 (n 1), ∑ k ∈ Finset.Icc 0 (n 2),
        (bsplineD (n 0) (U 0) (p 0) i (x 0) * bsplineD (n 1) (U 1) (p 1) j (x 1) *
          bsplineD (n 2) (U 2) (p 2) k (x 2)) • P ![i, j, k] := by
  rw [tensor_split 0, tensor_two]
  conv_rhs => rw [Finset.sum_comm]
  apply Finset.sum_congr rfl
  intro j _
  conv_rhs => rw [Finset.sum_comm]
  apply Finset.sum_congr rfl
  intro k _
  rw [curve_apply, curve, Finset.smul_sum]
  apply Finset.sum_congr rfl
  intro i _
  rw [smul_smul]
  congr 1
  · rw [mul_comm, ← mul_assoc]; rfl
  · exact congrArg P (by funext b; fin_cases b <;> rfl)

theorem mem_slab {U : ℤ → K} {lo hi : ℤ} {x : K} :
    x ∈ Nrb.slab U lo hi ↔ ∃ i, lo ≤ i ∧ i ≤ hi ∧ U i = x := by
  unfold Nrb.slab
  rw [List.mem_map]
  constructor
  · rintro ⟨i, h, rfl⟩
    have := List.mem_range.mp h
    exact ⟨lo + i, by omega, by omega, rfl⟩
  · rintro ⟨i, h1, h2, rfl⟩
    exact ⟨(i - lo).toNat, List.mem_range.mpr (by omega), by congr 1; omega⟩

variable [IsStrictOrderedRing K]

/-- the kernels `Evaluate0..3` compute the homogeneous map -/
theorem evaluateH_eq (jk : ℤ → K) (je : ℤ → ℕ → K) {N : Nrb K d} (hd : d ≤ 3) (hv : N.Valid)
    (r : Fin d → ℤ) (X : Fin d → ℤ → K) :
    ∃ C, Nrb.evaluateH jk je N r X = .ok C ∧ ∀ i : Fin d → ℤ, (∀ a, 0 ≤ i a ∧ i a ≤ r a) →
      N.InDom (fun a => X a (i a)) → C i = N.eval (fun a => X a (i a)) := by
  match d, hd, N, hv, r, X with
  | 0, _, N, hv, r, X => exact ⟨_, rfl, fun i _ _ => (tensor_zero _ _ _ _ _).symm⟩
  | 1, _, N, hv, r, X =>
    refine ⟨_, rfl, fun i hi hx => ?_⟩
    rw [← hv.degNat 0]
    rw [C05_Evaluate1 jk je (by rw [hv.degNat]; exact hv 0) _ _ _ _ (hi 0)
      (by rw [hv.degNat]; exact (hx 0).1) (by rw [← Nrb.hi_eq]; exact (hx 0).2)]
    rw [Nrb.eval, tensor_one]
  | 2, _, N, hv, r, X =>
    refine ⟨_, rfl, fun i hi hx => ?_⟩
    rw [← hv.degNat 0, ← hv.degNat 1]
    rw [C05_Evaluate2 jk _ (by rw [hv.degNat]; exact hv 0) (by rw [hv.degNat]; exact hv 1) _ _ _ _ _ _ _
      (hi 0) (hi 1)
      (by rw [hv.degNat]; exact (hx 0).1) (by rw [← Nrb.hi_eq]; exact (hx 0).2)
      (by rw [hv.degNat]; exact (hx 1).1) (by rw [← Nrb.hi_eq]; exact (hx 1).2)]
    rw [Nrb.eval, tensor_two]
  | 3, _, N, hv, r, X =>
    refine ⟨_, rfl, fun i hi hx => ?_⟩
    rw [← hv.degNat 0, ← hv.degNat 1, ← hv.degNat 2]
    rw [C05_Evaluate3 jk _ (by rw [hv.degNat]; exact hv 0) (by rw [hv.degNat]; exact hv 1)
      (by rw [hv.degNat]; exact hv 2) _ _ _ _ _ _ _ _ _ _
      (hi 0) (hi 1) (hi 2)
      (by rw [hv.degNat]; exact (hx 0).1) (by rw [← Nrb.hi_eq]; exact (hx 0).2)
      (by rw [hv.degNat]; exact (hx 1).1) (by rw [← Nrb.hi_eq]; exact (hx 1).2)
      (by rw [hv.degNat]; exact (hx 2).1) (by rw [← Nrb.hi_eq]; exact (hx 2).2)]
    rw [Nrb.eval, tensor_three]

end Igakit
