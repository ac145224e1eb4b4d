import Verif.Spec.Tensor
import Verif.Proofs.CurveSpec
import Mathlib.Data.Fin.Tuple.Finset

/-! # Splitting a tensor product spline along one axis -/

set_option linter.unusedSectionVars false

namespace Igakit
open Spec

variable {K : Type*} [Field K] [LinearOrder K]
variable {E : Type*} [AddCommGroup E] [Module K E]

theorem curve_apply {ι : Type*} (n : ℤ) (p : ℕ) (U : ℤ → K) (P : ℤ → ι → E) (u : K) (o : ι) :
    curve n p U P u o = curve n p U (fun i => P i o) u := by
  unfold curve
  rw [Finset.sum_apply]
  rfl

theorem sum_piFinset_split {M : Type*} [AddCommMonoid M] {d : ℕ} (a : Fin (d + 1))
    (s : Fin (d + 1) → Finset ℤ) (f : (Fin (d + 1) → ℤ) → M) :
    ∑ idx ∈ Fintype.piFinset s, f idx =
      ∑ o ∈ Fintype.piFinset (fun b => s (a.succAbove b)), ∑ i ∈ s a, f (a.insertNth i o) := by
  rw [← Finset.sum_product']
  refine Finset.sum_bij' (fun idx _ => (a.removeNth idx, idx a)) (fun q _ => a.insertNth q.2 q.1)
    ?_ ?_ ?_ ?_ ?_
  · intro idx h
    rw [Fin.mem_piFinset_iff_pivot_removeNth a] at h
    exact Finset.mem_product.mpr ⟨h.2, h.1⟩
  · intro q h
    have h := Finset.mem_product.mp h
    rw [Fin.mem_piFinset_iff_pivot_removeNth a, Fin.insertNth_apply_same, Fin.removeNth_insertNth]
    exact ⟨h.2, h.1⟩
  · intro idx h; exact Fin.insertNth_self_removeNth a idx
  · intro q h; simp [Fin.removeNth_insertNth]
  · intro idx h; simp only; rw [Fin.insertNth_self_removeNth]

/-- rows of a net along one axis -/
def rows {d : ℕ} (a : Fin (d + 1)) (P : (Fin (d + 1) → ℤ) → E) : ℤ → (Fin d → ℤ) → E :=
  fun i o => P (a.insertNth i o)

theorem tensor_split {d : ℕ} (a : Fin (d + 1)) (n : Fin (d + 1) → ℤ) (p : Fin (d + 1) → ℕ)
    (U : Fin (d + 1) → ℤ → K) (P : (Fin (d + 1) → ℤ) → E) (x : Fin (d + 1) → K) :
    tensor n p U P x = tensor (a.removeNth n) (a.removeNth p) (a.removeNth U)
      (curve (n a) (p a) (U a) (rows a P) (x a)) (a.removeNth x) := by
  unfold tensor
  rw [sum_piFinset_split a]
  apply Finset.sum_congr rfl
  intro o _
  rw [curve_apply, curve, Finset.smul_sum]
  apply Finset.sum_congr rfl
  intro i _
  rw [Fin.prod_univ_succAbove _ a]
  simp only [Fin.insertNth_apply_same, Fin.insertNth_apply_succAbove, Fin.removeNth, rows]
  rw [smul_smul, mul_comm]

theorem tensor_congr [IsStrictOrderedRing K] {d : ℕ} {n : Fin d → ℤ} {p : Fin d → ℕ} {U U' : Fin d → ℤ → K}
    {P P' : (Fin d → ℤ) → E} (hU : ∀ a j, 0 ≤ j → j ≤ n a + p a + 1 → U a j = U' a j)
    (hP : ∀ idx, (∀ a, 0 ≤ idx a ∧ idx a ≤ n a) → P idx = P' idx) (x : Fin d → K) :
    tensor n p U P x = tensor n p U' P' x := by
  unfold tensor
  apply Finset.sum_congr rfl
  intro idx h
  have h' : ∀ a, 0 ≤ idx a ∧ idx a ≤ n a := fun a => Finset.mem_Icc.mp (Fintype.mem_piFinset.mp h a)
  rw [hP idx h']
  congr 1
  apply Finset.prod_congr rfl
  intro a _
  exact bsplineD_congr (hU a) (h' a).1 (h' a).2 _

end Igakit
