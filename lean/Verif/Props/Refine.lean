import Verif.Proofs.Count
import Verif.Model.BSp
import Verif.Spec.Examples

/-!
# Property C09 at the level of `bsp.RefineKnotVector`
-/

set_option linter.unusedSectionVars false

namespace Igakit
open Spec

variable {K : Type*} [Field K] [LinearOrder K] [IsStrictOrderedRing K]
variable {E : Type*} [AddCommGroup E] [Module K E]

/-- C09: refining with a sorted list `X[0..r]` of values strictly inside the domain gives a valid
knot vector that is the multiset union of old knots and new values, and the same curve. -/
theorem C09_RefineKnotVector {eps : K} (heps : 0 < eps) (jk : ℤ → K) (je : ℤ → E) {n : ℤ} {p : ℕ}
    {U : ℤ → K} (hv : ValidKnots n p U) (P : ℤ → E) {r : ℤ} (hr : -1 ≤ r) {X : ℤ → K}
    (hX : SortedOn X 0 r)
    (hlo : ∀ j, 0 ≤ j → j ≤ r → U p < X j) (hhi : ∀ j, 0 ≤ j → j ≤ r → X j < U (n + 1))
    (hsU : ∀ j, 0 ≤ j → j ≤ r → SepFrom eps (X j) U 0 (n + p + 1))
    (hsX : ∀ j, 0 ≤ j → j ≤ r → SepFrom eps (X j) X 0 r) :
    ∃ V Q, BSp.RefineKnotVector eps jk je n p U P r X = .ok (V, Q) ∧
      ValidKnots (n + r + 1) p V ∧ V p = U p ∧ V (n + r + 2) = U (n + 1) ∧
      knotMS V (n + r + 1 + p + 1) = knotMS U (n + p + 1) + knotMS X r ∧
      ∀ u, U p ≤ u → u ≤ U (n + 1) → curve (n + r + 1) p V Q u = curve n p U P u := by
  have hp := hv.one_le
  have hle := hv.le
  obtain ⟨h1, h2, h3⟩ := refineKnotVector_refn heps jk je hv P hr hX
    (fun j a b => (hlo j a b).le) (fun j a b => (hhi j a b).le) hsU hsX
  have hcard : n + r + 1 = n + ((knotMS X r).card : ℤ) := by
    rw [knotMS, Multiset.card_map, Finset.card_val, Int.card_Icc]; omega
  have e : n + r + 1 + 1 = n + r + 2 := by ring
  have hval := h1.valid hv hcard (h2 p (by omega) (le_refl _)) (by rw [e]; exact h3)
    (fun x hx => by obtain ⟨z, a, b, rfl⟩ := mem_knotMS.mp hx; exact hlo z a b)
    (fun x hx => by obtain ⟨z, a, b, rfl⟩ := mem_knotMS.mp hx; exact hhi z a b)
  refine ⟨_, (refineKnotVector eps jk je n p U P r X).2, ?_, hval, h2 p (by omega) (le_refl _), h3, h1.ms, ?_⟩
  · unfold BSp.RefineKnotVector; rw [if_pos ⟨by omega, hp, by omega⟩]
  · intro u a b
    exact h1.curve_eq hv hval (h2 p (by omega) (le_refl _)) (by rw [e]; exact h3) a b

example := C09_RefineKnotVector (eps := 1 / 1000) (by norm_num) (fun _ => 7) (fun _ => (9 : ℚ))
  Ex.U_valid (vec [0, 1, 4, 2, 5, 3]) (r := 2) (by norm_num) (X := vec [1 / 2, 1, 5 / 2])
  (Ex.sortedOn_of_steps (fun i h1 h2 => by interval_cases i <;> decide +kernel))
  (fun j h1 h2 => by interval_cases j <;> decide +kernel)
  (fun j h1 h2 => by interval_cases j <;> decide +kernel)
  (fun j h1 h2 => Ex.U_sep _ (by interval_cases j <;> decide +kernel))
  (fun j h1 h2 => Ex.sepFrom_of_list (by decide) (by interval_cases j <;> decide +kernel))
example : (BSp.RefineKnotVector (1 / 1000) (fun _ => 7) (fun _ => 9) 5 2 Ex.U
    (vec [0, 1, 4, 2, 5, 3] : ℤ → ℚ) 2 (vec [1 / 2, 1, 5 / 2])).map (fun VQ =>
      ([0, 1, 2, 3, 4, 5, 6, 7, 8, 9, 10, 11].map VQ.1, [0, 1, 2, 3, 4, 5, 6, 7, 8].map VQ.2)) =
    .ok ([0, 0, 0, 1 / 2, 1, 1, 2, 2, 5 / 2, 3, 3, 3],
      [0, 1 / 2, 7 / 4, 5 / 2, 4, 2, 7 / 2, 4, 3]) := by decide +kernel

end Igakit
