import Verif.Spec.Knots
import Mathlib.Data.Rat.Defs
import Mathlib.Algebra.Order.Ring.Rat
import Mathlib.Tactic.IntervalCases
import Mathlib.Tactic.NormNum
import Mathlib.Algebra.Order.Group.Unbundled.Abs
import Mathlib.Algebra.Field.Rat

/-!
# Concrete knot vectors used in the `example`s beside the property theorems
-/

namespace Igakit

/-- array given by a list (positions outside the list hold 0) -/
def vec {α : Type*} [Zero α] (l : List α) : ℤ → α := fun i => l.getD i.toNat 0

namespace Ex
open Spec

/-- clamped, degree 2, six control points, a double interior knot -/
def U : ℤ → ℚ := vec [0, 0, 0, 1, 2, 2, 3, 3, 3]

/-- unclamped, degree 2, three control points -/
def W : ℤ → ℚ := vec [-2, -1, 0, 1, 2, 3]

/-- degree 2, five control points, end knots of multiplicity 2 -/
def H : ℤ → ℚ := vec [-1, 0, 0, 1, 2, 3, 3, 4]

theorem sortedOn_of_steps {K : Type*} [LinearOrder K] {U : ℤ → K} {lo hi : ℤ}
    (h : ∀ i, lo ≤ i → i < hi → U i ≤ U (i + 1)) : SortedOn U lo hi := by
  intro i j h1 h2 h3
  obtain ⟨d, rfl⟩ := Int.le.dest h2
  clear h2
  induction d with
  | zero => simp
  | succ d ih =>
    push_cast at h3 ⊢
    refine le_trans (ih (by omega)) ?_
    have := h (i + d) (by omega) (by omega)
    rwa [add_assoc] at this

theorem U_valid : ValidKnots 5 ((2 : ℕ) : ℤ) U := by
  refine ⟨by norm_num, by norm_num, sortedOn_of_steps ?_, by decide +kernel, by decide +kernel⟩
  intro i h1 h2
  have h2 : i < 8 := by simpa using h2
  interval_cases i <;> decide +kernel

theorem W_valid : ValidKnots 2 ((2 : ℕ) : ℤ) W := by
  refine ⟨by norm_num, by norm_num, sortedOn_of_steps ?_, by decide +kernel, by decide +kernel⟩
  intro i h1 h2
  have h2 : i < 5 := by simpa using h2
  interval_cases i <;> decide +kernel

theorem H_valid : ValidKnots 4 ((2 : ℕ) : ℤ) H := by
  refine ⟨by norm_num, by norm_num, sortedOn_of_steps ?_, by decide +kernel, by decide +kernel⟩
  intro i h1 h2
  have h2 : i < 7 := by simpa using h2
  interval_cases i <;> decide +kernel

/-- degree 3, five control points, right end knot of multiplicity 2 -/
def R : ℤ → ℚ := vec [0, 0, 0, 0, 1, 2, 2, 3, 4]

theorem R_valid : ValidKnots 4 ((3 : ℕ) : ℤ) R := by
  refine ⟨by norm_num, by norm_num, sortedOn_of_steps ?_, by decide +kernel, by decide +kernel⟩
  intro i h1 h2
  have h2 : i < 8 := by simpa using h2
  interval_cases i <;> decide +kernel

/-- separation hypotheses are decided entry by entry -/
theorem sepFrom_of_list {eps u : ℚ} {l : List ℚ} {m : ℤ} (hm : m.toNat < l.length)
    (h : ∀ x ∈ l, x = u ∨ eps ≤ |u - x|) : SepFrom eps u (vec l) 0 m := by
  intro j h1 h2
  have hj : j.toNat < l.length := by omega
  have e : vec l j = l[j.toNat] := by simp [vec, hj]
  rw [e]
  exact h _ (List.getElem_mem hj)

theorem U_sep (u : ℚ) (h : ∀ x ∈ ([0, 0, 0, 1, 2, 2, 3, 3, 3] : List ℚ), x = u ∨ 1 / 1000 ≤ |u - x|) :
    SepFrom (1 / 1000) u U 0 (5 + ((2 : ℕ) : ℤ) + 1) := sepFrom_of_list (by decide) h
theorem W_sep (u : ℚ) (h : ∀ x ∈ ([-2, -1, 0, 1, 2, 3] : List ℚ), x = u ∨ 1 / 1000 ≤ |u - x|) :
    SepFrom (1 / 1000) u W 0 (2 + ((2 : ℕ) : ℤ) + 1) := sepFrom_of_list (by decide) h
theorem R_sep (u : ℚ) (h : ∀ x ∈ ([0, 0, 0, 0, 1, 2, 2, 3, 4] : List ℚ), x = u ∨ 1 / 1000 ≤ |u - x|) :
    SepFrom (1 / 1000) u R 0 (4 + ((3 : ℕ) : ℤ) + 1) := sepFrom_of_list (by decide) h

end Ex
end Igakit
