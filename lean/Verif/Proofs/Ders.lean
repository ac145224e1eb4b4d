import Verif.Model.Ders
import Verif.Proofs.Form
import Mathlib.Algebra.Polynomial.Derivative
import Mathlib.Algebra.Polynomial.Degree.Lemmas
import Mathlib.Data.Nat.Factorial.Basic
import Mathlib.Tactic.LinearCombination

set_option linter.unusedSectionVars false

namespace Igakit
open Spec Polynomial

variable {K : Type*} [Field K] [LinearOrder K] [IsStrictOrderedRing K]

/-- the polynomial whose values on span `k` are those of the B-spline of index `i` and degree `p` -/
noncomputable def pieceP (U : ℤ → K) (k : ℤ) : ℕ → ℤ → K[X]
  | 0, i => if i = k then 1 else 0
  | p + 1, i => C (1 / (U (i + p + 1) - U i)) * ((X - C (U i)) * pieceP U k p i) +
      C (1 / (U (i + p + 2) - U (i + 1))) * ((C (U (i + p + 2)) - X) * pieceP U k p (i + 1))

theorem eval_pieceP (U : ℤ → K) (k : ℤ) (u : K) :
    ∀ (p : ℕ) (i : ℤ), (pieceP U k p i).eval u = piece U k p i u := by
  intro p
  induction p with
  | zero => intro i; by_cases h : i = k <;> simp [pieceP, piece, coxDB, h]
  | succ p ih =>
    intro i
    rw [pieceP, piece_succ, ← ih i, ← ih (i + 1)]
    simp only [eval_add, eval_mul, eval_C, eval_sub, eval_X]
    ring

theorem pieceP_zero_of_gt (U : ℤ → K) (k : ℤ) : ∀ (p : ℕ) (i : ℤ), k < i → pieceP U k p i = 0 := by
  intro p
  induction p with
  | zero => intro i h; rw [pieceP, if_neg (by omega)]
  | succ p ih => intro i h; rw [pieceP, ih i h, ih (i + 1) (by omega)]; simp

theorem pieceP_zero_of_lt (U : ℤ → K) (k : ℤ) :
    ∀ (p : ℕ) (i : ℤ), i + p < k → pieceP U k p i = 0 := by
  intro p
  induction p with
  | zero => intro i h; rw [pieceP, if_neg (by simp at h; omega)]
  | succ p ih =>
    intro i h
    push_cast at h
    rw [pieceP, ih i (by omega), ih (i + 1) (by omega)]; simp

theorem natDegree_pieceP (U : ℤ → K) (k : ℤ) :
    ∀ (p : ℕ) (i : ℤ), (pieceP U k p i).natDegree ≤ p := by
  intro p
  induction p with
  | zero => intro i; by_cases h : i = k <;> simp [pieceP, h]
  | succ p ih =>
    intro i
    rw [pieceP]
    have a1 : (X - C (U i)).natDegree ≤ 1 := natDegree_X_sub_C_le _
    have a2 : (C (U (i + p + 2)) - X).natDegree ≤ 1 := by
      rw [natDegree_sub]; exact natDegree_X_sub_C_le _
    refine (natDegree_add_le _ _).trans (max_le ?_ ?_)
    · refine (natDegree_C_mul_le _ _).trans (natDegree_mul_le.trans ?_)
      have := ih i; omega
    · refine (natDegree_C_mul_le _ _).trans (natDegree_mul_le.trans ?_)
      have := ih (i + 1); omega

theorem Win.mono {U : ℤ → K} {k : ℤ} {p q : ℕ} (h : Win U k p) (hq : q ≤ p) : Win U k q :=
  fun i j a b c d => h i j (by omega) b c (by omega)

/-- derivative of a B-spline piece -/
theorem derivative_pieceP (U : ℤ → K) (k : ℤ) :
    ∀ (p : ℕ), Win U k (p + 1) → ∀ i, derivative (pieceP U k (p + 1) i) =
      C ((p : K) + 1) * (C (1 / (U (i + p + 1) - U i)) * pieceP U k p i -
        C (1 / (U (i + p + 2) - U (i + 1))) * pieceP U k p (i + 1)) := by
  intro p
  induction p with
  | zero =>
    intro _ i
    rw [pieceP.eq_2]
    have h0 : ∀ i, derivative (pieceP U k 0 i) = 0 := by
      intro i; rw [pieceP]; split_ifs <;> simp
    simp only [derivative_add, derivative_mul, derivative_C, derivative_sub, derivative_X, h0]
    push_cast
    simp only [C_add, C_0, C_1]
    ring
  | succ p ih =>
    intro hw i
    have ih := ih (hw.mono (by omega))
    rw [pieceP]
    simp only [derivative_add, derivative_mul, derivative_C, derivative_sub, derivative_X]
    rw [ih i, ih (i + 1)]
    have e1 : i + 1 + (p : ℤ) + 1 = i + p + 2 := by ring
    have e2 : i + 1 + (p : ℤ) + 2 = i + p + 3 := by ring
    have e3 : i + 1 + 1 = i + 2 := by ring
    have e4 : i + ((p + 1 : ℕ) : ℤ) + 1 = i + p + 2 := by push_cast; ring
    have e5 : i + ((p + 1 : ℕ) : ℤ) + 2 = i + p + 3 := by push_cast; ring
    rw [e1, e2, e3, e4, e5]
    have d1 : pieceP U k (p + 1) i = C (1 / (U (i + p + 1) - U i)) * ((X - C (U i)) * pieceP U k p i) +
      C (1 / (U (i + p + 2) - U (i + 1))) * ((C (U (i + p + 2)) - X) * pieceP U k p (i + 1)) := rfl
    have d2 : pieceP U k (p + 1) (i + 1) =
      C (1 / (U (i + p + 2) - U (i + 1))) * ((X - C (U (i + 1))) * pieceP U k p (i + 1)) +
      C (1 / (U (i + p + 3) - U (i + 2))) * ((C (U (i + p + 3)) - X) * pieceP U k p (i + 2)) := by
      rw [pieceP, e1, e2, e3]
    -- the middle coefficient
    have hm : (C (1 / (U (i + p + 2) - U i)) * (C (U (i + p + 2)) - C (U i)) -
        C (1 / (U (i + p + 3) - U (i + 1))) * (C (U (i + p + 3)) - C (U (i + 1)))) *
        pieceP U k p (i + 1) = 0 := by
      by_cases h : k < i + 1
      · rw [pieceP_zero_of_gt _ _ _ _ h, mul_zero]
      by_cases h' : i + 1 + p < k
      · rw [pieceP_zero_of_lt _ _ _ _ h', mul_zero]
      have n1 : U (i + p + 2) - U i ≠ 0 := sub_ne_zero.mpr
        (hw i (i + p + 2) (by push_cast; omega) (by omega) (by omega) (by push_cast; omega)).ne'
      have n2 : U (i + p + 3) - U (i + 1) ≠ 0 := sub_ne_zero.mpr
        (hw (i + 1) (i + p + 3) (by push_cast; omega) (by omega) (by omega) (by push_cast; omega)).ne'
      rw [← C_sub, ← C_sub, ← C_mul, ← C_mul, one_div_mul_cancel n1, one_div_mul_cancel n2, sub_self,
        zero_mul]
    rw [d1, d2]
    have ec : C (((p + 1 : ℕ) : K) + 1) = C ((p : K) + 1) + 1 := by
      rw [← C_1, ← C_add]; push_cast; rfl
    rw [ec]
    linear_combination (-(C ((p : K) + 1)) * C (1 / (U (i + p + 2) - U (i + 1)))) * hm

/-- coefficients of the derivatives of a B-spline of degree `p` in the B-splines of lower degree -/
def dcoef (U : ℤ → K) (p : ℤ) (i : ℤ) : ℕ → ℤ → K
  | 0, j => if j = 0 then 1 else 0
  | k + 1, j => (dcoef U p i k j - dcoef U p i k (j - 1)) / (U (i + p + j - k) - U (i + j))

theorem dcoef_out (U : ℤ → K) (p i : ℤ) : ∀ (k : ℕ) (j : ℤ), j < 0 ∨ (k : ℤ) < j → dcoef U p i k j = 0 := by
  intro k
  induction k with
  | zero => intro j h; rw [dcoef, if_neg (by simp at h; omega)]
  | succ k ih =>
    intro j h
    rw [dcoef, ih j (by push_cast at h; omega), ih (j - 1) (by push_cast at h; omega)]; simp

theorem iterate_derivative_pieceP (U : ℤ → K) (s : ℤ) (p : ℕ) (hw : Win U s p) (i : ℤ) :
    ∀ k : ℕ, k ≤ p → derivative^[k] (pieceP U s p i) =
      C (p.descFactorial k : K) *
        ∑ j ∈ Finset.range (k + 1), C (dcoef U p i k j) * pieceP U s (p - k) (i + j) := by
  intro k
  induction k with
  | zero => intro _; simp [dcoef]
  | succ k ih =>
    intro hk
    rw [Function.iterate_succ_apply', ih (by omega)]
    obtain ⟨q, hq⟩ : ∃ q, p - k = q + 1 := ⟨p - k - 1, by omega⟩
    have hq' : p - (k + 1) = q := by omega
    rw [hq, hq', derivative_C_mul, derivative_sum]
    have hz : (q : ℤ) + 1 = p - k := by omega
    have h1 : ∀ j : ℕ, derivative (C (dcoef U p i k j) * pieceP U s (q + 1) (i + j)) =
        C ((q : K) + 1) * (C (dcoef U p i k j / (U (i + p + j - k) - U (i + j))) * pieceP U s q (i + j)
          - C (dcoef U p i k j / (U (i + p + (j + 1) - k) - U (i + (j + 1)))) *
            pieceP U s q (i + (j + 1))) := by
      intro j
      rw [derivative_C_mul, derivative_pieceP U s q (hw.mono (by omega))]
      have e1 : i + (j : ℤ) + q + 1 = i + p + j - k := by omega
      have e2 : i + (j : ℤ) + q + 2 = i + p + (j + 1) - k := by omega
      have e3 : i + (j : ℤ) + 1 = i + (j + 1) := by ring
      rw [e1, e2, e3]
      simp only [div_eq_mul_inv, C_mul, one_mul]
      ring
    rw [Finset.sum_congr rfl (fun j _ => h1 j), ← Finset.mul_sum, ← mul_assoc, ← C_mul]
    have hd : (p.descFactorial k : K) * ((q : K) + 1) = (p.descFactorial (k + 1) : K) := by
      rw [Nat.descFactorial_succ, hq]; push_cast; ring
    rw [hd]
    congr 1
    rw [Finset.sum_sub_distrib]
    have s2 : ∀ j : ℕ, C (dcoef U p i (k + 1) j) * pieceP U s q (i + j) =
        C (dcoef U p i k j / (U (i + p + j - k) - U (i + j))) * pieceP U s q (i + j) -
        C (dcoef U p i k (j - 1) / (U (i + p + j - k) - U (i + j))) * pieceP U s q (i + j) := by
      intro j; rw [dcoef, sub_div, C_sub]; ring
    rw [Finset.sum_congr rfl (fun j _ => s2 j), Finset.sum_sub_distrib]
    congr 1
    · rw [Finset.sum_range_succ _ (k + 1), dcoef_out U p i k ((k + 1 : ℕ) : ℤ) (by push_cast; omega)]
      simp
    · rw [Finset.sum_range_succ' _ (k + 1), dcoef_out U p i k (((0 : ℕ) : ℤ) - 1) (by simp)]
      simp

theorem iterate_derivative_pieceP_zero (U : ℤ → K) (s : ℤ) (p : ℕ) (i : ℤ) (k : ℕ) (h : p < k) :
    derivative^[k] (pieceP U s p i) = 0 :=
  iterate_derivative_eq_zero (lt_of_le_of_lt (natDegree_pieceP U s p i) h)

end Igakit
