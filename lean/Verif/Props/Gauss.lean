import Verif.Model.Quad
import Mathlib.Analysis.SpecialFunctions.Integrals.Basic
import Mathlib.Algebra.Polynomial.Eval.Degree
import Mathlib.Data.Rat.Cast.Order

/-!
# Property C30: Gauss rules
-/

namespace Igakit
open Polynomial

/-- moment error of a rule -/
def momErr (X W : List ℚ) (k : ℕ) : ℚ :=
  ((List.zipWith (fun x w => w * x ^ k) X W).sum - (if k % 2 = 0 then 2 / (k + 1 : ℚ) else 0))

theorem leg_table : ∀ q ∈ List.range' 1 10, (legX q).length = q ∧ (legW q).length = q ∧
    (legX q).Pairwise (· < ·) ∧ (∀ x ∈ legX q, -1 < x ∧ x < 1) ∧ (∀ w ∈ legW q, 0 < w) ∧
    (legX q).reverse = (legX q).map (fun x => -x) ∧ (legW q).reverse = legW q ∧
    ∀ k ∈ List.range (2 * q), |momErr (legX q) (legW q) k| ≤ 3 / 10 ^ 36 := by decide +kernel

theorem lob_table : ∀ q ∈ List.range' 2 9, (lobX q).length = q ∧ (lobW q).length = q ∧
    (lobX q).Pairwise (· < ·) ∧ (∀ x ∈ lobX q, -1 ≤ x ∧ x ≤ 1) ∧ (∀ w ∈ lobW q, 0 < w) ∧
    (lobX q).head? = some (-1) ∧ (lobX q).getLast? = some 1 ∧
    (lobX q).reverse = (lobX q).map (fun x => -x) ∧ (lobW q).reverse = lobW q ∧
    ∀ k ∈ List.range (2 * q - 2), |momErr (lobX q) (lobW q) k| ≤ 2 / 10 ^ 35 := by decide +kernel

/-- the value of a rule on a polynomial -/
noncomputable def ruleSum (X W : List ℚ) (P : ℝ[X]) : ℝ :=
  (List.zipWith (fun (x w : ℚ) => (w : ℝ) * P.eval (x : ℝ)) X W).sum

theorem ruleSum_expand (X W : List ℚ) {P : ℝ[X]} {n : ℕ} (hP : P.natDegree < n) :
    ruleSum X W P = ∑ k ∈ Finset.range n, P.coeff k *
      (((List.zipWith (fun x w => w * x ^ k) X W).sum : ℚ) : ℝ) := by
  unfold ruleSum
  induction X generalizing W with
  | nil => simp
  | cons x X ih =>
    cases W with
    | nil => simp
    | cons w W =>
      simp only [List.zipWith_cons_cons, List.sum_cons]
      rw [ih W, eval_eq_sum_range' hP, Finset.mul_sum, ← Finset.sum_add_distrib]
      refine Finset.sum_congr rfl fun k _ => ?_
      push_cast
      ring

theorem integral_poly {P : ℝ[X]} {n : ℕ} (hP : P.natDegree < n) :
    ∫ x in (-1 : ℝ)..1, P.eval x = ∑ k ∈ Finset.range n, P.coeff k *
      (if k % 2 = 0 then 2 / (k + 1 : ℝ) else 0) := by
  simp only [eval_eq_sum_range' hP]
  rw [intervalIntegral.integral_finset_sum]
  · refine Finset.sum_congr rfl fun k _ => ?_
    rw [intervalIntegral.integral_const_mul, integral_pow]
    congr 1
    by_cases h : k % 2 = 0
    · have ho : Odd (k + 1) := by rw [Nat.odd_iff]; omega
      rw [if_pos h, ho.neg_one_pow, one_pow]
      norm_num
    · have he : Even (k + 1) := by rw [Nat.even_iff]; omega
      rw [if_neg h, he.neg_one_pow, one_pow]
      simp
  · intro k _
    exact (continuous_const.mul (continuous_pow k)).intervalIntegrable _ _

theorem rule_error {X W : List ℚ} {n : ℕ} {δ : ℚ} (h : ∀ k ∈ List.range n, |momErr X W k| ≤ δ) {P : ℝ[X]}
    (hP : P.natDegree < n) :
    |ruleSum X W P - ∫ x in (-1 : ℝ)..1, P.eval x| ≤ δ * ∑ k ∈ Finset.range n, |P.coeff k| := by
  rw [ruleSum_expand X W hP, integral_poly hP, ← Finset.sum_sub_distrib, Finset.mul_sum]
  refine (Finset.abs_sum_le_sum_abs _ _).trans (Finset.sum_le_sum fun k hk => ?_)
  have h1 := h k (List.mem_range.mpr (Finset.mem_range.mp hk))
  have h2 : |((momErr X W k : ℚ) : ℝ)| ≤ (δ : ℝ) := by exact_mod_cast h1
  rw [← mul_sub, abs_mul, mul_comm]
  refine mul_le_mul_of_nonneg_right ?_ (abs_nonneg _)
  refine le_trans (le_of_eq ?_) h2
  unfold momErr
  congr 1
  push_cast
  split_ifs <;> push_cast <;> rfl

/-- C30: `iga.GaussLegendreRule(q)`: for every polynomial of degree at most `2q-1` the rule is the integral
over [-1,1] up to `3e-36` times the sum of the absolute coefficients; the nodes are increasing, inside
(-1,1), symmetric; the weights positive and symmetric. -/
theorem C30_GaussLegendre (q : ℤ) (h1 : 1 ≤ q) (h2 : q ≤ 10) :
    ∃ X W, GaussLegendreRule q = .ok (X, W) ∧ (X.length : ℤ) = q ∧ (W.length : ℤ) = q ∧
      X.Pairwise (· < ·) ∧ (∀ x ∈ X, -1 < x ∧ x < 1) ∧ (∀ w ∈ W, 0 < w) ∧
      X.reverse = X.map (fun x => -x) ∧ W.reverse = W ∧
      ∀ P : ℝ[X], (P.natDegree : ℤ) ≤ 2 * q - 1 →
        |ruleSum X W P - ∫ x in (-1 : ℝ)..1, P.eval x| ≤
          3 / 10 ^ 36 * ∑ k ∈ Finset.range (2 * q).toNat, |P.coeff k| := by
  obtain ⟨n, rfl⟩ : ∃ n : ℕ, q = n := ⟨q.toNat, by omega⟩
  obtain ⟨a1, a2, a3, a4, a5, a6, a7, a8⟩ := leg_table n (List.mem_range'_1.mpr ⟨by omega, by omega⟩)
  refine ⟨legX n, legW n, ?_, by exact_mod_cast a1, by exact_mod_cast a2, a3, a4, a5, a6, a7, fun P hP => ?_⟩
  · unfold GaussLegendreRule
    rw [if_pos ⟨h1, h2⟩, Int.toNat_natCast]
  · have := rule_error a8 (P := P) (by omega)
    rw [show (2 * (n : ℤ)).toNat = 2 * n by omega]
    push_cast at this
    exact this

/-- C30: `iga.GaussLobattoRule(q)`, degree at most `2q-3`, error `2e-35`; the end points are nodes. -/
theorem C30_GaussLobatto (q : ℤ) (h1 : 2 ≤ q) (h2 : q ≤ 10) :
    ∃ X W, GaussLobattoRule q = .ok (X, W) ∧ (X.length : ℤ) = q ∧ (W.length : ℤ) = q ∧
      X.Pairwise (· < ·) ∧ (∀ x ∈ X, -1 ≤ x ∧ x ≤ 1) ∧ (∀ w ∈ W, 0 < w) ∧
      X.head? = some (-1) ∧ X.getLast? = some 1 ∧
      X.reverse = X.map (fun x => -x) ∧ W.reverse = W ∧
      ∀ P : ℝ[X], (P.natDegree : ℤ) ≤ 2 * q - 3 →
        |ruleSum X W P - ∫ x in (-1 : ℝ)..1, P.eval x| ≤
          2 / 10 ^ 35 * ∑ k ∈ Finset.range (2 * q - 2).toNat, |P.coeff k| := by
  obtain ⟨n, rfl⟩ : ∃ n : ℕ, q = n := ⟨q.toNat, by omega⟩
  obtain ⟨a1, a2, a3, a4, a5, b1, b2, a6, a7, a8⟩ := lob_table n (List.mem_range'_1.mpr ⟨by omega, by omega⟩)
  refine ⟨lobX n, lobW n, ?_, by exact_mod_cast a1, by exact_mod_cast a2, a3, a4, a5, b1, b2, a6, a7,
    fun P hP => ?_⟩
  · unfold GaussLobattoRule
    rw [if_pos ⟨h1, h2⟩, Int.toNat_natCast]
  · have := rule_error a8 (P := P) (by omega)
    rw [show (2 * (n : ℤ) - 2).toNat = 2 * n - 2 by omega]
    push_cast at this
    exact this

/-- C30: the other orders are rejected. -/
theorem C30_rejects (q : ℤ) : (q < 1 ∨ 10 < q → GaussLegendreRule q = .error .f2py) ∧
    (q < 2 ∨ 10 < q → GaussLobattoRule q = .error .f2py) := by
  unfold GaussLegendreRule GaussLobattoRule
  exact ⟨fun h => if_neg (by omega), fun h => if_neg (by omega)⟩

example := C30_GaussLegendre 4 (by norm_num) (by norm_num)
example : GaussLobattoRule 3 = .ok ([-1, 0, 1], [333333333333333333333333333333333333 / 10 ^ 36,
  1333333333333333333333333333333333333 / 10 ^ 36, 333333333333333333333333333333333333 / 10 ^ 36]) := by
  decide +kernel

end Igakit
