import Verif.Proofs.Ders
import Mathlib.Tactic

/-!
# Polynomial lemmas for the regularity of the system of `QuasiConformalProjection`
-/

set_option linter.unusedSectionVars false

namespace Igakit
open Polynomial

/-- order of vanishing of a basis function at a knot: the piece on the span starting at `U k = ... = U i` -/
theorem pieceP_order {K : Type} [Field K] [LinearOrder K] [IsStrictOrderedRing K] {U : ℤ → K} {k : ℤ} (hk : U k < U (k + 1)) :
    ∀ (p s : ℕ), s ≤ p → (∀ j, k - s ≤ j → j ≤ k → U j = U k) → (∀ j, k + 1 ≤ j → j ≤ k + p + 1 → U (k + 1) ≤ U j) →
      ∃ R : K[X], pieceP U k p (k - s) = (X - C (U k)) ^ (p - s) * R ∧ 0 < R.eval (U k)
  | 0, s, hs, _, _ => by
    obtain rfl : s = 0 := by omega
    refine ⟨1, ?_, by simp⟩
    simp [pieceP]
  | p + 1, s, hs, hU, hR => by
    have hR' : ∀ j, k + 1 ≤ j → j ≤ k + p + 1 → U (k + 1) ≤ U j := fun j h1 h2 => hR j h1 (by push_cast; omega)
    have hi : U (k - s) = U k := hU _ le_rfl (by omega)
    -- first term
    obtain ⟨R1, e1, p1⟩ : ∃ R : K[X], C (1 / (U (k - s + p + 1) - U (k - s))) * ((X - C (U (k - s))) * pieceP U k p (k - s)) =
        (X - C (U k)) ^ (p + 1 - s) * R ∧ (s ≤ p → 0 < R.eval (U k)) ∧ 0 ≤ R.eval (U k) := by
      by_cases h : s ≤ p
      · obtain ⟨R, e, hp⟩ := pieceP_order hk p s h hU hR'
        have hd : 0 < U (k - s + p + 1) - U (k - s) := by
          have := hR (k - s + p + 1) (by omega) (by push_cast; omega)
          rw [hi]
          linarith
        have hpos : 0 < (C (1 / (U (k - s + p + 1) - U (k - s))) * R).eval (U k) := by
          rw [eval_mul, eval_C]
          positivity
        refine ⟨C (1 / (U (k - s + p + 1) - U (k - s))) * R, ?_, fun _ => hpos, hpos.le⟩
        rw [e, hi, show p + 1 - s = p - s + 1 by omega, pow_succ]
        ring
      · refine ⟨0, ?_, fun h' => absurd h' h, by simp⟩
        rw [pieceP_zero_of_lt U k p (k - s) (by omega)]
        ring
    obtain ⟨R2, e2, p2⟩ : ∃ R : K[X], C (1 / (U (k - s + p + 2) - U (k - s + 1))) * ((C (U (k - s + p + 2)) - X) * pieceP U k p (k - s + 1)) =
        (X - C (U k)) ^ (p + 1 - s) * R ∧ (1 ≤ s → 0 < R.eval (U k)) ∧ 0 ≤ R.eval (U k) := by
      by_cases h : 1 ≤ s
      · obtain ⟨R, e, hp⟩ := pieceP_order hk p (s - 1) (by omega) (fun j h1 h2 => hU j (by omega) h2) hR'
        have hd : 0 < U (k - s + p + 2) - U (k - s + 1) := by
          have := hR (k - s + p + 2) (by omega) (by push_cast; omega)
          rw [hU (k - s + 1) (by omega) (by omega)]
          linarith
        have hpos : 0 < (C (1 / (U (k - s + p + 2) - U (k - s + 1))) * ((C (U (k - s + p + 2)) - X) * R)).eval (U k) := by
          rw [eval_mul, eval_mul, eval_C, eval_sub, eval_C, eval_X]
          have h3 : U k = U (k - s + 1) := (hU (k - s + 1) (by omega) (by omega)).symm
          have h4 : 0 < U (k - s + p + 2) - U k := by rw [h3]; exact hd
          positivity
        refine ⟨C (1 / (U (k - s + p + 2) - U (k - s + 1))) * ((C (U (k - s + p + 2)) - X) * R), ?_, fun _ => hpos, hpos.le⟩
        rw [show k - (s : ℤ) + 1 = k - ((s - 1 : ℕ) : ℤ) by omega, e, show p - (s - 1) = p + 1 - s by omega]
        ring
      · refine ⟨0, ?_, fun h' => absurd h' h, by simp⟩
        rw [pieceP_zero_of_gt U k p (k - s + 1) (by omega)]
        ring
    refine ⟨R1 + R2, ?_, ?_⟩
    · rw [pieceP, e1, e2]
      ring
    · rw [eval_add]
      by_cases h : s ≤ p
      · linarith [p1.1 h, p2.2]
      · linarith [p2.1 (by omega), p1.2]

theorem order_zero {q J0 : ℕ} (hJ : 1 ≤ J0) (hJq : J0 ≤ q) {t : ℝ} {Q R : ℕ → ℝ[X]}
    (hQ : ∀ j, J0 ≤ j → j ≤ q → Q j = (X - C t) ^ j * R j) (hR : (R J0).eval t ≠ 0) {α β : ℕ → ℝ} (ha : ∀ j < J0, α j = 0)
    (hb : ∀ j < J0, β j = 0)
    (h : ∑ j ∈ Finset.range (q + 1), C (α j) * Q j = derivative (∑ j ∈ Finset.range (q + 1), C (β j) * Q j)) : β J0 = 0 := by
  have key : ∀ γ : ℕ → ℝ, (∀ j < J0, γ j = 0) → ∑ j ∈ Finset.range (q + 1), C (γ j) * Q j =
      (X - C t) ^ J0 * ∑ j ∈ Finset.range (q + 1), C (γ j) * ((X - C t) ^ (j - J0) * R j) := by
    intro γ hγ
    rw [Finset.mul_sum]
    refine Finset.sum_congr rfl fun j hj => ?_
    by_cases hlt : j < J0
    · rw [hγ j hlt, C_0]; ring
    · rw [hQ j (by omega) (by have := Finset.mem_range.1 hj; omega)]
      have : (X - C t : ℝ[X]) ^ j = (X - C t) ^ J0 * (X - C t) ^ (j - J0) := by rw [← pow_add]; congr 1; omega
      rw [this]
      ring
  rw [key α ha, key β hb] at h
  set L := ∑ j ∈ Finset.range (q + 1), C (β j) * ((X - C t) ^ (j - J0) * R j) with hL
  set G := ∑ j ∈ Finset.range (q + 1), C (α j) * ((X - C t) ^ (j - J0) * R j) with hG
  obtain ⟨e, rfl⟩ : ∃ e, J0 = e + 1 := ⟨J0 - 1, by omega⟩
  have hd : derivative ((X - C t) ^ (e + 1) * L) = (X - C t) ^ e * (C ((e : ℝ) + 1) * L + (X - C t) * derivative L) := by
    rw [derivative_mul, derivative_X_sub_C_pow]
    push_cast
    simp only [add_tsub_cancel_right, C_add, map_natCast, C_1]
    ring
  rw [hd, pow_succ, mul_assoc] at h
  have h2 := mul_left_cancel₀ (pow_ne_zero e (X_sub_C_ne_zero t)) h
  have h3 := congrArg (fun P => eval t P) h2
  simp only [eval_mul, eval_sub, eval_X, eval_C, sub_self, zero_mul, eval_add, add_zero] at h3
  have h4 : L.eval t = 0 := by
    have : ((e : ℝ) + 1) ≠ 0 := by positivity
    exact (mul_eq_zero.1 h3.symm).resolve_left this
  rw [hL, eval_finset_sum, Finset.sum_eq_single (e + 1)] at h4
  · simp only [eval_mul, eval_C, Nat.sub_self, pow_zero, eval_one, one_mul] at h4
    exact (mul_eq_zero.1 h4).resolve_right hR
  · intro j _ hj
    by_cases hlt : j < e + 1
    · rw [hb j hlt, C_0, zero_mul, eval_zero]
    · rw [eval_mul, eval_mul, eval_pow, eval_sub, eval_X, eval_C, eval_C, sub_self, zero_pow (by omega)]
      ring
  · intro hn
    exact absurd (Finset.mem_range.2 (by omega)) hn

/-- the first row of coefficients vanishes -/
theorem cell_row {p q J0 : ℕ} (hJ : 1 ≤ J0) (hJq : J0 ≤ q) {t : ℝ} {P Q R : ℕ → ℝ[X]} (hP : ∀ i, (P i).natDegree ≤ p)
    (hQd : ∀ j, (Q j).natDegree ≤ q) (hQ : ∀ j, J0 ≤ j → j ≤ q → Q j = (X - C t) ^ j * R j) (hR : (R J0).eval t ≠ 0)
    {u : Fin (p + 1) → ℝ} (hu : Function.Injective u) {v : Fin (q + 1) → ℝ} (hv : Function.Injective v) {a b : ℕ → ℕ → ℝ}
    (ha : ∀ i, ∀ j < J0, a i j = 0) (hb : ∀ i, ∀ j < J0, b i j = 0)
    (h : ∀ g h, ∑ i ∈ Finset.range (p + 1), ∑ j ∈ Finset.range (q + 1), a i j * ((derivative (P i)).eval (u g) * (Q j).eval (v h)) =
      ∑ i ∈ Finset.range (p + 1), ∑ j ∈ Finset.range (q + 1), b i j * ((P i).eval (u g) * (derivative (Q j)).eval (v h))) (x : ℝ) :
    ∑ i ∈ Finset.range (p + 1), b i J0 * (P i).eval x = 0 := by
  -- the equation holds for all first arguments
  have h1 : ∀ h, ∑ i ∈ Finset.range (p + 1), ∑ j ∈ Finset.range (q + 1), a i j * ((derivative (P i)).eval x * (Q j).eval (v h)) =
      ∑ i ∈ Finset.range (p + 1), ∑ j ∈ Finset.range (q + 1), b i j * ((P i).eval x * (derivative (Q j)).eval (v h)) := by
    intro hh
    set F : ℝ[X] := ∑ i ∈ Finset.range (p + 1), ∑ j ∈ Finset.range (q + 1), (C (a i j * (Q j).eval (v hh)) * derivative (P i) -
      C (b i j * (derivative (Q j)).eval (v hh)) * P i) with hF
    have hdeg : F.natDegree ≤ p := by
      refine natDegree_sum_le_of_forall_le _ _ fun i _ => natDegree_sum_le_of_forall_le _ _ fun j _ => ?_
      refine (natDegree_sub_le _ _).trans (max_le ?_ ?_)
      · exact (natDegree_C_mul_le _ _).trans ((natDegree_derivative_le _).trans (by have := hP i; omega))
      · exact (natDegree_C_mul_le _ _).trans (hP i)
    have hev : ∀ y, F.eval y = ∑ i ∈ Finset.range (p + 1), ∑ j ∈ Finset.range (q + 1), a i j * ((derivative (P i)).eval y * (Q j).eval (v hh)) -
        ∑ i ∈ Finset.range (p + 1), ∑ j ∈ Finset.range (q + 1), b i j * ((P i).eval y * (derivative (Q j)).eval (v hh)) := by
      intro y
      rw [hF, eval_finset_sum, ← Finset.sum_sub_distrib]
      refine Finset.sum_congr rfl fun i _ => ?_
      rw [eval_finset_sum, ← Finset.sum_sub_distrib]
      refine Finset.sum_congr rfl fun j _ => ?_
      rw [eval_sub, eval_mul, eval_mul, eval_C, eval_C]
      ring
    have hz : F = 0 := eq_zero_of_natDegree_lt_card_of_eval_eq_zero F hu (fun g => by rw [hev, h g hh, sub_self])
      (by rw [Fintype.card_fin]; omega)
    have := hev x
    rw [hz, eval_zero] at this
    linarith
  -- and as an equation of polynomials in the second
  set α := fun j => ∑ i ∈ Finset.range (p + 1), a i j * (derivative (P i)).eval x with hα
  set β := fun j => ∑ i ∈ Finset.range (p + 1), b i j * (P i).eval x with hβ
  refine order_zero hJ hJq hQ hR (α := α) (β := β) (fun j hj => Finset.sum_eq_zero fun i _ => by rw [ha i j hj, zero_mul])
    (fun j hj => Finset.sum_eq_zero fun i _ => by rw [hb i j hj, zero_mul]) ?_
  rw [derivative_sum]
  simp only [derivative_C_mul]
  rw [← sub_eq_zero, ← Finset.sum_sub_distrib]
  refine eq_zero_of_natDegree_lt_card_of_eval_eq_zero _ hv (fun hh => ?_) (by
    rw [Fintype.card_fin]
    refine Nat.lt_succ_of_le (natDegree_sum_le_of_forall_le _ _ fun j _ => (natDegree_sub_le _ _).trans (max_le ?_ ?_))
    · exact (natDegree_C_mul_le _ _).trans (hQd j)
    · exact (natDegree_C_mul_le _ _).trans ((natDegree_derivative_le _).trans (by have := hQd j; omega)))
  rw [eval_finset_sum]
  simp only [eval_sub, eval_mul, eval_C]
  rw [Finset.sum_sub_distrib, sub_eq_zero]
  have := h1 hh
  rw [Finset.sum_comm, Finset.sum_comm (s := Finset.range (p + 1))] at this
  refine (Finset.sum_congr rfl fun j _ => ?_).trans (this.trans (Finset.sum_congr rfl fun j _ => ?_))
  · rw [hα, Finset.sum_mul]
    exact Finset.sum_congr rfl fun i _ => by ring
  · rw [hβ, Finset.sum_mul]
    exact Finset.sum_congr rfl fun i _ => by ring

end Igakit
