import Verif.Proofs.Hull
import Verif.Proofs.Eval

/-! # Supports of the basis functions -/

set_option linter.unusedSectionVars false

namespace Igakit
open Spec

variable {K : Type*} [Field K] [LinearOrder K] [IsStrictOrderedRing K]

theorem piece_pos_left {U : ℤ → K} {k : ℤ} {u : K} (h1 : U k ≤ u) (h2 : u < U (k + 1)) (p : ℕ)
    (hs : SortedOn U (k - p) (k + p + 1)) : ∀ q : ℕ, q ≤ p → ∀ i, i ≤ k → k ≤ i + q → (U i < u ∨ k = i + q) →
    0 < piece U k q i u := by
  intro q
  induction q with
  | zero =>
    intro _ i i1 i2 _
    obtain rfl : i = k := by push_cast at i2; omega
    simp [piece, coxDB]
  | succ q ih =>
    intro hq i i1 i2 hi
    have nn := piece_nonneg h1 h2.le p hs q (by omega)
    rw [piece_succ]
    by_cases hk : k = i + (q + 1 : ℕ)
    · have c := ih (by omega) (i + 1) (by omega) (by omega) (Or.inr (by omega))
      have z : piece U k q i u = 0 := piece_zero_of_lt _ _ _ _ _ (by omega)
      rw [z, mul_zero, zero_add]
      have e : i + q + 2 = k + 1 := by omega
      rw [e]
      have := hs (i + 1) k (by omega) (by omega) (by omega)
      exact mul_pos (div_pos (by linarith) (by linarith)) c
    · have hi' : U i < u := by
        rcases hi with h | h
        · exact h
        · exact absurd h hk
      have c := ih (by omega) i i1 (by omega) (Or.inl hi')
      have m1 := hs (k + 1) (i + q + 1) (by omega) (by omega) (by omega)
      refine add_pos_of_pos_of_nonneg (mul_pos (div_pos (by linarith) (by linarith)) c) ?_
      by_cases hik : i + 1 ≤ k
      · have m2 := hs (k + 1) (i + q + 2) (by omega) (by omega) (by omega)
        have m3 := hs (i + 1) k (by omega) (by omega) (by omega)
        exact mul_nonneg (div_nonneg (by linarith) (by linarith)) (nn _)
      · rw [piece_zero_of_gt _ _ _ _ _ (by omega), mul_zero]

theorem piece_pos_right {U : ℤ → K} {k : ℤ} {u : K} (h1 : U k < u) (h2 : u ≤ U (k + 1)) (p : ℕ)
    (hs : SortedOn U (k - p) (k + p + 1)) : ∀ q : ℕ, q ≤ p → ∀ i, i ≤ k → k ≤ i + q → (u < U (i + q + 1) ∨ k = i) →
    0 < piece U k q i u := by
  intro q
  induction q with
  | zero =>
    intro _ i i1 i2 _
    obtain rfl : i = k := by push_cast at i2; omega
    simp [piece, coxDB]
  | succ q ih =>
    intro hq i i1 i2 hi
    push_cast at hi i2
    have nn := piece_nonneg h1.le h2 p hs q (by omega)
    rw [piece_succ]
    by_cases hk : k = i
    · have c := ih (by omega) i (by omega) (by omega) (Or.inr hk)
      have z : piece U k q (i + 1) u = 0 := piece_zero_of_gt _ _ _ _ _ (by omega)
      rw [z, mul_zero, add_zero]
      have m1 := hs (k + 1) (i + q + 1) (by omega) (by omega) (by omega)
      have m2 : U i = U k := by rw [hk]
      exact mul_pos (div_pos (by linarith) (by linarith)) c
    · have hi' : u < U (i + q + 2) := by
        rcases hi with h | h
        · rw [show i + q + 2 = i + (q + 1) + 1 by ring]; exact h
        · exact absurd h hk
      have c := ih (by omega) (i + 1) (by omega) (by omega) (Or.inl (by rw [show i + 1 + q + 1 = i + (q : ℤ) + 2 by ring]; exact hi'))
      have m1 := hs (i + 1) k (by omega) (by omega) (by omega)
      refine add_pos_of_nonneg_of_pos ?_ (mul_pos (div_pos (by linarith) (by linarith)) c)
      by_cases hik : k ≤ i + q
      · have m2 := hs (k + 1) (i + q + 1) (by omega) (by omega) (by omega)
        have m3 := hs i k (by omega) (by omega) (by omega)
        exact mul_nonneg (div_nonneg (by linarith) (by linarith)) (nn _)
      · rw [piece_zero_of_lt _ _ _ _ _ (by omega), mul_zero]

section
variable {n : ℤ} {p : ℕ} {U : ℤ → K} {u : K}

/-- the span found brackets the parameter -/
theorem findSpan_bracket (hv : ValidKnots n p U) (h1 : U p ≤ u) (h2 : u ≤ U (n + 1)) :
    (p : ℤ) ≤ findSpan n p u U ∧ findSpan n p u U ≤ n ∧ U (findSpan n p u U) ≤ u ∧ u ≤ U (findSpan n p u U + 1) ∧
      (U (findSpan n p u U) < u ∨ u < U (findSpan n p u U + 1)) := by
  have hle := hv.le
  have hone := hv.one_le
  rcases lt_or_ge u (U (n + 1)) with h | h
  · rcases h1.eq_or_lt with h' | h'
    · rw [findSpan_le h h'.ge]
      exact ⟨le_rfl, hle, h1, h' ▸ hv.first.le, Or.inr (h' ▸ hv.first)⟩
    · obtain ⟨b1, b2, b3, b4⟩ := findSpan_mid (by omega) hv.le h' h
      exact ⟨b1, by omega, b3, b4.le, Or.inr b4⟩
  · rw [findSpan_ge h]
    have := lt_of_lt_of_le hv.last h
    exact ⟨hle, le_rfl, this.le, h2, Or.inl this⟩

theorem bsplineD_support (hv : ValidKnots n p U) (h1 : U p ≤ u) (h2 : u ≤ U (n + 1)) {i : ℤ} (hi1 : 0 ≤ i) (hi2 : i ≤ n)
    (ho : u < U i ∨ U (i + p + 1) < u) : bsplineD n U p i u = 0 := by
  obtain ⟨b1, b2, b3, b4, _⟩ := findSpan_bracket hv h1 h2
  refine bsplineD_zero_outside hv h1 h2 i hi1 hi2 ?_
  by_contra h
  push Not at h
  rcases ho with ho | ho
  · have := hv.sorted i (findSpan n p u U) hi1 h.2 (by omega)
    linarith
  · have := hv.sorted (findSpan n p u U + 1) (i + p + 1) (by omega) (by omega) (by omega)
    linarith

theorem bsplineD_pos (hv : ValidKnots n p U) (h1 : U p ≤ u) (h2 : u ≤ U (n + 1)) {i : ℤ} (hi1 : 0 ≤ i) (hi2 : i ≤ n)
    (hl : U i < u) (hr : u < U (i + p + 1)) : 0 < bsplineD n U p i u := by
  obtain ⟨b1, b2, b3, b4, b5⟩ := findSpan_bracket hv h1 h2
  rw [bsplineD_eq_piece hv h1 h2 i hi1 hi2]
  generalize findSpan n p u U = k at *
  have hs : SortedOn U (k - p) (k + p + 1) := fun x y a b c => hv.sorted x y (by omega) b (by omega)
  have k1 : i ≤ k := by
    by_contra h
    have := hv.sorted (k + 1) i (by omega) (by omega) (by omega)
    linarith
  have k2 : k ≤ i + p := by
    by_contra h
    have := hv.sorted (i + p + 1) k (by omega) (by omega) (by omega)
    linarith
  rcases b5 with h | h
  · exact piece_pos_right h b4 p hs p le_rfl i k1 k2 (Or.inl hr)
  · exact piece_pos_left b3 h p hs p le_rfl i k1 k2 (Or.inl hl)

end

end Igakit
