import Verif.Proofs.Refine

/-! # Counting knots in sorted arrays -/

set_option linter.unusedSectionVars false

namespace Igakit
open Spec

variable {K : Type*} [Field K] [LinearOrder K]

/-- in a sorted array a downward closed predicate holds on an initial segment, whose length is the
number of entries satisfying it -/
theorem countP_knotMS {T : ℤ → K} {m : ℤ} (hs : SortedOn T 0 m) (q : K → Prop) [DecidablePred q]
    (hq : ∀ x y, x ≤ y → q y → q x) {j : ℤ} (h0 : 0 ≤ j) (hm : j ≤ m) :
    q (T j) ↔ j < ((knotMS T m).countP q : ℤ) := by
  have hcard : (knotMS T m).countP q = ((Finset.Icc 0 m).filter (fun i => q (T i))).card := by
    rw [knotMS, Multiset.countP_map, ← Finset.filter_val, Finset.card_val]
  rw [hcard]
  constructor
  · intro h
    have hsub : Finset.Icc 0 j ⊆ (Finset.Icc 0 m).filter (fun i => q (T i)) := by
      intro x hx
      simp only [Finset.mem_filter, Finset.mem_Icc] at hx ⊢
      exact ⟨⟨hx.1, by omega⟩, hq _ _ (hs x j hx.1 hx.2 hm) h⟩
    have := Finset.card_le_card hsub
    rw [Int.card_Icc] at this
    omega
  · intro h
    by_contra hc
    have hsub : (Finset.Icc 0 m).filter (fun i => q (T i)) ⊆ Finset.Icc 0 (j - 1) := by
      intro x hx
      simp only [Finset.mem_filter, Finset.mem_Icc] at hx ⊢
      refine ⟨hx.1.1, ?_⟩
      by_contra hlt
      exact hc (hq _ _ (hs j x h0 (by omega) hx.1.2) hx.2)
    have := Finset.card_le_card hsub
    rw [Int.card_Icc] at this
    omega

theorem countP_le_knotMS (T : ℤ → K) (m : ℤ) (q : K → Prop) [DecidablePred q] :
    ((knotMS T m).countP q : ℤ) ≤ max 0 (m + 1) := by
  have := Multiset.countP_le_card q (knotMS T m)
  rw [knotMS, Multiset.card_map, Finset.card_val, Int.card_Icc] at this
  unfold knotMS
  omega

variable [IsStrictOrderedRing K]
variable {E : Type*} [AddCommGroup E] [Module K E]

/-- adding values strictly inside the domain keeps the end spans nondegenerate -/
theorem IsRefn.valid {n : ℤ} {p : ℕ} {U : ℤ → K} {P : ℤ → E} {N : ℤ} {T : ℤ → K} {C : ℤ → E}
    {X : Multiset K} (h : IsRefn n p U P N T C X) (hv : ValidKnots n p U) (hN : N = n + X.card)
    (h1 : T p = U p) (h2 : T (N + 1) = U (n + 1)) (hX1 : ∀ x ∈ X, U p < x)
    (hX2 : ∀ x ∈ X, x < U (n + 1)) : ValidKnots N p T := by
  have hp := hv.one_le
  have hle := hv.le
  refine ⟨hp, by omega, h.sorted, ?_, ?_⟩
  · rw [h1]
    by_contra hc
    have hc := not_lt.mp hc
    have a := (countP_knotMS h.sorted (fun x => x ≤ U p) (fun x y hxy hy => le_trans hxy hy)
      (j := p + 1) (by omega) (by omega)).mp hc
    rw [h.ms, Multiset.countP_add, Multiset.countP_eq_zero.mpr
      (fun x hx => not_le.mpr (hX1 x hx)), add_zero] at a
    have b := (countP_knotMS hv.sorted (fun x => x ≤ U p) (fun x y hxy hy => le_trans hxy hy)
      (j := p + 1) (by omega) (by omega)).mpr a
    exact absurd hv.first (not_lt.mpr b)
  · rw [h2]
    have a := (countP_knotMS hv.sorted (fun x => x < U (n + 1)) (fun x y hxy hy => lt_of_le_of_lt hxy hy)
      (j := n) (by omega) (by omega)).mp hv.last
    refine (countP_knotMS h.sorted (fun x => x < U (n + 1)) (fun x y hxy hy => lt_of_le_of_lt hxy hy)
      (j := N) (by omega) (by omega)).mpr ?_
    rw [h.ms, Multiset.countP_add, Multiset.countP_eq_card.mpr hX2]
    push_cast
    omega

end Igakit
