import Verif.Proofs.CurveForm
import Verif.Proofs.Count
import Verif.Proofs.ListArr

/-! # Slicing a refined curve -/

set_option linter.unusedSectionVars false

namespace Igakit
open Spec

variable {K : Type} [Field K] [LinearOrder K] [IsStrictOrderedRing K]
variable {E : Type*} [AddCommGroup E] [Module K E]

theorem searchR_eq (T : ℤ → K) (m : ℤ) (v : K) :
    Nrb.searchR T (m + 1) v = ((knotMS T m).countP (· ≤ v) : ℤ) := by
  unfold Nrb.searchR
  rw [knotMS, Multiset.countP_map, ← Finset.filter_val, Finset.card_val]
  congr 3

theorem searchL_eq (T : ℤ → K) (m : ℤ) (v : K) :
    Nrb.searchL T (m + 1) v = ((knotMS T m).countP (· < v) : ℤ) := by
  unfold Nrb.searchL
  rw [knotMS, Multiset.countP_map, ← Finset.filter_val, Finset.card_val]
  congr 3

theorem countP_le_eq (X : Multiset K) (v : K) : X.countP (· ≤ v) = X.countP (· < v) + X.count v := by
  induction X using Multiset.induction with
  | empty => simp
  | cons x X ih =>
    rw [Multiset.countP_cons, Multiset.countP_cons, Multiset.count_cons, ih]
    rcases lt_trichotomy x v with h | h | h
    · rw [if_pos h.le, if_pos h, if_neg h.ne']; omega
    · subst h; simp; omega
    · rw [if_neg (not_le.mpr h), if_neg (not_lt.mpr h.le), if_neg h.ne]; omega

/-- positions of a value of multiplicity at least `c` in a sorted array -/
theorem run_of_value {T : ℤ → K} {m : ℤ} (hs : SortedOn T 0 m) (v : K) :
    (∀ j, 0 ≤ j → j ≤ m → (T j < v ↔ j < Nrb.searchL T (m + 1) v)) ∧
    (∀ j, 0 ≤ j → j ≤ m → (T j ≤ v ↔ j < Nrb.searchR T (m + 1) v)) ∧
    Nrb.searchR T (m + 1) v = Nrb.searchL T (m + 1) v + mult T 0 m v := by
  rw [searchR_eq, searchL_eq]
  refine ⟨?_, ?_, ?_⟩
  · intro j a b
    exact countP_knotMS hs (fun x => x < v) (fun x y hxy hy => lt_of_le_of_lt hxy hy) a b
  · intro j a b
    exact countP_knotMS hs (fun x => x ≤ v) (fun x y hxy hy => le_trans hxy hy) a b
  · rw [countP_le_eq, count_knotMS]; push_cast; rfl

theorem slice_core {n : ℤ} {p : ℕ} {U : ℤ → K} {P : ℤ → E} {N : ℤ} {T : ℤ → K} {C : ℤ → E}
    {X : Multiset K} (hv : ValidKnots n p U) (h : IsRefn n p U P N T C X) (hT0 : T p = U p)
    (hT1 : T (N + 1) = U (n + 1)) (hpN : (p : ℤ) ≤ N) {u0 u1 : K} (h01 : u0 < u1) (hu0 : U p ≤ u0)
    (hu1 : u1 ≤ U (n + 1)) (hc0 : p ≤ mult T 0 (N + p + 1) u0) (hc1 : p ≤ mult T 0 (N + p + 1) u1)
    (hm1 : u1 < U (n + 1) → mult U 0 (n + p + 1) u1 ≤ p) {i0 i1 n' : ℤ}
    (hi0 : i0 = Nrb.searchR T (N + p + 1 + 1) u0 - 1) (hi1 : i1 = Nrb.searchL T (N + p + 1 + 1) u1)
    (hn' : n' = i1 - (i0 - p) - 1) :
    ValidKnots n' p (Nrb.sliceKnots p i0 i1 T) ∧ ClampedL p (Nrb.sliceKnots p i0 i1 T) ∧
      ClampedR n' p (Nrb.sliceKnots p i0 i1 T) ∧ Nrb.sliceKnots p i0 i1 T p = u0 ∧
      Nrb.sliceKnots p i0 i1 T (n' + 1) = u1 ∧
      ∀ u, u0 ≤ u → u ≤ u1 →
        curve n' p (Nrb.sliceKnots p i0 i1 T) (fun i => C (i + (i0 - p))) u = curve n p U P u := by
  have hp := hv.one_le
  have hle := hv.le
  obtain ⟨a1, a2, a3⟩ := run_of_value h.sorted u0
  obtain ⟨b1, b2, b3⟩ := run_of_value h.sorted u1
  have c1 : (p : ℤ) ≤ i0 := by
    have := (a2 p (by omega) (by omega)).mp (by rw [hT0]; exact hu0)
    omega
  have c2 : i1 ≤ N + 1 := by
    by_contra hc
    have := (b1 (N + 1) (by omega) (by omega)).mpr (by omega)
    rw [hT1] at this
    exact absurd this (not_lt.mpr hu1)
  have c3 : i0 ≤ N := by
    by_contra hc
    have := (a2 (N + 1) (by omega) (by omega)).mpr (by omega)
    rw [hT1] at this
    exact absurd (lt_of_lt_of_le h01 hu1) (not_lt.mpr this)
  have c0 : 0 ≤ i1 := by rw [hi1, searchL_eq]; omega
  have run0 : ∀ j, i0 - p < j → j ≤ i0 → T j = u0 := by
    intro j x y
    apply le_antisymm
    · exact (a2 j (by omega) (by omega)).mpr (by omega)
    · by_contra hc
      have := (a1 j (by omega) (by omega)).mp (not_le.mp hc)
      omega
  have run1 : ∀ j, i1 ≤ j → j < i1 + p → T j = u1 := by
    intro j x y
    have hR : Nrb.searchR T (N + p + 1 + 1) u1 ≤ N + p + 2 := by
      rw [searchR_eq]
      have := countP_le_knotMS T (N + p + 1) (· ≤ u1)
      rw [max_eq_right (by omega)] at this
      omega
    apply le_antisymm
    · exact (b2 j (by omega) (by omega)).mpr (by omega)
    · by_contra hc
      have := (b1 j (by omega) (by omega)).mp (not_le.mp hc)
      omega
  have e0 : T i0 = u0 := run0 i0 (by omega) le_rfl
  have e1 : T i1 = u1 := run1 i1 le_rfl (by omega)
  have c4 : i0 < i1 := by
    have := (b1 i0 (by omega) (by omega)).mp (by rw [e0]; exact h01)
    omega
  have g0 : u0 < T (i0 + 1) := by
    by_contra hc
    have := (a2 (i0 + 1) (by omega) (by omega)).mp (not_lt.mp hc)
    omega
  have g1 : T (i1 - 1) < u1 := (b1 (i1 - 1) (by omega) (by omega)).mpr (by omega)
  set S := Nrb.sliceKnots p i0 i1 T with hS
  have Sin : ∀ j, 1 ≤ j → j ≤ n' + p → S j = T (j + (i0 - p)) := by
    intro j x y
    simp only [hS, Nrb.sliceKnots]
    split_ifs with q1 q2
    · rw [e0, run0 _ (by omega) (by omega)]
    · congr 1; ring
    · rw [e1, run1 _ (by omega) (by omega)]
  have S0 : ∀ j : ℤ, j ≤ p → 0 ≤ j → S j = u0 := by
    intro j x y
    simp only [hS, Nrb.sliceKnots]
    split_ifs with q1 q2
    · exact e0
    · rw [show j = p by omega, sub_self, add_zero]; exact e0
    · omega
  have S1 : ∀ j, n' + 1 ≤ j → S j = u1 := by
    intro j x
    simp only [hS, Nrb.sliceKnots]
    split_ifs with q1 q2
    · omega
    · rw [show i0 + (j - p) = i1 by omega]; exact e1
    · exact e1
  have Ssort : SortedOn S 0 (n' + p + 1) := by
    intro i j x y z
    rcases le_or_gt i p with hi | hi
    · rw [S0 i hi x]
      rcases le_or_gt j p with hj | hj
      · rw [S0 j hj (by omega)]
      · rcases le_or_gt j (n' + p) with hj' | hj'
        · rw [Sin j (by omega) hj', ← e0]
          exact h.sorted _ _ (by omega) (by omega) (by omega)
        · rw [S1 j (by omega)]; exact h01.le
    · rcases le_or_gt j (n' + p) with hj' | hj'
      · rw [Sin i (by omega) (by omega), Sin j (by omega) hj']
        exact h.sorted _ _ (by omega) (by omega) (by omega)
      · rw [S1 j (by omega)]
        rcases le_or_gt i n' with hi' | hi'
        · rw [Sin i (by omega) (by omega), ← e1]
          exact h.sorted _ _ (by omega) (by omega) (by omega)
        · rw [S1 i (by omega)]
  have hval : ValidKnots n' p S := by
    refine ⟨hp, by omega, Ssort, ?_, ?_⟩
    · rw [S0 p le_rfl (by omega), Sin _ (by omega) (by omega)]
      rw [show (p : ℤ) + 1 + (i0 - p) = i0 + 1 by ring]; exact g0
    · rw [S1 _ le_rfl, Sin _ (by omega) (by omega), show n' + (i0 - p) = i1 - 1 by omega]; exact g1
  refine ⟨hval, ?_, ?_, S0 p le_rfl (by omega), S1 _ le_rfl, ?_⟩
  · intro j x y; rw [S0 j y x, S0 p le_rfl (by omega)]
  · intro j x y; rw [S1 j x, S1 _ le_rfl]
  · intro u x y
    obtain ⟨k, hk⟩ := SpanOf.exists' (n := n') (p := p) Ssort
      (by rw [S0 p le_rfl (by omega), S1 _ le_rfl]; exact h01) (by omega) (u := u)
      (by rw [S0 p le_rfl (by omega)]; exact x) (by rw [S1 _ le_rfl]; exact y)
    have hk1 := hk.lo
    have hk2 := hk.hi
    have f1 := Sin k (by omega) (by omega)
    have f2 := Sin (k + 1) (by omega) (by omega)
    have f3 : k + 1 + (i0 - p) = k + (i0 - p) + 1 := by ring
    rw [f3] at f2
    have hne := hk.ne
    rw [f1, f2] at hne
    have hmem := hk.mem
    rw [f1, f2] at hmem
    have hlt' : U p < U (n + 1) := lt_of_le_of_lt hu0 (lt_of_lt_of_le h01 hu1)
    -- forms of the original curve represent the slice
    have back : ∀ (kk : ℤ) (f : Multiset K → E), (p : ℤ) ≤ kk → kk ≤ n → U kk < U (kk + 1) →
        U kk ≤ T (k + (i0 - p)) → T (k + (i0 - p)) < U (kk + 1) → IsForm p f →
        Rep p U P (kk - p) kk f → Rep p S (fun i => C (i + (i0 - p))) (k - p) k f := by
      intro kk f q1 q2 q3 q4 q5 hf hr
      have := h.forms kk (k + (i0 - p)) f q1 q2 q3 (by omega) (by omega) hne q4 q5 hf hr
      intro i r1 r2
      show C (i + (i0 - p)) = _
      rw [this (i + (i0 - p)) (by omega) (by omega)]
      congr 1
      refine kn_congr (fun l l1 l2 => ?_)
      rw [Sin (i + l) (by omega) (by omega)]
      congr 1; ring
    rcases hmem with ⟨r1, r2⟩ | ⟨r1, r2, r3⟩
    · have hun : u < U (n + 1) := lt_of_lt_of_le r2 (by
        rw [← hT1]; exact h.sorted _ _ (by omega) (by omega) (by omega))
      obtain ⟨kk, hkk⟩ := SpanOf.exists' (n := n) (p := p) hv.sorted hlt' hle (hu0.trans x) hun.le
      have q1 := hkk.lo
      have q2 := hkk.hi
      have hh : U kk ≤ u ∧ u < U (kk + 1) := by
        rcases hkk.mem with z | z
        · exact z
        · exact absurd z.2.2 hun.ne
      refine curve_transfer hkk hv.sorted hk Ssort rfl (fun f hf hr => ?_)
      exact back kk f q1 q2 hkk.ne
        (h.le_of_lt (by omega) (by omega) (by omega) (by omega) (lt_of_le_of_lt hh.1 r2))
        (lt_of_le_of_lt r1 hh.2) hf hr
    · -- right end of the slice
      rw [S1 _ le_rfl] at r3
      subst r3
      obtain ⟨d1, _, d3⟩ := run_of_value hv.sorted u
      set kk := Nrb.searchL U (n + p + 1 + 1) u - 1 with hkk
      have w1 : (p : ℤ) ≤ kk := by
        have := (d1 p (by omega) (by omega)).mp (lt_of_le_of_lt hu0 h01)
        omega
      have w2 : kk ≤ n := by
        by_contra hc
        have := (d1 (n + 1) (by omega) (by omega)).mpr (by omega)
        exact absurd this (not_lt.mpr hu1)
      have w3 : U kk < u := (d1 kk (by omega) (by omega)).mpr (by omega)
      have w4 : u ≤ U (kk + 1) := by
        by_contra hc
        have := (d1 (kk + 1) (by omega) (by omega)).mp (not_le.mp hc)
        omega
      have hwin : Win U kk p := Win.of_sorted hv.sorted (lt_of_lt_of_le w3 w4) (by omega) (by omega)
      obtain ⟨f, hf, hr⟩ := exists_form P hwin
      rw [curve_form_left hv.sorted hm1 w1 w2 w3 w4 hf hr]
      refine hk.curve_form Ssort hf (back kk f w1 w2 (lt_of_lt_of_le w3 w4)
        (h.le_of_lt (by omega) (by omega) (by omega) (by omega) ?_) (lt_of_lt_of_le r1 w4) hf hr)
      rw [← r2]; exact w3

end Igakit
