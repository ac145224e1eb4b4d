import Verif.Proofs.HullCurve

/-!
# Divided differences of control points of a curve under refinement
-/

set_option linter.unusedSectionVars false

namespace Igakit
open Spec

variable {K : Type} [Field K] [LinearOrder K] [IsStrictOrderedRing K] {ι : Type}

section form
variable {E : Type*} [AddCommGroup E] [Module K E]

/-- the form of the derivative -/
def dform (f : Multiset K → E) (X : Multiset K) : E := f (1 ::ₘ X) - f (0 ::ₘ X)

theorem dform_form {q : ℕ} {f : Multiset K → E} (hf : IsForm (q + 1) f) : IsForm q (dform f) := by
  intro m hm a s t
  unfold dform
  rw [Multiset.cons_swap 1, Multiset.cons_swap 0, hf _ (by rw [Multiset.card_cons]; omega), hf _ (by rw [Multiset.card_cons]; omega),
    Multiset.cons_swap s, Multiset.cons_swap t, Multiset.cons_swap s 0, Multiset.cons_swap t 0]
  module

theorem dform_diff {q : ℕ} {f : Multiset K → E} (hf : IsForm (q + 1) f) {X : Multiset K} (hX : X.card = q) (a b : K) :
    f (b ::ₘ X) = f (a ::ₘ X) + (b - a) • dform f X := by
  have h : ∀ x : K, f (x ::ₘ X) = (1 - x) • f (0 ::ₘ X) + x • f (1 ::ₘ X) := fun x => by
    have := hf X (by omega) x 0 1
    rwa [mul_zero, zero_add, mul_one] at this
  rw [h a, h b]
  unfold dform
  module

/-- consecutive control points -/
theorem dform_step {q : ℕ} {f : Multiset K → E} (hf : IsForm (q + 1) f) (U : ℤ → K) (i : ℤ) :
    f (kn U (i + 1) (q + 1)) = f (kn U i (q + 1)) + (U (i + (q + 1 : ℕ) + 1) - U (i + 1)) • dform f (kn U (i + 1) q) := by
  rw [kn_succ_last, kn_succ_first, dform_diff hf (card_kn _ _ _) (U (i + 1))]
  congr 4
  push_cast
  ring

end form

theorem slope_cancel {E : Type*} [AddCommGroup E] [Module K E] {c : K} (hc : c ≠ 0) {A B s t : E} (h1 : A = B + c • s) (h2 : A = B + c • t) : s = t := by
  rw [h1] at h2
  have := add_left_cancel h2
  have e : c⁻¹ • c • s = c⁻¹ • c • t := by rw [this]
  rwa [smul_smul, smul_smul, inv_mul_cancel₀ hc, one_smul, one_smul] at e

/-- the divided differences of the control points of the same curve, or a part of it, on a knot vector that contains the old interior
knots are averages of the old ones -/
theorem curve_slope {n n' : ℤ} {q : ℕ} {U V : ℤ → K} (hs : SortedOn U 0 (n + (q + 1 : ℕ) + 1))
    (hs' : SortedOn V 0 (n' + (q + 1 : ℕ) + 1)) (hpn : ((q + 1 : ℕ) : ℤ) ≤ n) (hlo : U (q + 1 : ℕ) ≤ V (q + 1 : ℕ)) (hhi : V (n' + 1) ≤ U (n + 1))
    {P Q : ℤ → ι → K} (he : ∀ u, V (q + 1 : ℕ) ≤ u → u ≤ V (n' + 1) → curve n' (q + 1) V Q u = curve n (q + 1) U P u)
    (hm : ∀ y, V 0 < y → y < V (n' + (q + 1 : ℕ) + 1) → mult U 0 (n + (q + 1 : ℕ) + 1) y ≤ mult V 0 (n' + (q + 1 : ℕ) + 1) y)
    {S : Set (ι → K)} (hS : Convex K S)
    (hP : ∀ i, 0 ≤ i → i < n → ∃ s ∈ S, P (i + 1) = P i + (U (i + (q + 1 : ℕ) + 1) - U (i + 1)) • s) {j : ℤ}
    (hj0 : 0 ≤ j) (hjn : j < n')
    (ha : ∃ h, ((q + 1 : ℕ) : ℤ) ≤ h ∧ h ≤ n' ∧ j + 1 ≤ h ∧ h ≤ j + (q + 1 : ℕ) ∧ V h < V (h + 1)) :
    ∃ s ∈ S, Q (j + 1) = Q j + (V (j + (q + 1 : ℕ) + 1) - V (j + 1)) • s := by
  obtain ⟨h, h1, h2, h3, h4, h5⟩ := ha
  have hVn : V (h + 1) ≤ V (n' + 1) := hs' _ _ (by omega) (by omega) (by omega)
  have hVp : V (q + 1 : ℕ) ≤ V h := hs' _ _ (by omega) (by omega) (by omega)
  have hlt : V h < U (n + 1) := lt_of_lt_of_le h5 (hVn.trans hhi)
  obtain ⟨k, hk⟩ := SpanOf.exists' (n := n) (p := q + 1) (u := V h) hs
    (lt_of_le_of_lt (hlo.trans hVp) hlt) hpn (hlo.trans hVp) hlt.le
  have hmem : U k ≤ V h ∧ V h < U (k + 1) := by
    rcases hk.mem with c | c
    · exact c
    · exact absurd c.2.2 hlt.ne
  have hkn := hk.ne
  have k1 := hk.lo
  have k2 := hk.hi
  have hVk : V (h + 1) ≤ U (k + 1) := by
    by_contra hc
    push Not at hc
    have hy : 1 ≤ mult U 0 (n + (q + 1 : ℕ) + 1) (U (k + 1)) := by
      unfold mult
      exact Finset.card_pos.mpr ⟨k + 1, Finset.mem_filter.mpr ⟨Finset.mem_Icc.mpr ⟨by omega, by omega⟩, rfl⟩⟩
    have := hm (U (k + 1)) (lt_of_le_of_lt (hs' _ _ le_rfl (by omega) (by omega)) hmem.2)
      (lt_of_lt_of_le hc (hs' _ _ (by omega) (by omega) le_rfl))
    have hp0 : 0 < mult V 0 (n' + (q + 1 : ℕ) + 1) (U (k + 1)) := by omega
    unfold mult at hp0
    obtain ⟨z, hz⟩ := Finset.card_pos.mp hp0
    rw [Finset.mem_filter, Finset.mem_Icc] at hz
    rcases le_or_gt z h with hzh | hzh
    · have := hs' z h (by omega) hzh (by omega)
      rw [hz.2] at this
      exact absurd hmem.2 (not_lt.mpr this)
    · have := hs' (h + 1) z (by omega) (by omega) (by omega)
      rw [hz.2] at this
      exact absurd hc (not_lt.mpr this)
  obtain ⟨f, hf, hrf⟩ := exists_form P (hk.win hs)
  obtain ⟨g, hg, hrg⟩ := exists_form Q (Win.of_sorted (k := h) (p := q + 1) hs' h5 (by omega) (by omega))
  have hfg : ∀ m : Multiset K, m.card = q + 1 → g m = f m := by
    intro m hm
    refine form_eq hg hf (Set.Ico_infinite h5) (fun t ht => ?_) hm
    rw [← SpanOf.curve_form (n := n') (k := h) ⟨h1, h2, Or.inl ht⟩ hs' hg hrg,
      ← SpanOf.curve_form (n := n) (k := k) ⟨k1, k2, Or.inl ⟨hmem.1.trans ht.1, lt_of_lt_of_le ht.2 hVk⟩⟩ hs hf hrf]
    exact he t (hVp.trans ht.1) (ht.2.le.trans hVn)
  refine ⟨dform f (kn V (j + 1) q), ?_, ?_⟩
  · obtain ⟨A, B, L, R, w1, w2, w3, w4, w5, w6⟩ := window_halves (q := q) (j := j + 1) hs' (by omega) h3 (by push_cast at h4; omega)
      (by push_cast; omega) (by push_cast at *; omega) h5 (c := U k) (e := U (k + 1)) hmem.1 hVk
    rw [w1]
    refine form_split (dform_form hf) (k := k) (U := U) (fun i j a b c => hs i j (by omega) b (by push_cast; omega)) hkn hS
      (fun i a b => ?_) w2 (fun x hx => ⟨(w3 x hx).1, (w3 x hx).2.trans (h5.le.trans hVk)⟩)
      (fun x hx => ⟨hmem.1.trans (h5.le.trans (w4 x hx).1), (w4 x hx).2⟩) ?_ ?_
    · obtain ⟨s, s1, s2⟩ := hP (i - 1) (by push_cast at k1; omega) (by omega)
      have e := dform_step hf U (i - 1)
      rw [sub_add_cancel] at e s2
      rw [hrf i (by push_cast; omega) b, hrf (i - 1) (by push_cast; omega) (by omega)] at s2
      have hne : U (i - 1 + (q + 1 : ℕ) + 1) - U i ≠ 0 := by
        have e1 := hs i k (by push_cast at k1; omega) b (by push_cast; omega)
        have e2 := hs (k + 1) (i - 1 + (q + 1 : ℕ) + 1) (by push_cast at k1; omega) (by push_cast; omega) (by push_cast; omega)
        have := lt_of_le_of_lt e1 (lt_of_lt_of_le hkn e2)
        exact (sub_pos.mpr this).ne'
      rw [slope_cancel hne e s2]
      exact s1
    · intro y y1 y2
      obtain ⟨a1, a2, a3⟩ := w5 y y1 y2
      rw [a3]
      exact (count_kn_le_mult U y (by push_cast at k1; omega) (by push_cast; omega)).trans (hm y a1 a2)
    · intro y y1 y2
      obtain ⟨a1, a2, a3⟩ := w6 y y1 y2
      rw [a3]
      exact (count_kn_le_mult U y (by push_cast at k1; omega) (by push_cast; omega)).trans (hm y a1 a2)
  · rw [hrg (j + 1) (by push_cast at *; omega) h3, hrg j (by push_cast at *; omega) (by omega), hfg _ (card_kn _ _ _), hfg _ (card_kn _ _ _)]
    exact dform_step hf V j

end Igakit
