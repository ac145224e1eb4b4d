import Verif.Proofs.RemoveTop

/-!
# Fewer knots for curves whose pieces fit together smoothly
-/

set_option linter.unusedSectionVars false

namespace Igakit
open Spec

variable {K : Type*} [Field K] [LinearOrder K] [IsStrictOrderedRing K]
variable {E : Type*} [AddCommGroup E] [Module K E]

/-- the middle part of a run of consecutive knots -/
theorem kn_mid (V : ℤ → K) {i k k' : ℤ} {p : ℕ} (h1 : i ≤ k) (h2 : k ≤ k') (h3 : k' ≤ i + p) :
    kn V i p = (kn V i (k - i).toNat + kn V k' (i + p - k').toNat) + kn V k (k' - k).toNat := by
  have e : p = (k - i).toNat + ((k' - k).toNat + (i + p - k').toNat) := by omega
  conv_lhs => rw [e, kn_add, kn_add]
  rw [show i + ((k - i).toNat : ℤ) = k by omega, show k + ((k' - k).toNat : ℤ) = k' by omega, add_assoc]
  congr 1
  exact add_comm _ _

variable {n : ℤ} {p : ℕ} {U : ℤ → K} {uu : K} {r s : ℤ}

/-- the control points on the knots without `t` of the copies, `f` and `g` are the forms left and right of the knot -/
def coarsePts (p : ℕ) (U : ℤ → K) (r s t : ℤ) (P : ℤ → E) (f g : Multiset K → E) : ℤ → E := fun i =>
  if i < r - s - p then P i else if i ≤ r - s then f (kn (remKv U r t) i p)
  else if i ≤ r - t then g (kn (remKv U r t) i p) else P (i + t)

theorem coarse_curve (h : RemCtx n p U uu r s) {t : ℕ} (ht : (t : ℤ) ≤ s) {P : ℤ → E} {f g : Multiset K → E}
    (hf : IsForm p f) (hfr : Rep p U P (r - s - p) (r - s) f) (hg : IsForm p g) (hgr : Rep p U P (r - p) r g)
    (hag : ∀ m : Multiset K, m.card + (s - t).toNat = p →
      f (m + Multiset.replicate (s - t).toNat uu) = g (m + Multiset.replicate (s - t).toNat uu))
    {x : K} (hx1 : U p ≤ x) (hx2 : x ≤ U (n + 1)) :
    curve (n - t) p (remKv U r t) (coarsePts p U r s t P f g) x = curve n p U P x := by
  have h1 := h.rp
  have h2 := h.rn
  have h3 := h.s1
  have h4 := h.sp
  have hs := h.valid.sorted
  have hV := h.validKv (t := t) (by omega) ht
  have T1 : ∀ z, z ≤ r - t → remKv U r t z = U z := fun z hz => by unfold remKv; rw [if_pos hz]
  have T2 : ∀ z, r - t < z → remKv U r t z = U (z + t) := fun z hz => by unfold remKv; rw [if_neg (by omega)]
  have hneL : U (r - s) < U (r - s + 1) := by
    rw [h.blk (r - s + 1) (by omega) (by omega)]
    exact h.left _ (by omega) le_rfl
  have hneR : U r < U (r + 1) := by
    rw [h.blk r (by omega) le_rfl]
    exact h.right _ (by omega) (by omega)
  have wL : Win U (r - s) p := Win.of_sorted hs hneL (by omega) (by omega)
  have wR : Win U r p := Win.of_sorted hs hneR (by omega) (by omega)
  -- the windows around the block
  have hblk : ∀ i, r - t - p ≤ i → i ≤ r - s → f (kn (remKv U r t) i p) = g (kn (remKv U r t) i p) := by
    intro i i1 i2
    rw [kn_mid (remKv U r t) (k := r - s) (k' := r - t) i2 (by omega) (by omega)]
    have e : kn (remKv U r t) (r - s) (r - t - (r - s)).toNat = Multiset.replicate (s - t).toNat uu := by
      rw [show r - t - (r - s) = s - t by ring]
      refine kn_const fun l a b => ?_
      rw [T1 _ (by omega)]
      exact h.blk _ (by omega) (by omega)
    rw [e]
    refine hag _ ?_
    rw [Multiset.card_add, card_kn, card_kn]
    omega
  obtain ⟨k, hk⟩ := SpanOf.exists' (n := n) (p := p) hs
    (lt_of_lt_of_le h.valid.first (hs _ _ (by omega) (by have := h.valid.le; omega) (by omega))) (by omega) hx1 hx2
  have hlo := hk.lo
  have hhi := hk.hi
  have hne := hk.ne
  obtain ⟨q, hq, hqr⟩ := exists_form P (hk.win hs)
  rw [hk.curve_form hs hq hqr]
  have hcase : k ≤ r - s ∨ r ≤ k := by
    by_contra hc
    push Not at hc
    have a := h.blk k (by omega) (by omega)
    have b := h.blk (k + 1) (by omega) (by omega)
    rw [a, b] at hne
    exact lt_irrefl _ hne
  rcases hcase with hc | hc
  · -- left of the knot
    have hsp : SpanOf (n - t) p (remKv U r t) k x := by
      refine ⟨hlo, by omega, ?_⟩
      rw [T1 k (by omega)]
      rcases hk.mem with ⟨a, b⟩ | ⟨a, b, c⟩
      · refine Or.inl ⟨a, lt_of_lt_of_le b ?_⟩
        by_cases hh : k + 1 ≤ r - t
        · rw [T1 _ hh]
        · rw [T2 _ (by omega)]
          exact hs _ _ (by omega) (by omega) (by omega)
      · exfalso
        have a1 := h.right (n + 1) (by omega) (by omega)
        have a2 : U (k + 1) ≤ uu := by
          rw [← h.blk (r - s + 1) (by omega) (by omega)]
          exact hs _ _ (by omega) (by omega) (by omega)
        rw [← b, c] at a2
        exact absurd a1 (not_lt.2 a2)
    refine hsp.curve_form hV.sorted hq fun i i1 i2 => ?_
    unfold coarsePts
    by_cases c1 : i < r - s - p
    · rw [if_pos c1, hqr i i1 i2]
      congr 1
      refine kn_congr fun l a b => (T1 _ (by omega)).symm
    · rw [if_neg c1, if_pos (by omega), kn_mid (remKv U r t) (k := k) (k' := r - s) i2 hc (by omega)]
      have e : kn (remKv U r t) k (r - s - k).toNat = kn U k (r - s - k).toNat := kn_congr fun l a b => T1 _ (by omega)
      rw [e]
      refine (form_agree hq hf hc (by omega) (hk.win hs) wL hqr hfr ?_).symm
      rw [Multiset.card_add, card_kn, card_kn]
      omega
  · -- right of the knot
    have hV1 : remKv U r t (k - t) ≤ U k ∧ (r < k → remKv U r t (k - t) = U k) := by
      constructor
      · by_cases hh : k - t ≤ r - t
        · rw [T1 _ hh]
          exact hs _ _ (by omega) (by omega) (by omega)
        · rw [T2 _ (by omega), sub_add_cancel]
      · intro hh
        rw [T2 _ (by omega), sub_add_cancel]
    have hV2 : remKv U r t (k - t + 1) = U (k + 1) := by
      rw [T2 _ (by omega)]
      congr 1
      ring
    have hsp : SpanOf (n - t) p (remKv U r t) (k - t) x := by
      refine ⟨by omega, by omega, ?_⟩
      rw [hV2]
      rcases hk.mem with ⟨a, b⟩ | ⟨a, b, c⟩
      · exact Or.inl ⟨hV1.1.trans a, b⟩
      · exact Or.inr ⟨lt_of_le_of_lt hV1.1 a, b, by rw [h.hi]; exact c⟩
    refine hsp.curve_form hV.sorted hq fun i i1 i2 => ?_
    have main : r - t - p ≤ i → i ≤ r - t → g (kn (remKv U r t) i p) = q (kn (remKv U r t) i p) := by
      intro j1 j2
      rw [kn_mid (remKv U r t) (k := r - t) (k' := k - t) j2 (by omega) (by omega)]
      have e : kn (remKv U r t) (r - t) (k - t - (r - t)).toNat = kn U r (k - r).toNat := by
        rw [show k - t - (r - t) = k - r by ring]
        refine kn_congr fun l a b => ?_
        rw [T2 _ (by omega)]
        congr 1
        ring
      rw [e]
      refine form_agree hg hq hc (by omega) wR (hk.win hs) hgr hqr ?_
      rw [Multiset.card_add, card_kn, card_kn]
      omega
    unfold coarsePts
    rw [if_neg (by omega)]
    by_cases c1 : i ≤ r - s
    · rw [if_pos c1, hblk i (by omega) c1, main (by omega) (by omega)]
    · rw [if_neg c1]
      by_cases c2 : i ≤ r - t
      · rw [if_pos c2, main (by omega) c2]
      · rw [if_neg c2, hqr (i + t) (by omega) (by omega)]
        congr 1
        refine kn_congr fun l a b => ?_
        rw [T2 _ (by omega)]
        congr 1
        ring

end Igakit
