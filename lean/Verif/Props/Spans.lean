import Verif.Props.Ctor
import Verif.Proofs.ListArr
import Mathlib.Data.List.Dedup

/-!
# C32: element enumeration (`bsp.SpanIndex`, `nrb.spans`, `nrb.breaks`)
-/

set_option linter.unusedSectionVars false

namespace Igakit
open Spec

section
variable {K : Type*} [Field K] [LinearOrder K] [IsStrictOrderedRing K]

theorem skipEqual_spec (n : ℤ) (U : ℤ → K) : ∀ (fuel : ℕ) (i : ℤ), n + 1 - i ≤ fuel → i ≤ n + 1 →
    i ≤ skipEqual n U fuel i ∧ skipEqual n U fuel i ≤ n + 1 ∧
    (∀ k, i ≤ k → k < skipEqual n U fuel i → U k = U (k + 1)) ∧
    (skipEqual n U fuel i ≤ n → U (skipEqual n U fuel i) ≠ U (skipEqual n U fuel i + 1)) := by
  intro fuel
  induction fuel with
  | zero =>
    intro i h1 h2
    unfold skipEqual
    exact ⟨le_rfl, h2, fun k a b => by omega, fun h => by push_cast at h1; omega⟩
  | succ fuel ih =>
    intro i h1 h2
    unfold skipEqual
    by_cases h : i ≤ n ∧ U i = U (i + 1)
    · rw [if_pos h]
      obtain ⟨a, b, c, e⟩ := ih (i + 1) (by push_cast at h1; omega) (by omega)
      refine ⟨by omega, b, fun k hk1 hk2 => ?_, e⟩
      rcases hk1.eq_or_lt with rfl | hlt
      · exact h.2
      · exact c k (by omega) hk2
    · rw [if_neg h]
      exact ⟨le_rfl, h2, fun k a b => by omega, fun h3 h4 => h ⟨h3, h4⟩⟩

/-- number of nonempty spans `k` with `i ≤ k ≤ n` -/
def spansFrom (n : ℤ) (U : ℤ → K) (i : ℤ) : ℤ :=
  ((Finset.Icc i n).filter (fun k => U k ≠ U (k + 1))).card

theorem spansFrom_skip {n : ℤ} {U : ℤ → K} {i j : ℤ} (hij : i ≤ j)
    (h : ∀ k, i ≤ k → k < j → U k = U (k + 1)) : spansFrom n U i = spansFrom n U j := by
  unfold spansFrom
  congr 2
  ext k
  simp only [Finset.mem_filter, Finset.mem_Icc]
  constructor
  · rintro ⟨⟨a, b⟩, c⟩
    refine ⟨⟨?_, b⟩, c⟩
    by_contra hc
    exact c (h k a (by omega))
  · rintro ⟨⟨a, b⟩, c⟩
    exact ⟨⟨by omega, b⟩, c⟩

theorem spansFrom_step {n : ℤ} {U : ℤ → K} {i : ℤ} (hi : i ≤ n) (h : U i ≠ U (i + 1)) :
    spansFrom n U i = spansFrom n U (i + 1) + 1 := by
  unfold spansFrom
  have : (Finset.Icc i n).filter (fun k => U k ≠ U (k + 1)) =
      insert i ((Finset.Icc (i + 1) n).filter (fun k => U k ≠ U (k + 1))) := by
    ext k
    simp only [Finset.mem_filter, Finset.mem_Icc, Finset.mem_insert]
    constructor
    · rintro ⟨⟨a, b⟩, c⟩
      rcases a.eq_or_lt with rfl | hlt
      · exact Or.inl rfl
      · exact Or.inr ⟨⟨by omega, b⟩, c⟩
    · rintro (rfl | ⟨⟨a, b⟩, c⟩)
      · exact ⟨⟨le_rfl, hi⟩, h⟩
      · exact ⟨⟨by omega, b⟩, c⟩
  rw [this, Finset.card_insert_of_notMem (by simp)]
  push_cast
  ring

theorem spansFrom_empty {n : ℤ} {U : ℤ → K} {i : ℤ} (hi : n < i) : spansFrom n U i = 0 := by
  unfold spansFrom
  rw [Finset.Icc_eq_empty (by omega)]
  rfl

theorem countSpansLoop_eq (n : ℤ) (U : ℤ → K) : ∀ (fuel : ℕ) (i spans : ℤ), n + 1 - i ≤ fuel →
    countSpansLoop n U fuel i spans =
      spans + spansFrom n U i + (if i ≤ n ∧ U n = U (n + 1) then 1 else 0) := by
  intro fuel
  induction fuel with
  | zero =>
    intro i spans h
    push_cast at h
    unfold countSpansLoop
    rw [spansFrom_empty (by omega), if_neg (by omega)]
    ring
  | succ fuel ih =>
    intro i spans h
    push_cast at h
    unfold countSpansLoop
    by_cases hi : i ≤ n
    · rw [if_pos hi]
      obtain ⟨a, b, c, e⟩ := skipEqual_spec n U (n + 1 - i).toNat i (by omega) (by omega)
      set j := skipEqual n U (n + 1 - i).toNat i with hj
      rw [ih _ _ (by omega), spansFrom_skip a c]
      rcases b.eq_or_lt with hb | hb
      · rw [hb, spansFrom_empty (by omega), spansFrom_empty (by omega), if_neg (by omega), if_pos]
        · ring
        · exact ⟨hi, c n (by omega) (by omega)⟩
      · rw [spansFrom_step (by omega) (e (by omega))]
        have hiff : (j + 1 ≤ n ∧ U n = U (n + 1)) ↔ (i ≤ n ∧ U n = U (n + 1)) := by
          constructor
          · rintro ⟨_, h⟩; exact ⟨hi, h⟩
          · rintro ⟨_, h⟩
            refine ⟨?_, h⟩
            by_contra hc
            have : j = n := by omega
            rw [this] at e
            exact e le_rfl h
        simp only [hiff]
        ring
    · rw [if_neg hi, spansFrom_empty (by omega), if_neg (by omega)]
      ring

/-- C32: `CountSpans` counts the nonempty spans of the domain, and one more if the last one is empty. -/
theorem C32_countSpans (n p : ℤ) (U : ℤ → K) :
    countSpans n p U = ((Finset.Icc p n).filter (fun k => U k ≠ U (k + 1))).card +
      (if p ≤ n ∧ U n = U (n + 1) then 1 else 0) := by
  unfold countSpans
  rw [countSpansLoop_eq n U _ p 0 (by omega), zero_add]
  rfl

/-- the nonempty spans `k` with `p ≤ k < i` in increasing order -/
def spanList (U : ℤ → K) (p i : ℤ) : List ℤ :=
  ((List.range (i - p).toNat).map (fun j : ℕ => p + j)).filter (fun k => decide (U k ≠ U (k + 1)))

theorem spanList_succ {U : ℤ → K} {p i : ℤ} (h : p ≤ i) :
    spanList U p (i + 1) = spanList U p i ++ (if U i ≠ U (i + 1) then [i] else []) := by
  unfold spanList
  rw [show (i + 1 - p).toNat = (i - p).toNat + 1 by omega, List.range_succ, List.map_append,
    List.filter_append]
  congr 1
  simp only [List.map_cons, List.map_nil]
  rw [show p + ((i - p).toNat : ℤ) = i by omega]
  by_cases h : U i = U (i + 1)
  · simp [h]
  · simp [h]

theorem mem_spanList {U : ℤ → K} {p i k : ℤ} :
    k ∈ spanList U p i ↔ p ≤ k ∧ k < i ∧ U k ≠ U (k + 1) := by
  unfold spanList
  simp only [List.mem_filter, List.mem_map, List.mem_range, decide_eq_true_eq]
  constructor
  · rintro ⟨⟨j, hj, rfl⟩, h⟩
    exact ⟨by omega, by omega, h⟩
  · rintro ⟨h1, h2, h3⟩
    exact ⟨⟨(k - p).toNat, by omega, by omega⟩, h3⟩

theorem spanList_pairwise (U : ℤ → K) (p i : ℤ) : (spanList U p i).Pairwise (· < ·) := by
  unfold spanList
  apply List.Pairwise.filter
  rw [List.pairwise_map]
  exact List.pairwise_lt_range.imp (fun h => by omega)

theorem spanList_length (U : ℤ → K) (p n : ℤ) :
    (spanList U p (n + 1)).length = ((Finset.Icc p n).filter (fun k => U k ≠ U (k + 1))).card := by
  have hnd : (spanList U p (n + 1)).Nodup := (spanList_pairwise U p (n + 1)).imp (fun h => h.ne)
  rw [← List.toFinset_card_of_nodup hnd]
  congr 1
  ext k
  rw [List.mem_toFinset, mem_spanList]
  simp only [Finset.mem_filter, Finset.mem_Icc]
  constructor
  · rintro ⟨a, b, c⟩; exact ⟨⟨a, by omega⟩, c⟩
  · rintro ⟨⟨a, b⟩, c⟩; exact ⟨a, by omega, c⟩

theorem spanIndexLoop_eq {eps : K} (heps : 0 ≤ eps) {n p : ℤ} {U : ℤ → K} (hp : p ≤ n) (ji : ℤ → ℤ)
    (hsep : ∀ k, p ≤ k → k ≤ n → U k ≠ U (k + 1) → eps < |U k - U (k + 1)|)
    {r : ℤ} (hr : ((spanList U p (n + 1)).length : ℤ) ≤ r) :
    (List.range (spanList U p (n + 1)).length).map
        (fun i : ℕ => (spanIndexLoop eps p (n + p + 1) U r ji).I (1 + i)) = spanList U p (n + 1) ∧
      ∀ j, (1 + (spanList U p (n + 1)).length : ℤ) ≤ j → (spanIndexLoop eps p (n + p + 1) U r ji).I j = ji j := by
  have hmono : ∀ i, p ≤ i → i ≤ n → U i ≠ U (i + 1) →
      ((spanList U p i).length + 1 : ℤ) ≤ (spanList U p (n + 1)).length := by
    intro i h1 h2 h3
    have h4 : (spanList U p i ++ [i]).Subperm (spanList U p (n + 1)) := by
      apply List.subperm_of_subset
      · rw [List.nodup_append]
        refine ⟨(spanList_pairwise U p i).imp (fun h => h.ne), List.nodup_singleton _, ?_⟩
        intro a ha b hb
        have := (mem_spanList.mp ha).2.1
        rw [List.mem_singleton.mp hb]
        omega
      · intro k hk
        rcases List.mem_append.mp hk with h | h
        · obtain ⟨a, b, c⟩ := mem_spanList.mp h
          exact mem_spanList.mpr ⟨a, by omega, c⟩
        · rw [List.mem_singleton.mp h]
          exact mem_spanList.mpr ⟨h1, by omega, h3⟩
    have := h4.length_le
    simp at this
    exact_mod_cast this
  have key := forUp_inv (lo := p) (hi := n) (s := (⟨1, ji, false⟩ : SpanIdxSt))
    (f := fun k st => if st.done then st
      else if |U k - U (k + 1)| > eps then
        { s := st.s + 1, I := upd st.I st.s k, done := decide (st.s + 1 > r) }
      else st)
    (I := fun i st => st.s = (1 + (spanList U p i).length : ℤ) ∧ (st.done = true → st.s > r) ∧
      (List.range (spanList U p i).length).map (fun j : ℕ => st.I (1 + j)) = spanList U p i ∧
      ∀ j, st.s ≤ j → st.I j = ji j)
    (by omega) (by simp [spanList]) (by
      rintro i st h1 h2 ⟨hs, hd, hI, hJ⟩
      rw [spanList_succ h1]
      by_cases hne : U i = U (i + 1)
      · have e : (if U i ≠ U (i + 1) then [i] else []) = [] := if_neg (by simpa using hne)
        rw [e, List.append_nil]
        have : ¬ |U i - U (i + 1)| > eps := by rw [hne, sub_self, abs_zero]; exact not_lt.mpr heps
        rw [if_neg this]
        by_cases hdn : st.done = true
        · rw [if_pos hdn]; exact ⟨hs, hd, hI, hJ⟩
        · rw [if_neg hdn]; exact ⟨hs, hd, hI, hJ⟩
      · have e : (if U i ≠ U (i + 1) then [i] else []) = [i] := if_pos hne
        rw [e]
        have hlt := hmono i h1 h2 hne
        have hdn : ¬ st.done = true := fun h => by have := hd h; omega
        rw [if_neg hdn, if_pos (hsep i h1 h2 hne)]
        refine ⟨by simp [hs]; ring, by simp, ?_, ?_⟩
        · rw [List.length_append, List.length_singleton, List.range_succ, List.map_append]
          congr 1
          · rw [← hI]
            simp only [List.length_map, List.length_range]
            apply List.map_congr_left
            intro j hj
            have := List.mem_range.mp hj
            rw [upd_ne _ _ (by omega)]
          · simp only [List.map_cons, List.map_nil]
            rw [upd_eq _ _ hs.symm]
        · intro j hj
          simp only at hj ⊢
          rw [upd_ne _ _ (by omega)]
          exact hJ j (by omega))
  unfold spanIndexLoop
  rw [show n + p + 1 - (p + 1) = n by ring]
  exact ⟨key.2.2.1, fun j hj => key.2.2.2 j (by rw [key.1]; exact hj)⟩

/-- C32: on a knot vector whose distinct neighbouring knots are more than `eps` apart, `bsp.SpanIndex`
returns exactly the nonempty spans of the domain in increasing order, nothing uninitialised. -/
theorem C32_SpanIndex {eps : K} (heps : 0 ≤ eps) (ji : ℤ → ℤ) {n : ℤ} {p : ℤ} {U : ℤ → K}
    (hv : ValidKnots n p U)
    (hsep : ∀ k, p ≤ k → k ≤ n → U k < U (k + 1) → eps < U (k + 1) - U k) :
    ∃ l, BSp.SpanIndex eps ji p (n + p + 1) U = .ok l ∧ l.Pairwise (· < ·) ∧
      ∀ k, k ∈ l ↔ p ≤ k ∧ k ≤ n ∧ U k < U (k + 1) := by
  have h1 := hv.one_le
  have h2 := hv.le
  have hlt : ∀ k, p ≤ k → k ≤ n → (U k ≠ U (k + 1) ↔ U k < U (k + 1)) := by
    intro k a b
    exact ⟨fun h => lt_of_le_of_ne (hv.sorted k (k + 1) (by omega) (by omega) (by omega)) h, ne_of_lt⟩
  refine ⟨spanList U p (n + 1), ?_, spanList_pairwise U p (n + 1), fun k => ?_⟩
  · unfold BSp.SpanIndex
    rw [if_pos ⟨by omega, by omega⟩]
    simp only
    congr 1
    have e : countSpans (n + p + 1 - p - 1) p U = (spanList U p (n + 1)).length := by
      rw [show n + p + 1 - p - 1 = n by ring, C32_countSpans, if_neg (fun h => hv.last.ne h.2), add_zero,
        spanList_length]
    rw [e, Int.toNat_natCast]
    refine (spanIndexLoop_eq heps h2 ji ?_ le_rfl).1
    intro k a b c
    have h := (hlt k a b).mp c
    rw [abs_sub_comm, abs_of_pos (by linarith)]
    exact hsep k a b h
  · rw [mem_spanList]
    constructor
    · rintro ⟨a, b, c⟩; exact ⟨a, by omega, (hlt k a (by omega)).mp c⟩
    · rintro ⟨a, b, c⟩; exact ⟨a, by omega, c.ne⟩

example := C32_SpanIndex (eps := 1 / 1000) (by norm_num) (fun _ => 77) Ex.U_valid (by
  intro k h1 h2
  have h1 : 2 ≤ k := h1
  interval_cases k <;> decide +kernel)
example : BSp.SpanIndex (1 / 1000) (fun _ => 77) 2 8 Ex.U = .ok [2, 3, 5] := by decide +kernel

/-- C32, excluded case: when the last span of the domain is empty, one entry of the result is never
written. -/
theorem C32_degenerate_end_wrong {eps : K} (heps : 0 ≤ eps) (ji : ℤ → ℤ) {n p : ℤ} {U : ℤ → K}
    (h1 : 1 ≤ p) (h2 : p ≤ n)
    (hsep : ∀ k, p ≤ k → k ≤ n → U k ≠ U (k + 1) → eps < |U k - U (k + 1)|) (hend : U n = U (n + 1)) :
    ∃ l, BSp.SpanIndex eps ji p (n + p + 1) U = .ok (l ++ [ji (1 + l.length)]) ∧
      ∀ k, k ∈ l ↔ p ≤ k ∧ k ≤ n ∧ U k ≠ U (k + 1) := by
  refine ⟨spanList U p (n + 1), ?_, fun k => ?_⟩
  · unfold BSp.SpanIndex
    rw [if_pos ⟨by omega, by omega⟩]
    simp only
    congr 1
    have e : countSpans (n + p + 1 - p - 1) p U = (spanList U p (n + 1)).length + 1 := by
      rw [show n + p + 1 - p - 1 = n by ring, C32_countSpans, if_pos ⟨h2, hend⟩, spanList_length]
    rw [e]
    obtain ⟨a, b⟩ := spanIndexLoop_eq heps h2 ji hsep
      (r := (spanList U p (n + 1)).length + 1) (by omega)
    rw [show (((spanList U p (n + 1)).length : ℤ) + 1).toNat = (spanList U p (n + 1)).length + 1 by omega,
      List.range_succ, List.map_append, a]
    simp only [List.map_cons, List.map_nil]
    rw [b _ le_rfl]
  · rw [mem_spanList]
    constructor
    · rintro ⟨a, b, c⟩; exact ⟨a, by omega, c⟩
    · rintro ⟨a, b, c⟩; exact ⟨a, by omega, c⟩

/-- knots whose last span is empty: the answer ends in memory contents -/
example : BSp.SpanIndex (1 / 1000) (fun _ => 77) 1 5 (vec [0, 0, 1, 2, 2, 3] : ℤ → ℚ) = .ok [1, 2, 77] := by
  decide +kernel

end

variable {K : Type} [Field K] [LinearOrder K] [IsStrictOrderedRing K] {d : ℕ}

/-- C32: `nrb.spans(axis)` -/
theorem C32_spans {eps : K} (heps : 0 ≤ eps) (ji : ℤ → ℤ) {N : Nrb K d} (hv : N.Valid) {axis : ℤ}
    {a : Fin d} (ha : normAxis d axis = .ok a)
    (hsep : ∀ k, N.degree a ≤ k → k ≤ N.n a → N.U a k < N.U a (k + 1) →
      eps < N.U a (k + 1) - N.U a k) :
    ∃ l, N.spans eps ji axis = .ok l ∧ l.Pairwise (· < ·) ∧
      ∀ k, k ∈ l ↔ N.degree a ≤ k ∧ k ≤ N.n a ∧ N.U a k < N.U a (k + 1) := by
  obtain ⟨l, h1, h2⟩ := C32_SpanIndex heps ji (hv a) hsep
  refine ⟨l, ?_, h2⟩
  unfold Nrb.spans
  rw [ha, res_ok_bind, N.len_eq, show N.n a + N.degree a + 2 - 1 = N.n a + N.degree a + 1 by ring, h1]

theorem mem_npUnique {l : List K} {x : K} : x ∈ Nrb.npUnique l ↔ x ∈ l := by
  unfold Nrb.npUnique
  rw [List.mem_dedup]
  exact (List.mergeSort_perm l _).mem_iff

theorem npUnique_lt (l : List K) : (Nrb.npUnique l).Pairwise (· < ·) := by
  unfold Nrb.npUnique
  have h1 : (l.mergeSort (fun x y => decide (x ≤ y))).Pairwise (· ≤ ·) := by
    have := List.pairwise_mergeSort (le := fun x y : K => decide (x ≤ y))
      (fun a b c h1 h2 => by simp only [decide_eq_true_eq] at *; exact h1.trans h2)
      (fun a b => by simp only [Bool.or_eq_true, decide_eq_true_eq]; exact le_total a b) l
    exact this.imp (fun h => by simpa using h)
  have h2 := h1.sublist (List.dedup_sublist _)
  have h3 := List.nodup_dedup (l.mergeSort (fun x y => decide (x ≤ y)))
  exact (h2.and h3).imp (fun h => lt_of_le_of_ne h.1 h.2)

/-- C32: `nrb.breaks(axis)` lists exactly the distinct knots of the domain in increasing order. -/
theorem C32_breaks (N : Nrb K d) {axis : ℤ} {a : Fin d} (ha : normAxis d axis = .ok a) :
    ∃ l, N.breaks axis = .ok l ∧ l.Pairwise (· < ·) ∧
      ∀ x, x ∈ l ↔ ∃ k, N.degree a ≤ k ∧ k ≤ N.n a + 1 ∧ N.U a k = x := by
  refine ⟨Nrb.npUnique (Nrb.slab (N.U a) (N.degree a) (N.len a - N.degree a - 1)), ?_, npUnique_lt _, ?_⟩
  · unfold Nrb.breaks
    rw [ha, res_ok_bind, res_pure]
  · intro x
    rw [mem_npUnique, mem_slab, N.len_eq]
    constructor
    · rintro ⟨k, h1, h2, h3⟩; exact ⟨k, h1, by omega, h3⟩
    · rintro ⟨k, h1, h2, h3⟩; exact ⟨k, h1, by omega, h3⟩

/-- multiplicity reported for a break: number of equal knots, at the ends of the domain at most `p` -/
def breakMult (N : Nrb K d) (a : Fin d) (x : K) : ℤ :=
  if N.lo a < x ∧ x < N.hi a then N.multOf a x else min (N.multOf a x : ℤ) (N.degree a)

theorem strict_head {l : List K} {x : K} (h : l.Pairwise (· < ·)) (hx : x ∈ l) (hmin : ∀ y ∈ l, x ≤ y) :
    l.headD 0 = x ∧ ∀ i (hi : i < l.length), (l[i] = x ↔ i = 0) := by
  obtain ⟨k, hk, rfl⟩ := List.mem_iff_getElem.mp hx
  have hk0 : k = 0 := by
    by_contra hc
    have := List.pairwise_iff_getElem.mp h 0 k (by omega) hk (by omega)
    exact absurd (hmin _ (List.getElem_mem (by omega : 0 < l.length))) (not_le.mpr this)
  subst hk0
  refine ⟨?_, fun i hi => ⟨fun e => ?_, fun e => by subst e; rfl⟩⟩
  · cases l with
    | nil => simp at hk
    | cons y l => rfl
  · by_contra hc
    have := List.pairwise_iff_getElem.mp h 0 i hk hi (by omega)
    exact this.ne e.symm

theorem strict_last {l : List K} {x : K} (h : l.Pairwise (· < ·)) (hx : x ∈ l) (hmax : ∀ y ∈ l, y ≤ x) :
    l.getLastD 0 = x ∧ ∀ i (hi : i < l.length), (l[i] = x ↔ i = l.length - 1) := by
  obtain ⟨k, hk, rfl⟩ := List.mem_iff_getElem.mp hx
  have hk0 : k = l.length - 1 := by
    by_contra hc
    have := List.pairwise_iff_getElem.mp h k (l.length - 1) hk (by omega) (by omega)
    exact absurd (hmax _ (List.getElem_mem (by omega : l.length - 1 < l.length))) (not_le.mpr this)
  subst hk0
  refine ⟨?_, fun i hi => ⟨fun e => ?_, fun e => by subst e; rfl⟩⟩
  · have hne : l ≠ [] := by rintro rfl; simp at hk
    rw [List.getLastD_eq_getLast?, List.getLast?_eq_some_getLast hne, Option.getD_some, List.getLast_eq_getElem]
  · by_contra hc
    have := List.pairwise_iff_getElem.mp h i (l.length - 1) hi hk (by omega)
    exact this.ne e

/-- C32: `nrb.breaks(axis, mults=True)` gives with each break its multiplicity. -/
theorem C32_breaks_mults {eps : K} (heps : 0 < eps) {N : Nrb K d} (hv : N.Valid) {axis : ℤ} {a : Fin d}
    (ha : normAxis d axis = .ok a) (hlo : N.Sep eps a (N.lo a)) (hhi : N.Sep eps a (N.hi a)) :
    ∃ l, N.breaks axis = .ok l ∧ N.breakMults eps axis = .ok (l, l.map (breakMult N a)) := by
  obtain ⟨l, h1, h2, h3⟩ := C32_breaks N ha
  refine ⟨l, h1, ?_⟩
  have e : Nrb.npUnique (Nrb.slab (N.U a) (N.degree a) (N.len a - N.degree a - 1)) = l := by
    unfold Nrb.breaks at h1
    rw [ha, res_ok_bind, res_pure] at h1
    exact Except.ok.inj h1
  have hva := hv a
  have hp1 := hva.one_le
  have hpn := hva.le
  have hlen := N.len_eq a
  have hdom : ∀ k, N.degree a ≤ k → k ≤ N.n a + 1 → N.lo a ≤ N.U a k ∧ N.U a k ≤ N.hi a := by
    intro k a1 a2
    rw [N.hi_eq]
    exact ⟨hva.sorted _ _ (by omega) a1 (by omega), hva.sorted _ _ (by omega) a2 (by omega)⟩
  obtain ⟨hd1, hd2⟩ := strict_head h2 ((h3 (N.lo a)).mpr ⟨N.degree a, le_rfl, by omega, rfl⟩) (by
    intro y hy
    obtain ⟨k, a1, a2, rfl⟩ := (h3 y).mp hy
    exact (hdom k a1 a2).1)
  obtain ⟨hl1, hl2⟩ := strict_last h2 ((h3 (N.hi a)).mpr ⟨N.n a + 1, by omega, le_rfl, (N.hi_eq a).symm⟩) (by
    intro y hy
    obtain ⟨k, a1, a2, rfl⟩ := (h3 y).mp hy
    exact (hdom k a1 a2).2)
  unfold Nrb.Sep at hlo hhi
  rw [hlen] at hlo hhi
  have hm0 : BSp.FindMult eps (N.degree a) (N.len a - 1) (N.U a) (N.lo a) (N.degree a) =
      .ok (N.multOf a (N.lo a) : ℤ) := by
    unfold BSp.FindMult Nrb.multOf
    rw [if_pos ⟨hp1, by omega⟩, if_pos (by omega), hlen]
    congr 1
    have := findMult_first heps hva (by
      rw [← Nrb.lo_eq]; exact fun j b1 b2 => hlo j b1 (by omega))
    rw [← Nrb.lo_eq] at this
    rw [this]
    congr 2
    ring
  have hm1 : BSp.FindMult eps (N.degree a) (N.len a - 1) (N.U a) (N.hi a) (N.n a) =
      .ok (N.multOf a (N.hi a) : ℤ) := by
    unfold BSp.FindMult Nrb.multOf
    rw [if_pos ⟨hp1, by omega⟩, if_pos (by omega), hlen]
    congr 1
    have := findMult_last heps hva (by
      rw [← N.hi_eq]; exact fun j b1 b2 => hhi j b1 (by omega))
    rw [← N.hi_eq] at this
    rw [this]
    congr 2
    ring
  unfold Nrb.breakMults
  rw [ha, res_ok_bind]
  dsimp only
  rw [e, hd1, hm0, res_ok_bind, hl1, show N.len a - 1 - N.degree a - 1 = N.n a by omega, hm1, res_ok_bind,
    res_pure]
  congr 2
  have hll : N.lo a < N.hi a := by
    rw [N.hi_eq]
    exact lt_of_lt_of_le hva.first (hva.sorted _ _ (by omega) (by omega) (by omega))
  apply List.ext_getElem
  · simp
  · intro i hi hi'
    simp only [List.length_map] at hi'
    have hmem : l[i] ∈ l := List.getElem_mem hi'
    obtain ⟨k, a1, a2, hk⟩ := (h3 _).mp hmem
    obtain ⟨b1, b2⟩ := hdom k a1 a2
    rw [hk] at b1 b2
    simp only [List.getElem_set, List.length_map, List.length_set, List.getElem_map]
    unfold breakMult
    by_cases c1 : l.length - 1 = i
    · rw [if_pos c1, (hl2 i hi').mpr c1.symm, if_neg (fun h => lt_irrefl _ h.2)]
    · rw [if_neg c1]
      by_cases c2 : 0 = i
      · rw [if_pos c2, (hd2 i hi').mpr c2.symm, if_neg (fun h => lt_irrefl _ h.1)]
      · have d1 : l[i] ≠ N.lo a := fun h => c2 ((hd2 i hi').mp h).symm
        have d2 : l[i] ≠ N.hi a := fun h => c1 ((hl2 i hi').mp h).symm
        have e1 : N.lo a < l[i] := lt_of_le_of_ne b1 d1.symm
        have e2 : l[i] < N.hi a := lt_of_le_of_ne b2 d2
        rw [if_neg c2, if_pos ⟨e1, e2⟩, slab_count]
        unfold Nrb.multOf
        congr 1
        apply mult_window_eq
        · intro j _ f1 f2; omega
        · intro j f0 f1 f2
          have g1 : N.degree a ≤ j := by
            by_contra hc
            have := hva.sorted j (N.degree a) f1 (by omega) (by omega)
            rw [f0] at this
            exact absurd this (not_le.mpr e1)
          have g2 : j ≤ N.n a + 1 := by
            by_contra hc
            have := hva.sorted (N.n a + 1) j (by omega) (by omega) (by omega)
            rw [f0, ← N.hi_eq] at this
            exact absurd this (not_le.mpr e2)
          omega

example := C32_breaks_mults (eps := 1 / 1000) (by norm_num) Ex.S_valid (axis := -2) (a := 0) rfl
  (Ex.U_sep _ (by decide +kernel)) (Ex.U_sep _ (by decide +kernel))

end Igakit
