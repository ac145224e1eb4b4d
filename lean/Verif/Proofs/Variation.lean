import Verif.Spec.Variation
import Verif.Proofs.Boehm
import Verif.Proofs.CurveSpec
import Verif.Proofs.CurveForm
import Mathlib.Data.List.Sort
import Mathlib.Data.List.Chain

/-! # Sign changes: alternating subsequences, and refinement does not add sign changes -/

set_option linter.unusedSectionVars false

namespace Igakit
open Spec

variable {K : Type*} [Field K] [LinearOrder K] [IsStrictOrderedRing K]

/-! ## alternating subsequences -/

theorem changes_two (x y : K) (l : List K) :
    changes (x :: y :: l) = (if x * y < 0 then 1 else 0) + changes (y :: l) := rfl

/-- consecutive values of `f` have opposite signs -/
def Alt {α : Type*} (f : α → K) (l : List α) : Prop := l.IsChain (fun x y => f x * f y < 0)

theorem neg_of_pos_neg {x y z : K} (h1 : 0 < x * y) (h2 : x * z < 0) : y * z < 0 := by
  have hx : x ≠ 0 := by rintro rfl; simp at h1
  have : (x * x) * (y * z) < 0 := by
    have := mul_neg_of_pos_of_neg h1 h2
    calc _ = x * y * (x * z) := by ring
      _ < 0 := this
  by_contra h
  exact absurd this (not_lt.2 (mul_nonneg (mul_self_nonneg x) (not_lt.1 h)))

theorem pos_of_neg_neg {x y z : K} (h1 : x * y < 0) (h2 : x * z < 0) : 0 < y * z := by
  have hx : 0 < x * x := mul_self_pos.2 (by rintro rfl; simp at h1)
  have : 0 < (x * x) * (y * z) := by
    have := mul_pos_of_neg_of_neg h1 h2
    calc 0 < x * y * (x * z) := this
      _ = _ := by ring
  exact (pos_iff_pos_of_mul_pos this).1 hx

theorem pos_of_not_neg {x y : K} (hx : x ≠ 0) (hy : y ≠ 0) (h : ¬ x * y < 0) : 0 < x * y :=
  lt_of_le_of_ne (not_lt.1 h) (Ne.symm (mul_ne_zero hx hy))

/-- a sequence of nonzero numbers has an alternating subsequence showing all its sign changes -/
theorem exists_alt {α : Type*} (f : α → K) : ∀ (t : List α) (x : α), (∀ z ∈ x :: t, f z ≠ 0) →
    ∃ r, r.Sublist t ∧ Alt f (x :: r) ∧ r.length = changes ((x :: t).map f)
  | [], x, _ => ⟨[], List.Sublist.refl _, List.isChain_singleton _, rfl⟩
  | y :: s, x, h => by
    obtain ⟨r, h1, h2, h3⟩ := exists_alt f s y (fun z hz => h z (List.mem_cons_of_mem _ hz))
    have hx := h x (by simp)
    have hy := h y (by simp)
    simp only [List.map_cons] at h3 ⊢
    rw [changes_two]
    by_cases hxy : f x * f y < 0
    · rw [if_pos hxy]
      refine ⟨y :: r, h1.cons_cons y, List.isChain_cons_cons.2 ⟨hxy, h2⟩, ?_⟩
      rw [List.length_cons, h3]; omega
    · rw [if_neg hxy]
      refine ⟨r, h1.cons y, ?_, by rw [h3]; omega⟩
      cases r with
      | nil => exact List.isChain_singleton _
      | cons z r =>
        obtain ⟨h4, h5⟩ := List.isChain_cons_cons.1 h2
        have hp := pos_of_not_neg hx hy hxy
        rw [mul_comm] at hp
        exact List.isChain_cons_cons.2 ⟨neg_of_pos_neg hp h4, h5⟩

/-- an alternating subsequence has at most one entry more than there are sign changes -/
theorem alt_le {α : Type*} (f : α → K) : ∀ (t : List α) (x : α), (∀ z ∈ x :: t, f z ≠ 0) →
    (∀ l, l.Sublist t → Alt f (x :: l) → l.length ≤ changes ((x :: t).map f)) ∧
    (∀ l, l.Sublist (x :: t) → Alt f l → l.length ≤ changes ((x :: t).map f) + 1)
  | [], x, _ => by
    constructor
    · intro l hl _
      rw [List.sublist_nil.1 hl]; simp
    · intro l hl _
      exact le_trans hl.length_le (by simp)
  | y :: s, x, h => by
    obtain ⟨A, B⟩ := alt_le f s y (fun z hz => h z (List.mem_cons_of_mem _ hz))
    have hx := h x (by simp)
    have hy := h y (by simp)
    have first : ∀ l, l.Sublist (y :: s) → Alt f (x :: l) → l.length ≤ changes ((x :: y :: s).map f) := by
      intro l hl ha
      simp only [List.map_cons, changes_two] at A B ⊢
      cases l with
      | nil => simp
      | cons z r =>
        obtain ⟨h1, h2⟩ := List.isChain_cons_cons.1 ha
        by_cases hxy : f x * f y < 0
        · rw [if_pos hxy]
          have := B _ hl h2
          omega
        · rw [if_neg hxy]
          have hp := pos_of_not_neg hx hy hxy
          have hyz := neg_of_pos_neg hp h1
          cases hl with
          | cons _ hl =>
            have := A _ hl (List.isChain_cons_cons.2 ⟨hyz, h2⟩)
            omega
          | cons_cons _ hl => exact absurd hyz (not_lt.2 (mul_self_nonneg _))
    refine ⟨first, ?_⟩
    intro l hl ha
    cases hl with
    | cons _ hl =>
      have := B _ hl ha
      simp only [List.map_cons, changes_two] at this ⊢
      omega
    | cons_cons _ hl =>
      have := first _ hl ha
      simp only [List.map_cons, List.length_cons] at this ⊢
      omega

theorem Alt.ne {α : Type*} {f : α → K} {l : List α} (h : Alt f l) (hl : 2 ≤ l.length) : ∀ z ∈ l, f z ≠ 0 := by
  match l, h, hl with
  | x :: y :: r, h, _ =>
    have key : ∀ (r : List α) (x : α), f x ≠ 0 → Alt f (x :: r) → ∀ z ∈ x :: r, f z ≠ 0 := by
      intro r
      induction r with
      | nil => intro x hx _ z hz; simp at hz; exact hz ▸ hx
      | cons y r ih =>
        intro x hx h z hz
        obtain ⟨h1, h2⟩ := List.isChain_cons_cons.1 h
        rcases List.mem_cons.1 hz with e | hz
        · exact e ▸ hx
        · exact ih y (fun e => by rw [e, mul_zero] at h1; exact lt_irrefl _ h1) h2 z hz
    exact key _ x (fun e => by
      have := (List.isChain_cons_cons.1 h).1
      rw [e, zero_mul] at this; exact lt_irrefl _ this) h

theorem alt_le_signChanges {α : Type*} {f : α → K} {l t : List α} (h : l.Sublist t) (ha : Alt f l) :
    l.length ≤ signChanges (t.map f) + 1 := by
  rcases Nat.lt_or_ge l.length 2 with hl | hl
  · omega
  have hne := ha.ne hl
  have e : (t.map f).filter (· ≠ 0) = (t.filter (fun z => f z ≠ 0)).map f := by
    rw [List.filter_map]; rfl
  have hs : l.Sublist (t.filter (fun z => f z ≠ 0)) := by
    have := h.filter (fun z => decide (f z ≠ 0))
    rwa [List.filter_eq_self.2 (fun z hz => by simpa using hne z hz)] at this
  unfold signChanges
  rw [e]
  have hnz : ∀ z ∈ t.filter (fun z => f z ≠ 0), f z ≠ 0 := fun z hz => by simpa using (List.mem_filter.1 hz).2
  cases ht : t.filter (fun z => f z ≠ 0) with
  | nil => rw [ht, List.sublist_nil] at hs; simp [hs]
  | cons x r =>
    rw [ht] at hs hnz
    exact (alt_le f r x hnz).2 l hs ha

theorem exists_alt_sub {α : Type*} (f : α → K) (t : List α) (h : signChanges (t.map f) ≠ 0) :
    ∃ l, l.Sublist t ∧ Alt f l ∧ l.length = signChanges (t.map f) + 1 := by
  have e : (t.map f).filter (· ≠ 0) = (t.filter (fun z => f z ≠ 0)).map f := by
    rw [List.filter_map]; rfl
  unfold signChanges at h ⊢
  rw [e] at h ⊢
  have hnz : ∀ z ∈ t.filter (fun z => f z ≠ 0), f z ≠ 0 := fun z hz => by simpa using (List.mem_filter.1 hz).2
  cases ht : t.filter (fun z => f z ≠ 0) with
  | nil => rw [ht] at h; exact absurd rfl h
  | cons x r =>
    rw [ht] at hnz
    obtain ⟨l, h1, h2, h3⟩ := exists_alt f r x hnz
    refine ⟨x :: l, ?_, h2, by rw [List.length_cons, h3]⟩
    have := h1.cons_cons x
    rw [← ht] at this
    exact this.trans List.filter_sublist

/-- a monotone choice of entries of equal sign bounds the number of sign changes -/
theorem signChanges_le {m n : ℤ} {f g : ℤ → K} (κ : ℤ → ℤ)
    (hκ : ∀ j, 0 ≤ j → j ≤ m → f j ≠ 0 → 0 ≤ κ j ∧ κ j ≤ n ∧ 0 < f j * g (κ j))
    (hm : ∀ j j', 0 ≤ j → j < j' → j' ≤ m → f j ≠ 0 → f j' ≠ 0 → κ j ≤ κ j') :
    signChanges (seqTo m f) ≤ signChanges (seqTo n g) := by
  by_cases h0 : signChanges (seqTo m f) = 0
  · omega
  unfold seqTo at h0 ⊢
  obtain ⟨l, h1, h2, h3⟩ := exists_alt_sub (fun i : ℕ => f i) _ h0
  have hne := h2.ne (by omega)
  have hsorted : l.Pairwise (· < ·) := List.Pairwise.sublist h1 List.pairwise_lt_range
  have hlt : ∀ i ∈ l, (i : ℤ) ≤ m := fun i hi => by
    have := List.mem_range.1 (h1.subset hi)
    omega
  have ha : Alt (fun i : ℕ => g i) (l.map (fun i : ℕ => (κ i).toNat)) ∧
      (l.map (fun i : ℕ => (κ i).toNat)).Pairwise (· < ·) ∧ True := by
    clear h1 h3 h0
    induction l with
    | nil => exact ⟨List.isChain_nil, List.Pairwise.nil, trivial⟩
    | cons x r ih =>
      have hr := ih
        (by cases r with
          | nil => exact List.isChain_nil
          | cons y r => exact (List.isChain_cons_cons.1 h2).2)
        (fun z hz => hne z (List.mem_cons_of_mem _ hz)) (List.Pairwise.of_cons hsorted)
        (fun z hz => hlt z (List.mem_cons_of_mem _ hz))
      cases r with
      | nil => exact ⟨List.isChain_singleton _, by simp, trivial⟩
      | cons y r =>
        have hxy := (List.isChain_cons_cons.1 h2).1
        have hx := hne x (by simp)
        have hy := hne y (by simp)
        have hlxy : x < y := (List.pairwise_cons.1 hsorted).1 y (by simp)
        obtain ⟨a1, a2, a3⟩ := hκ x (by omega) (hlt x (by simp)) hx
        obtain ⟨b1, b2, b3⟩ := hκ y (by omega) (hlt y (by simp)) hy
        have hg : g (κ x) * g (κ y) < 0 := by
          have := neg_of_pos_neg a3 hxy
          rw [mul_comm] at this
          have := neg_of_pos_neg b3 this
          rwa [mul_comm] at this
        have hmono := hm x y (by omega) (by omega) (hlt y (by simp)) hx hy
        have hlt' : κ x < κ y := lt_of_le_of_ne hmono (fun e => by
          rw [e] at hg
          exact absurd hg (not_lt.2 (mul_self_nonneg _)))
        refine ⟨?_, ?_, trivial⟩
        · simp only [List.map_cons] at hr ⊢
          refine List.isChain_cons_cons.2 ⟨?_, hr.1⟩
          simp only [Int.toNat_of_nonneg a1, Int.toNat_of_nonneg b1]
          exact hg
        · rw [List.map_cons, List.pairwise_cons]
          refine ⟨?_, hr.2.1⟩
          have h2' := hr.2.1
          rw [List.map_cons, List.pairwise_cons] at h2'
          intro z hz
          rw [List.map_cons, List.mem_cons] at hz
          have : (κ x).toNat < (κ y).toNat := by omega
          rcases hz with e | hz
          · rw [e]; exact this
          · exact lt_trans this (h2'.1 z hz)
  have hsub : (l.map (fun i : ℕ => (κ i).toNat)).Sublist (List.range (n + 1).toNat) := by
    refine List.sublist_of_subperm_of_pairwise (r := (· < ·)) ?_ ha.2.1 List.pairwise_lt_range
    refine List.subperm_of_subset (ha.2.1.imp (fun h => ne_of_lt h)) ?_
    intro z hz
    obtain ⟨i, hi, rfl⟩ := List.mem_map.1 hz
    obtain ⟨a1, a2, a3⟩ := hκ i (by omega) (hlt i hi) (hne i hi)
    exact List.mem_range.2 (by omega)
  have := alt_le_signChanges (f := fun i : ℕ => g i) hsub ha.1
  rw [List.length_map] at this
  omega

/-! ## refinement -/

/-- the entries of `C` that are not zero have the sign of an entry of `P`, in the same order -/
def Lift (n : ℤ) (P : ℤ → K) (N : ℤ) (C : ℤ → K) : Prop :=
  ∃ κ : ℤ → ℤ, (∀ y, 0 ≤ y → y ≤ N → C y ≠ 0 → 0 ≤ κ y ∧ κ y ≤ n ∧ 0 < C y * P (κ y)) ∧
    ∀ y y', 0 ≤ y → y < y' → y' ≤ N → C y ≠ 0 → C y' ≠ 0 → κ y ≤ κ y'

theorem Lift.refl (n : ℤ) (P : ℤ → K) : Lift n P n P :=
  ⟨fun y => y, fun y h1 h2 h3 => ⟨h1, h2, mul_self_pos.2 h3⟩, fun y y' _ h _ _ _ => h.le⟩

theorem pos_trans {x y z : K} (h1 : 0 < x * y) (h2 : 0 < y * z) : 0 < x * z := by
  have : 0 < (y * y) * (x * z) := by
    calc 0 < x * y * (y * z) := mul_pos h1 h2
      _ = _ := by ring
  exact (pos_iff_pos_of_mul_pos this).1 (mul_self_pos.2 (by rintro rfl; simp at h1))

theorem Lift.step {n N : ℤ} {P C C' : ℤ → K} (h : Lift n P N C)
    (hC : ∀ y, 0 ≤ y → y ≤ N + 1 → ∃ a b : K, 0 ≤ a ∧ 0 ≤ b ∧ C' y = a * C y + b * C (y - 1) ∧
      (y = 0 → b = 0) ∧ (y = N + 1 → a = 0)) : Lift n P (N + 1) C' := by
  obtain ⟨κ, h1, h2⟩ := h
  classical
  have key : ∀ y, 0 ≤ y → y ≤ N + 1 → C' y ≠ 0 →
      ((0 ≤ y ∧ y ≤ N ∧ 0 < C' y * C y) ∨ (0 ≤ y - 1 ∧ y - 1 ≤ N ∧ 0 < C' y * C (y - 1))) := by
    intro y y0 y1 hne
    obtain ⟨a, b, ha, hb, e, e0, e1⟩ := hC y y0 y1
    by_contra hc
    push Not at hc
    have s : 0 < C' y * C' y := mul_self_pos.2 hne
    have t : C' y * C' y = a * (C' y * C y) + b * (C' y * C (y - 1)) := by
      calc C' y * C' y = C' y * (a * C y + b * C (y - 1)) := by rw [← e]
        _ = _ := by ring
    have ta : a * (C' y * C y) ≤ 0 := by
      by_cases hy : y = N + 1
      · rw [e1 hy, zero_mul]
      · exact mul_nonpos_of_nonneg_of_nonpos ha (hc.1 y0 (by omega))
    have tb : b * (C' y * C (y - 1)) ≤ 0 := by
      by_cases hy : y = 0
      · rw [e0 hy, zero_mul]
      · exact mul_nonpos_of_nonneg_of_nonpos hb (hc.2 (by omega) (by omega))
    linarith
  have ne : ∀ {x y : K}, 0 < x * y → y ≠ 0 := by rintro x y h rfl; simp at h
  let μ : ℤ → ℤ := fun y => if 0 ≤ y ∧ y ≤ N ∧ 0 < C' y * C y then y else y - 1
  have hμ : ∀ y, 0 ≤ y → y ≤ N + 1 → C' y ≠ 0 →
      0 ≤ μ y ∧ μ y ≤ N ∧ 0 < C' y * C (μ y) ∧ y - 1 ≤ μ y ∧ μ y ≤ y := by
    intro y y0 y1 hne
    by_cases hc : 0 ≤ y ∧ y ≤ N ∧ 0 < C' y * C y
    · simp only [μ, if_pos hc]
      exact ⟨hc.1, hc.2.1, hc.2.2, by omega, le_rfl⟩
    · simp only [μ, if_neg hc]
      rcases key y y0 y1 hne with h | h
      · exact absurd h hc
      · exact ⟨h.1, h.2.1, h.2.2, le_rfl, by omega⟩
  refine ⟨fun y => κ (μ y), ?_, ?_⟩
  · intro y y0 y1 hne
    obtain ⟨a1, a2, a3, _⟩ := hμ y y0 y1 hne
    obtain ⟨b1, b2, b3⟩ := h1 _ a1 a2 (ne a3)
    exact ⟨b1, b2, pos_trans a3 b3⟩
  · intro y y' y0 hy y1 hne hne'
    obtain ⟨a1, a2, a3, a4, a5⟩ := hμ y y0 (by omega) hne
    obtain ⟨b1, b2, b3, b4, b5⟩ := hμ y' (by omega) y1 hne'
    rcases (by omega : μ y = μ y' ∨ μ y < μ y') with e | e
    · exact le_of_eq (congrArg κ e)
    · exact h2 _ _ a1 e b2 (ne a3) (ne b3)

/-- a refinement of the knots whose control values show no more sign changes -/
structure VRefn (n : ℤ) (p : ℕ) (U : ℤ → K) (P : ℤ → K) (N : ℤ) (T : ℤ → K) (C : ℤ → K) (X : Multiset K) : Prop where
  refn : IsRefn n p U P N T C X
  lift : Lift n P N C
  le : (p : ℤ) ≤ N
  first : T p = U p
  last : T (N + 1) = U (n + 1)

theorem VRefn.insert {n : ℤ} {p : ℕ} {U P : ℤ → K} {N : ℤ} {T C : ℤ → K} {X : Multiset K}
    (h : VRefn n p U P N T C X) (hv : ValidKnots n p U) {x : K} (h1 : U p ≤ x) (h2 : x ≤ U (n + 1)) :
    ∃ T' C', VRefn n p U P (N + 1) T' C' (x ::ₘ X) := by
  have hs := h.refn.sorted
  have hp : 1 ≤ p := by have := hv.one_le; omega
  have hpn := h.le
  have hlt : U p < U (n + 1) := lt_of_lt_of_le hv.first
    (hv.sorted _ _ (by omega) (by have := hv.le; omega) (by have := hv.le; omega))
  obtain ⟨i, hi⟩ := SpanOf.exists' (u := x) hs (by rw [h.first, h.last]; exact hlt) hpn (by rw [h.first]; exact h1)
    (by rw [h.last]; exact h2)
  have i1 := hi.lo
  have i2 := hi.hi
  let T' : ℤ → K := fun z => if z ≤ i then T z else if z = i + 1 then x else T (z - 1)
  let C' : ℤ → K := fun y => if y ≤ i - p then C y else if y ≤ i then
      (if T y < T (y + p) then ((x - T y) / (T (y + p) - T y)) * C y +
        (1 - (x - T y) / (T (y + p) - T y)) * C (y - 1) else C y) else C (y - 1)
  refine ⟨T', C', ⟨h.refn.step (i := i) (x := x) hp i1 i2 hi.left hi.right ?_ ?_ ?_ ?_ ?_ ?_, h.lift.step ?_, by omega, ?_, ?_⟩⟩
  · intro z _ hz; exact if_pos hz
  · simp only [T']; rw [if_neg (by omega), if_pos trivial]
  · intro z hz _; simp only [T']; rw [if_neg (by omega), if_neg (by omega)]
  · intro y _ hy; exact if_pos hy
  · intro y hy1 hy2 ht; simp only [C', smul_eq_mul]; rw [if_neg (by omega), if_pos hy2, if_pos ht]
  · intro y hy _; simp only [C']; rw [if_neg (by omega), if_neg (by omega)]
  · intro y y0 y1
    by_cases c1 : y ≤ i - p
    · exact ⟨1, 0, zero_le_one, le_rfl, by simp only [C']; rw [if_pos c1]; ring, fun _ => rfl, by omega⟩
    by_cases c2 : y ≤ i
    · by_cases c3 : T y < T (y + p)
      · have d : 0 < T (y + p) - T y := sub_pos.2 c3
        have e1 : T y ≤ x := le_trans (hs y i y0 c2 (by omega)) hi.left
        have e2 : x ≤ T (y + p) := le_trans hi.right (hs (i + 1) (y + p) (by omega) (by omega) (by omega))
        refine ⟨(x - T y) / (T (y + p) - T y), 1 - (x - T y) / (T (y + p) - T y),
          div_nonneg (sub_nonneg.2 e1) d.le, ?_, ?_, by omega, by omega⟩
        · rw [sub_nonneg, div_le_one d]; linarith
        · simp only [C']; rw [if_neg c1, if_pos c2, if_pos c3]
      · exact ⟨1, 0, zero_le_one, le_rfl, by simp only [C']; rw [if_neg c1, if_pos c2, if_neg c3]; ring,
          fun _ => rfl, by omega⟩
    · exact ⟨0, 1, le_rfl, zero_le_one, by simp only [C']; rw [if_neg c1, if_neg c2]; ring, by omega, fun _ => rfl⟩
  · simp only [T']; rw [if_pos i1]; exact h.first
  · simp only [T']; rw [if_neg (by omega), if_neg (by omega), add_sub_cancel_right]; exact h.last

theorem VRefn.all {n : ℤ} {p : ℕ} {U P : ℤ → K} (hv : ValidKnots n p U) (X : List K)
    (hX : ∀ x ∈ X, U p ≤ x ∧ x ≤ U (n + 1)) : ∃ N T C, VRefn n p U P N T C (X : Multiset K) := by
  induction X with
  | nil => exact ⟨n, U, P, IsRefn.refl hv.sorted P, Lift.refl n P, hv.le, rfl, rfl⟩
  | cons x X ih =>
    obtain ⟨N, T, C, h⟩ := ih (fun y hy => hX y (List.mem_cons_of_mem _ hy))
    obtain ⟨h1, h2⟩ := hX x (by simp)
    obtain ⟨T', C', h'⟩ := h.insert hv h1 h2
    exact ⟨N + 1, T', C', by rw [← Multiset.cons_coe]; exact h'⟩

/-- a run of equal knots that is as long as the degree yields a point of the curve -/
theorem run_of_mult {N : ℤ} {p : ℕ} {T : ℤ → K} (hp : 1 ≤ p) (hs : SortedOn T 0 (N + p + 1)) {k : ℤ} {x : K}
    (h : SpanOf N p T k x) (hm : p ≤ mult T 0 (N + p + 1) x) :
    ∃ y, k - p ≤ y ∧ y ≤ k ∧ ∀ l : ℤ, 1 ≤ l → l ≤ p → T (y + l) = x := by
  have h1 := h.lo
  have h2 := h.hi
  unfold mult at hm
  rcases h.mem with ⟨a, b⟩ | ⟨a, b, c⟩
  · refine ⟨k - p, le_rfl, by omega, fun l l1 l2 => ?_⟩
    by_contra hne
    have hle : T (k - p + l) ≤ x := le_trans (hs _ k (by omega) (by omega) (by omega)) a
    have hlt := lt_of_le_of_ne hle hne
    have hsub : (Finset.Icc 0 (N + p + 1)).filter (fun i => T i = x) ⊆ Finset.Ioc (k - p + 1) k := by
      intro i hi
      obtain ⟨hi, e⟩ := Finset.mem_filter.1 hi
      obtain ⟨i1, i2⟩ := Finset.mem_Icc.1 hi
      rw [Finset.mem_Ioc]
      constructor
      · by_contra hc
        exact absurd (hs i (k - p + l) i1 (by omega) (by omega)) (not_le.2 (e ▸ hlt))
      · by_contra hc
        exact absurd (hs (k + 1) i (by omega) (by omega) i2) (not_le.2 (e ▸ b))
    have := Finset.card_le_card hsub
    rw [Int.card_Ioc] at this
    omega
  · refine ⟨k, by omega, le_rfl, fun l l1 l2 => ?_⟩
    by_contra hne
    have hge : x ≤ T (k + l) := b ▸ hs (k + 1) (k + l) (by omega) (by omega) (by omega)
    have hlt := lt_of_le_of_ne hge (Ne.symm hne)
    have hsub : (Finset.Icc 0 (N + p + 1)).filter (fun i => T i = x) ⊆ Finset.Ico (k + 1) (k + p) := by
      intro i hi
      obtain ⟨hi, e⟩ := Finset.mem_filter.1 hi
      obtain ⟨i1, i2⟩ := Finset.mem_Icc.1 hi
      rw [Finset.mem_Ico]
      constructor
      · by_contra hc
        exact absurd (hs i k i1 (by omega) (by omega)) (not_le.2 (e ▸ a))
      · by_contra hc
        exact absurd (hs (k + l) i (by omega) (by omega) i2) (not_le.2 (e ▸ hlt))
    have := Finset.card_le_card hsub
    rw [Int.card_Ico] at this
    omega

/-- along increasing parameters, the values of a spline function that are not zero have the signs of control values
in the same order -/
theorem curve_lift {n : ℤ} {p : ℕ} {U P : ℤ → K} (hv : ValidKnots n p U) {m : ℤ} {X : ℤ → K}
    (hX : ∀ j, 0 ≤ j → j ≤ m → U p ≤ X j ∧ X j ≤ U (n + 1))
    (hinc : ∀ j j', 0 ≤ j → j ≤ j' → j' ≤ m → X j ≤ X j') :
    Lift n P m (fun j => curve n p U P (X j)) := by
  have hp : 1 ≤ p := by have := hv.one_le; omega
  have hlt : U p < U (n + 1) := lt_of_lt_of_le hv.first
    (hv.sorted _ _ (by omega) (by have := hv.le; omega) (by have := hv.le; omega))
  obtain ⟨N, T, C, h⟩ := VRefn.all (P := P) hv
    ((List.range (m + 1).toNat).flatMap (fun j : ℕ => List.replicate p (X j))) (by
      intro x hx
      obtain ⟨j, hj, hx⟩ := List.mem_flatMap.1 hx
      have := List.mem_range.1 hj
      rw [(List.mem_replicate.1 hx).2]
      exact hX j (by omega) (by omega))
  have hs := h.refn.sorted
  have hN := h.le
  have key : ∀ x, (∃ j, 0 ≤ j ∧ j ≤ m ∧ X j = x) →
      ∃ y, 0 ≤ y ∧ y ≤ N ∧ T (y + 1) = x ∧ C y = curve n p U P x := by
    rintro _ ⟨j, j0, j1, rfl⟩
    obtain ⟨x1, x2⟩ := hX j j0 j1
    obtain ⟨k, hk⟩ := SpanOf.exists' hv.sorted hlt hv.le x1 x2
    obtain ⟨k', hk'⟩ := SpanOf.exists' (u := X j) hs (by rw [h.first, h.last]; exact hlt) hN (by rw [h.first]; exact x1)
      (by rw [h.last]; exact x2)
    have hm : p ≤ mult T 0 (N + p + 1) (X j) := by
      rw [← count_knotMS, h.refn.ms, Multiset.count_add, Multiset.coe_count]
      refine le_trans ?_ (Nat.le_add_left _ _)
      have hsub : (List.replicate p (X j)).Sublist
          ((List.range (m + 1).toNat).flatMap (fun j : ℕ => List.replicate p (X j))) := by
        have hmem : j.toNat ∈ List.range (m + 1).toNat := List.mem_range.2 (by omega)
        obtain ⟨s, t, e⟩ := List.append_of_mem hmem
        rw [e, List.flatMap_append, List.flatMap_cons, Int.toNat_of_nonneg j0]
        exact (List.sublist_append_left _ _).trans (List.sublist_append_right _ _)
      have := hsub.count_le (X j)
      rwa [List.count_replicate_self] at this
    obtain ⟨y, y1, y2, hrun⟩ := run_of_mult hp hs hk' hm
    have k1 := hk'.lo
    have k2 := hk'.hi
    obtain ⟨f, hf, hrep⟩ := exists_form P (hk.win hv.sorted)
    have hr' := h.refn.forms k k' f hk.lo hk.hi hk.ne k1 k2 hk'.ne
      (h.refn.le_of_lt (by have := hk.lo; omega) (by have := hk.hi; omega) (by omega) (by omega) (by
        rcases hk.mem with ⟨a, b⟩ | ⟨a, b, c⟩
        · rcases hk'.mem with ⟨a', b'⟩ | ⟨a', b', c'⟩
          · exact lt_of_le_of_lt a b'
          · exfalso
            have u1 := hk.lo
            have u2 := hk.hi
            rw [c', h.last] at b
            exact absurd (hv.sorted (k + 1) (n + 1) (by omega) (by omega) (by omega)) (not_le.2 b)
        · exact lt_of_lt_of_le a hk'.right))
      (by
        rcases hk.mem with ⟨a, b⟩ | ⟨a, b, c⟩
        · exact lt_of_le_of_lt hk'.left b
        · rcases hk'.mem with ⟨a', b'⟩ | ⟨a', b', c'⟩
          · exfalso
            rw [c, ← h.last] at b'
            exact absurd (hs (k' + 1) (N + 1) (by omega) (by omega) (by omega)) (not_le.2 b')
          · exact b ▸ a') hf hrep
    refine ⟨y, by omega, by omega, hrun 1 le_rfl (by omega), ?_⟩
    rw [hr' y y1 y2, kn_const hrun, hk.curve_form hv.sorted hf hrep]
  choose! y y0 y1 hT hC using key
  obtain ⟨κ, h1, h2⟩ := h.lift
  refine ⟨fun j => κ (y (X j)), ?_, ?_⟩
  · intro j j0 j1 hne
    have hj : ∃ i, 0 ≤ i ∧ i ≤ m ∧ X i = X j := ⟨j, j0, j1, rfl⟩
    have := h1 _ (y0 _ hj) (y1 _ hj) (by rw [hC _ hj]; exact hne)
    rwa [hC _ hj] at this
  · intro j j' j0 hj j1 hne hne'
    have e1 : ∃ i, 0 ≤ i ∧ i ≤ m ∧ X i = X j := ⟨j, j0, by omega, rfl⟩
    have e2 : ∃ i, 0 ≤ i ∧ i ≤ m ∧ X i = X j' := ⟨j', by omega, j1, rfl⟩
    rcases eq_or_ne (X j) (X j') with e | e
    · exact le_of_eq (by simp only [e])
    · have hlt' : X j < X j' := lt_of_le_of_ne (hinc j j' j0 hj.le j1) e
      refine h2 _ _ (y0 _ e1) ?_ (y1 _ e2) (by rw [hC _ e1]; exact hne) (by rw [hC _ e2]; exact hne')
      by_contra hc
      have := hs (y (X j') + 1) (y (X j) + 1) (by have := y0 _ e2; omega) (by omega) (by have := y1 _ e1; omega)
      rw [hT _ e1, hT _ e2] at this
      exact absurd this (not_le.2 hlt')

end Igakit
