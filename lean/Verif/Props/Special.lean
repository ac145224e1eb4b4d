import Verif.Model.Special
import Verif.Proofs.FindSpan
import Verif.Props.Nurbs

/-!
# C84: NaN and infinite values
-/

set_option linter.unusedSectionVars false

namespace Igakit
open Dbl

variable {K : Type} [Field K] [LinearOrder K] [IsStrictOrderedRing K]

/-- comparisons that exclude each other -/
theorem Dbl.lt_not_ge {a b : Dbl K} (h : lt a b = true) : ge a b = false := by
  cases a <;> cases b <;> simp_all [lt, ge, le, Dbl.eq]
  all_goals constructor
  · exact h.le
  · exact h.ne'

/-- halving ends after logarithmically many rounds, whatever the entries -/
theorem spanX_loop (uu : Dbl K) (U : ℤ → Dbl K) {n p : ℤ} (hp : 0 ≤ p) :
    ∀ (f : ℕ) (low high : ℤ), p ≤ low → low < high → high ≤ n + 1 → high - low ≤ 2 ^ f → ge uu (U high) = false →
      lt uu (U low) = false →
      ∃ s, whileFuel (spanCondX uu U) (spanBodyX uu U) f ⟨low, high, (low + high).tdiv 2⟩ = some s ∧ p ≤ s.span ∧ s.span ≤ n ∧
        lt uu (U s.span) = false ∧ ge uu (U (s.span + 1)) = false
  | f, low, high, h1, h2, h3, h4, h5, h6 => by
    have e : (low + high).tdiv 2 = (low + high) / 2 := Int.tdiv_eq_ediv_of_nonneg (by omega)
    by_cases hc : spanCondX uu U ⟨low, high, (low + high).tdiv 2⟩ = true
    · cases f with
      | zero =>
        exfalso
        have h7 : high = low + 1 := by
          have : (2 : ℤ) ^ 0 = 1 := rfl
          omega
        subst h7
        have e2 : (low + (low + 1)).tdiv 2 = low := by rw [e]; omega
        rw [e2] at hc
        simp only [spanCondX, h5, h6] at hc
        exact absurd hc (by decide)
      | succ f =>
        have hpow : (2 : ℤ) ^ (f + 1) = 2 * 2 ^ f := by ring
        have ew : ∀ s : SpanSt, spanCondX uu U s = true → whileFuel (spanCondX uu U) (spanBodyX uu U) (f + 1) s =
            whileFuel (spanCondX uu U) (spanBodyX uu U) f (spanBodyX uu U s) := by
          intro s hs
          show (if spanCondX uu U s then _ else _) = _
          rw [if_pos hs]
        rw [ew _ hc]
        simp only [spanCondX, Bool.or_eq_true] at hc
        unfold spanBodyX
        simp only
        by_cases hlt : lt uu (U ((low + high).tdiv 2)) = true
        · rw [if_pos hlt]
          have hne : (low + high).tdiv 2 ≠ low := by
            intro h; rw [h, h6] at hlt; cases hlt
          rw [e] at hlt hne ⊢
          have hlt' := Dbl.lt_not_ge hlt
          exact spanX_loop uu U hp f low _ h1 (by omega) (by omega) (by omega) hlt' h6
        · have hlt' : lt uu (U ((low + high).tdiv 2)) = false := by simpa using hlt
          rw [if_neg hlt]
          have hge : ge uu (U ((low + high).tdiv 2 + 1)) = true := by
            rcases hc with hc | hc
            · exact absurd hc hlt
            · exact hc
          have hne : (low + high).tdiv 2 + 1 ≠ high := by
            intro h; rw [h, h5] at hge; cases hge
          rw [e] at hlt' hne ⊢
          exact spanX_loop uu U hp f _ high (by omega) (by omega) h3 (by omega) h5 hlt'
    · have hc' : spanCondX uu U ⟨low, high, (low + high).tdiv 2⟩ = false := by simpa using hc
      refine ⟨⟨low, high, (low + high).tdiv 2⟩, ?_, ?_⟩
      · cases f with
        | zero => simp [whileFuel, hc']
        | succ f => simp [whileFuel, hc']
      · simp only [spanCondX, Bool.or_eq_false_iff] at hc'
        refine ⟨?_, ?_, hc'.1, hc'.2⟩ <;> simp only [e] <;> omega

theorem not_le_lt {a b : Dbl K} (h : le a b = false) : lt a b = false := by
  unfold le at h
  simp only [Bool.or_eq_false_iff] at h
  exact h.1

/-- C84: the search of the span ends for every parameter and every array, sorted or not, with NaN and infinities
anywhere, after at most `log2` of the number of spans (rounded up) rounds, with a span of the array. -/
theorem C84_span (n p : ℤ) (hp : 0 ≤ p) (hn : p ≤ n) (uu : Dbl K) (U : ℤ → Dbl K) {fuel : ℕ} (hf : n + 1 - p ≤ 2 ^ fuel) :
    ∃ k, findSpanX fuel n p uu U = some k ∧ p ≤ k ∧ k ≤ n := by
  unfold findSpanX
  split_ifs with h1 h2
  · exact ⟨n, rfl, hn, le_refl _⟩
  · exact ⟨p, rfl, le_refl _, hn⟩
  · obtain ⟨s, h3, h4, h5, -⟩ := spanX_loop uu U hp fuel p (n + 1) (le_refl _) (by omega) (le_refl _) hf
      (by simpa using h1) (not_le_lt (by simpa using h2))
    exact ⟨s.span, by rw [h3]; rfl, h4, h5⟩

/-- a NaN gives the middle span -/
theorem C84_span_nan (n p : ℤ) (U : ℤ → Dbl K) (fuel : ℕ) :
    findSpanX fuel n p nan U = some ((p + (n + 1)).tdiv 2) := by
  have h1 : ∀ x : Dbl K, lt nan x = false := by intro x; cases x <;> rfl
  have h2 : ∀ x : Dbl K, ge nan x = false := by intro x; cases x <;> rfl
  have h3 : ∀ x : Dbl K, le nan x = false := by intro x; cases x <;> rfl
  unfold findSpanX
  rw [h2, h3]
  have hc : spanCondX nan U ⟨p, n + 1, (p + (n + 1)).tdiv 2⟩ = false := by
    simp only [spanCondX, h1, h2, Bool.or_self]
  cases fuel <;> simp [whileFuel, hc]

theorem condX_fin (u : K) (U : ℤ → K) : spanCondX (fin u) (fun j => fin (U j)) = findSpanCond u U := by
  funext s
  simp only [spanCondX, findSpanCond, lt, ge, le, Dbl.eq]
  congr 1
  rcases lt_trichotomy (U (s.span + 1)) u with h | h | h
  · simp [h, h.le]
  · simp [h]
  · simp [h.not_ge, h.not_gt, h.ne']

theorem bodyX_fin (u : K) (U : ℤ → K) : spanBodyX (fin u) (fun j => fin (U j)) = findSpanBody u U := by
  funext s
  simp only [spanBodyX, findSpanBody, lt, decide_eq_true_eq]

theorem le_fin (x y : K) : le (fin x) (fin y) = decide (x ≤ y) := by
  simp only [le, lt, Dbl.eq]
  rcases lt_trichotomy x y with h | h | h
  · simp [h, h.le]
  · simp [h]
  · simp [h.not_ge, h.not_gt, h.ne']

/-- on numbers it is the search of C01 -/
theorem C84_span_fin (n p : ℤ) (hp : 0 ≤ p) (hn : p ≤ n) (u : K) (U : ℤ → K) {fuel : ℕ} (hf : n + 1 - p ≤ 2 ^ fuel) :
    findSpanX fuel n p (fin u) (fun j => fin (U j)) = some (findSpan n p u U) := by
  unfold findSpanX findSpan
  simp only [ge, le_fin, decide_eq_true_eq, condX_fin, bodyX_fin]
  by_cases h1 : U (n + 1) ≤ u
  · rw [if_pos h1, if_pos h1]
  rw [if_neg h1, if_neg h1]
  by_cases h2 : u ≤ U p
  · rw [if_pos h2, if_pos h2]
  rw [if_neg h2, if_neg h2]
  obtain ⟨s, hs, -⟩ := findSpanLoop_spec (n + 1 - p).toNat n p u U hp hn (not_le.mp h2) (not_le.mp h1) (le_refl _)
  rw [hs]
  obtain ⟨s', hs', -⟩ := spanX_loop (fin u) (fun j => fin (U j)) hp fuel p (n + 1) (le_refl _) (by omega) (le_refl _) hf
    (by simpa [ge, le_fin] using h1) (not_le_lt (by simpa [le_fin] using h2))
  rw [condX_fin, bodyX_fin] at hs'
  rw [hs']
  unfold findSpanLoop at hs
  have m1 := whileFuel_mono fuel (max fuel (n + 1 - p).toNat) _ _ (le_max_left _ _) hs'
  have m2 := whileFuel_mono _ (max fuel (n + 1 - p).toNat) _ _ (le_max_right _ _) hs
  rw [m1] at m2
  injection m2 with m2
  rw [m2]
  rfl

/-! ## Checks -/

/-- numbers of the domain `[lo, hi]` -/
def Dbl.Inside (lo hi : K) (x : Dbl K) : Prop := ∃ u, x = fin u ∧ lo ≤ u ∧ u ≤ hi

theorem inside_iff (lo hi : K) (x : Dbl K) : (le (fin lo) x = true ∧ le x (fin hi) = true) ↔ x.Inside lo hi := by
  unfold Dbl.Inside
  cases x with
  | fin u => simp [le_fin]
  | _ => simp [le, lt, Dbl.eq]

theorem pyAssert_pos' {α : Type} {c : Prop} [Decidable c] (h : c) (f : Unit → Res α) : (pyAssert c >>= f) = f () := by
  unfold pyAssert; rw [if_pos h]; rfl

theorem pyAssert_neg' {α : Type} {c : Prop} [Decidable c] (h : ¬ c) (f : Unit → Res α) :
    (pyAssert c >>= f) = .error .assertion := by
  unfold pyAssert; rw [if_neg h]; rfl

/-- C84, `insert` and `remove`: only numbers of the domain pass -/
theorem C84_insert {α : Type} (lo hi : K) (value : Dbl K) (rest : Dbl K → Res α) :
    (value.Inside lo hi → insertX (fin lo) (fin hi) value rest = rest value) ∧
    (¬ value.Inside lo hi → insertX (fin lo) (fin hi) value rest = .error .assertion) := by
  rw [← inside_iff]
  exact ⟨fun h => pyAssert_pos' h _, fun h => pyAssert_neg' h _⟩

/-- C84, `extract` -/
theorem C84_extract {α : Type} (lo hi : K) (value : Dbl K) (rest : Dbl K → Res α) :
    (value.Inside lo hi → extractX (fin lo) (fin hi) value rest = rest value) ∧
    (¬ value.Inside lo hi → extractX (fin lo) (fin hi) value rest = .error .assertion) := by
  rw [← inside_iff]
  unfold extractX ge
  constructor
  · rintro ⟨h1, h2⟩
    rw [pyAssert_pos' h1, pyAssert_pos' h2]
  · intro h
    by_cases h1 : le (fin lo) value = true
    · rw [pyAssert_pos' h1, pyAssert_neg' (fun h2 => h ⟨h1, h2⟩)]
    · rw [pyAssert_neg' h1]

/-- C84, `slice`: only numbers `lo ≤ s < e ≤ hi` pass -/
theorem C84_slice {α : Type} (lo hi : K) (start stop : Option (Dbl K)) (rest : Dbl K → Dbl K → Res α) :
    (∀ s e, start.getD (fin lo) = fin s → stop.getD (fin hi) = fin e → lo ≤ s → s < e → e ≤ hi →
      sliceX (fin lo) (fin hi) start stop rest = rest (fin s) (fin e)) ∧
    ((¬ ∃ s e, start.getD (fin lo) = fin s ∧ stop.getD (fin hi) = fin e ∧ lo ≤ s ∧ s < e ∧ e ≤ hi) →
      sliceX (fin lo) (fin hi) start stop rest = .error .assertion) := by
  unfold sliceX
  dsimp only
  constructor
  · intro s e hs he h1 h2 h3
    rw [hs, he, pyAssert_pos' (by simpa [ge, le_fin] using h1), pyAssert_pos' (by simpa [le_fin] using h3),
      pyAssert_pos' (by simpa [lt] using h2)]
  · intro h
    by_cases h1 : ge (start.getD (fin lo)) (fin lo) = true
    · rw [pyAssert_pos' h1]
      by_cases h2 : le (stop.getD (fin hi)) (fin hi) = true
      · rw [pyAssert_pos' h2]
        apply pyAssert_neg'
        intro h3
        apply h
        obtain ⟨s, hs, h1'⟩ : ∃ s, start.getD (fin lo) = fin s ∧ lo ≤ s := by
          cases hs : start.getD (fin lo) with
          | fin s => exact ⟨s, rfl, by rw [hs] at h1; simpa [ge, le_fin] using h1⟩
          | nan => rw [hs] at h1; exact absurd h1 (by simp [ge, le, lt, Dbl.eq])
          | ninf => rw [hs] at h1; exact absurd h1 (by simp [ge, le, lt, Dbl.eq])
          | pinf =>
            rw [hs] at h3
            exact absurd h3 (by cases stop.getD (fin hi) <;> simp [lt])
        obtain ⟨e, he, h2'⟩ : ∃ e, stop.getD (fin hi) = fin e ∧ e ≤ hi := by
          rw [hs] at h3
          cases he : stop.getD (fin hi) with
          | fin e => exact ⟨e, rfl, by rw [he] at h2; simpa [le_fin] using h2⟩
          | nan => rw [he] at h2; exact absurd h2 (by simp [le, lt, Dbl.eq])
          | pinf => rw [he] at h2; exact absurd h2 (by simp [le, lt, Dbl.eq])
          | ninf => rw [he] at h3; exact absurd h3 (by simp [lt])
        rw [hs, he] at h3
        exact ⟨s, e, hs, he, h1', by simpa [lt] using h3, h2'⟩
      · rw [pyAssert_neg' h2]
    · rw [pyAssert_neg' h1]

theorem min_ge {lo : K} {a b : Dbl K} :
    ge (Dbl.min a b) (fin lo) = true ↔ ge a (fin lo) = true ∧ ge b (fin lo) = true := by
  cases a with
  | nan => simp [Dbl.min, isNan, ge, le, lt, Dbl.eq]
  | ninf => cases b <;> simp [Dbl.min, isNan, ge, le, lt, Dbl.eq]
  | pinf => cases b <;> simp [Dbl.min, isNan, ge, le, lt, Dbl.eq]
  | fin x =>
    cases b with
    | fin y =>
      simp only [Dbl.min, isNan, lt, ge, decide_eq_true_eq, Bool.false_eq_true, if_false]
      split_ifs with h
      · simp only [le_fin, decide_eq_true_eq]
        exact ⟨fun h1 => ⟨h1.trans h.le, h1⟩, fun h1 => h1.2⟩
      · simp only [le_fin, decide_eq_true_eq]
        exact ⟨fun h1 => ⟨h1, h1.trans (not_lt.mp h)⟩, fun h1 => h1.1⟩
    | _ => simp [Dbl.min, isNan, ge, le, lt, Dbl.eq]

theorem max_le' {hi : K} {a b : Dbl K} :
    le (Dbl.max a b) (fin hi) = true ↔ le a (fin hi) = true ∧ le b (fin hi) = true := by
  cases a with
  | nan => simp [Dbl.max, isNan, le, lt, Dbl.eq]
  | ninf => cases b <;> simp [Dbl.max, isNan, le, lt, Dbl.eq]
  | pinf => cases b <;> simp [Dbl.max, isNan, le, lt, Dbl.eq]
  | fin x =>
    cases b with
    | fin y =>
      simp only [Dbl.max, isNan, lt, decide_eq_true_eq, Bool.false_eq_true, if_false]
      split_ifs with h
      · simp only [le_fin, decide_eq_true_eq]
        exact ⟨fun h1 => ⟨h.le.trans h1, h1⟩, fun h1 => h1.2⟩
      · simp only [le_fin, decide_eq_true_eq]
        exact ⟨fun h1 => ⟨h1, (not_lt.mp h).trans h1⟩, fun h1 => h1.1⟩
    | _ => simp [Dbl.max, isNan, le, lt, Dbl.eq]

theorem foldl_min_ge {lo : K} : ∀ (l : List (Dbl K)) (a : Dbl K),
    ge (l.foldl Dbl.min a) (fin lo) = true ↔ ∀ x ∈ a :: l, ge x (fin lo) = true
  | [], a => by simp
  | b :: l, a => by
    rw [List.foldl_cons, foldl_min_ge l]
    simp only [List.mem_cons, forall_eq_or_imp, min_ge, and_assoc]

theorem foldl_max_le {hi : K} : ∀ (l : List (Dbl K)) (a : Dbl K),
    le (l.foldl Dbl.max a) (fin hi) = true ↔ ∀ x ∈ a :: l, le x (fin hi) = true
  | [], a => by simp
  | b :: l, a => by
    rw [List.foldl_cons, foldl_max_le l]
    simp only [List.mem_cons, forall_eq_or_imp, max_le', and_assoc]

/-- C84, evaluation: only arrays all of whose entries are numbers of the domain pass -/
theorem C84_eval {α : Type} (lo hi : K) {u : List (Dbl K)} (hu : u ≠ []) (rest : List (Dbl K) → Res α) :
    ((∀ x ∈ u, x.Inside lo hi) → evalX (fin lo) (fin hi) u rest = rest u) ∧
    ((¬ ∀ x ∈ u, x.Inside lo hi) → evalX (fin lo) (fin hi) u rest = .error .assertion) := by
  cases u with
  | nil => exact absurd rfl hu
  | cons x l =>
    have key : (∀ y ∈ x :: l, y.Inside lo hi) ↔ ge (l.foldl Dbl.min x) (fin lo) = true ∧ le (l.foldl Dbl.max x) (fin hi) = true := by
      rw [foldl_min_ge, foldl_max_le]
      simp only [← inside_iff]
      exact ⟨fun h => ⟨fun y hy => (h y hy).1, fun y hy => (h y hy).2⟩, fun h y hy => ⟨h.1 y hy, h.2 y hy⟩⟩
    rw [key]
    unfold evalX
    dsimp only
    constructor
    · rintro ⟨h1, h2⟩
      rw [pyAssert_pos' h1, pyAssert_pos' h2]
    · intro h
      by_cases h1 : ge (l.foldl Dbl.min x) (fin lo) = true
      · rw [pyAssert_pos' h1, pyAssert_neg' (fun h2 => h ⟨h1, h2⟩)]
      · rw [pyAssert_neg' h1]

theorem lt_trans' {a b c : Dbl K} (h1 : le a b = true) (h2 : le b c = true) : le a c = true := by
  cases a with
  | nan => exact absurd h1 (by cases b <;> simp [le, lt, Dbl.eq])
  | ninf =>
    cases c with
    | nan => exact absurd h2 (by cases b <;> simp [le, lt, Dbl.eq])
    | _ => simp [le, lt, Dbl.eq]
  | pinf =>
    cases b with
    | pinf => exact h2
    | _ => exact absurd h1 (by simp [le, lt, Dbl.eq])
  | fin x =>
    cases b with
    | fin y =>
      cases c with
      | fin z =>
        rw [le_fin, decide_eq_true_eq] at h1 h2 ⊢
        exact h1.trans h2
      | pinf => rfl
      | _ => exact absurd h2 (by simp [le, lt, Dbl.eq])
    | pinf =>
      cases c with
      | pinf => rfl
      | _ => exact absurd h2 (by simp [le, lt, Dbl.eq])
    | _ => exact absurd h1 (by simp [le, lt, Dbl.eq])

theorem sortLe_trans (a b c : Dbl K) (h1 : sortLe a b = true) (h2 : sortLe b c = true) : sortLe a c = true := by
  unfold sortLe at h1 h2 ⊢
  simp only [Bool.or_eq_true, Bool.and_eq_true, Bool.not_eq_true'] at h1 h2 ⊢
  rcases h2 with h2 | ⟨h2, h3⟩
  · exact Or.inl h2
  · rcases h1 with h1 | ⟨h1, h4⟩
    · rw [h1] at h2; cases h2
    · exact Or.inr ⟨h1, lt_trans' h4 h3⟩

theorem le_total' {a b : Dbl K} (ha : a.isNan = false) (hb : b.isNan = false) : le a b = true ∨ le b a = true := by
  cases a <;> cases b <;> simp_all [le, lt, Dbl.eq, isNan]
  rename_i x y
  rcases lt_trichotomy x y with h | h | h
  · exact Or.inl (Or.inl h)
  · exact Or.inl (Or.inr h)
  · exact Or.inr (Or.inl h)

theorem sortLe_total (a b : Dbl K) : (sortLe a b || sortLe b a) = true := by
  unfold sortLe
  cases ha : a.isNan
  · cases hb : b.isNan
    · rcases le_total' ha hb with h | h <;> simp [h]
    · simp
  · simp

/-- C84, `refine`: only arrays all of whose entries are numbers of the domain pass -/
theorem C84_refine {α : Type} (lo hi : K) {values : List (Dbl K)} (hu : values ≠ []) (same : Res α) (rest : List (Dbl K) → Res α) :
    ((∀ x ∈ values, x.Inside lo hi) → refineX (fin lo) (fin hi) values same rest = rest (values.mergeSort sortLe)) ∧
    ((¬ ∀ x ∈ values, x.Inside lo hi) → refineX (fin lo) (fin hi) values same rest = .error .assertion) := by
  have hperm := List.mergeSort_perm values sortLe
  have hpw := List.pairwise_mergeSort (le := sortLe) sortLe_trans sortLe_total values
  have hmem : ∀ x, x ∈ values ↔ x ∈ values.mergeSort sortLe := fun x => hperm.mem_iff.symm
  have hne : values.mergeSort sortLe ≠ [] := by
    intro h
    rw [h] at hperm
    exact hu hperm.symm.eq_nil
  unfold refineX
  rw [if_neg hu]
  dsimp only
  simp only [hmem]
  generalize values.mergeSort sortLe = v at hpw hne
  have key : (∀ y ∈ v, y.Inside lo hi) ↔ (∀ x ∈ v.head?, ge x (fin lo) = true) ∧ (∀ x ∈ v.getLast?, le x (fin hi) = true) := by
    simp only [← inside_iff]
    constructor
    · intro h
      exact ⟨fun x hx => (h x (List.mem_of_mem_head? hx)).1, fun x hx => (h x (List.mem_of_mem_getLast? hx)).2⟩
    · rintro ⟨h1, h2⟩
      have hl : le (v.getLast hne) (fin hi) = true := h2 _ (List.getLast_mem_getLast? hne)
      have hh : le (fin lo) (v.head hne) = true := h1 _ (List.head_mem_head? hne)
      intro y hy
      have e1 : y = v.getLast hne ∨ sortLe y (v.getLast hne) = true := by
        have hv := List.dropLast_append_getLast hne
        rw [← hv] at hy hpw
        rcases List.mem_append.mp hy with h | h
        · exact Or.inr ((List.pairwise_append.mp hpw).2.2 y h _ (by simp))
        · exact Or.inl (by simpa using h)
      have e2 : le y (fin hi) = true := by
        rcases e1 with e1 | e1
        · rw [e1]; exact hl
        · unfold sortLe at e1
          simp only [Bool.or_eq_true, Bool.and_eq_true] at e1
          rcases e1 with e1 | e1
          · exfalso
            cases hx : v.getLast hne <;> rw [hx] at e1 hl <;> simp [isNan, le, lt, Dbl.eq] at e1 hl
          · exact lt_trans' e1.2 hl
      refine ⟨?_, e2⟩
      have e3 : y = v.head hne ∨ sortLe (v.head hne) y = true := by
        cases v with
        | nil => exact absurd rfl hne
        | cons b v =>
          rcases List.mem_cons.mp hy with h | h
          · exact Or.inl h
          · exact Or.inr ((List.pairwise_cons.mp hpw).1 y h)
      rcases e3 with e3 | e3
      · rw [e3]; exact hh
      · unfold sortLe at e3
        simp only [Bool.or_eq_true, Bool.and_eq_true] at e3
        rcases e3 with e3 | e3
        · exfalso
          cases y <;> simp [isNan, le, lt, Dbl.eq] at e3 e2
        · exact lt_trans' hh e3.2
  rw [key]
  constructor
  · rintro ⟨h1, h2⟩
    rw [pyAssert_pos' h1, pyAssert_pos' h2]
  · intro h
    by_cases h1 : ∀ x ∈ v.head?, ge x (fin lo) = true
    · rw [pyAssert_pos' h1, pyAssert_neg' (fun h2 => h ⟨h1, h2⟩)]
    · rw [pyAssert_neg' h1]

/-! ## Objects whose domain has a NaN as an end -/

/-- with a NaN as an end of the domain no given parameter is accepted -/
theorem C84_nan_domain {α : Type} {lo hi : Dbl K} (h : lo = nan ∨ hi = nan) (value : Dbl K) (start stop : Option (Dbl K))
    {u : List (Dbl K)} (hu : u ≠ []) (rest : Dbl K → Res α) (rest2 : Dbl K → Dbl K → Res α) (same : Res α) (rest3 : List (Dbl K) → Res α) :
    insertX lo hi value rest = .error .assertion ∧ extractX lo hi value rest = .error .assertion ∧
      sliceX lo hi start stop rest2 = .error .assertion ∧ evalX lo hi u rest3 = .error .assertion ∧
      refineX lo hi u same rest3 = .error .assertion := by
  have l1 : ∀ x : Dbl K, le nan x = false := by intro x; cases x <;> rfl
  have l2 : ∀ x : Dbl K, le x nan = false := by intro x; cases x <;> rfl
  have hor : ∀ x y : Dbl K, ¬ (ge x lo = true ∧ le y hi = true) := by
    rintro x y ⟨h1, h2⟩
    rcases h with rfl | rfl
    · rw [ge, l1] at h1; cases h1
    · rw [l2] at h2; cases h2
  have gen : ∀ {c1 c2 : Prop} [Decidable c1] [Decidable c2], ¬ (c1 ∧ c2) → ∀ f : Res α,
      (do pyAssert c1; pyAssert c2; f) = (.error .assertion : Res α) := by
    intro c1 c2 _ _ hn f
    by_cases h1 : c1
    · rw [pyAssert_pos' h1, pyAssert_neg' (fun h2 => hn ⟨h1, h2⟩)]
    · rw [pyAssert_neg' h1]
  refine ⟨pyAssert_neg' (hor value value) _, gen (hor value value) _, gen (hor _ _) _, ?_, ?_⟩
  · cases u with
    | nil => exact absurd rfl hu
    | cons x l => exact gen (hor _ _) _
  · unfold refineX
    rw [if_neg hu]
    dsimp only
    refine gen ?_ _
    rintro ⟨h1, h2⟩
    have hperm := List.mergeSort_perm u sortLe
    have hne : u.mergeSort sortLe ≠ [] := by
      intro h
      rw [h] at hperm
      exact hu hperm.symm.eq_nil
    exact hor _ _ ⟨h1 _ (List.head_mem_head? hne), h2 _ (List.getLast_mem_getLast? hne)⟩

/-! ## `remap` -/

/-- NaN is rejected -/
theorem C84_remap_nan (p len : ℤ) (U : ℤ → Dbl K) {start stop : Option (Dbl K)} (h : start = some nan ∨ stop = some nan) :
    remapX p len U start stop = .error .assertion := by
  unfold remapX
  dsimp only
  have n1 : ∀ x : Dbl K, eq x nan = false := by intro x; cases x <;> rfl
  have n2 : ∀ x : Dbl K, lt x nan = false := by intro x; cases x <;> rfl
  have n3 : ∀ x : Dbl K, lt nan x = false := by intro x; cases x <;> rfl
  rcases h with rfl | rfl
  · rw [if_neg (by simp [n1])]
    exact pyAssert_neg' (by simp [n3]) _
  · rw [if_neg (by simp [n1])]
    exact pyAssert_neg' (by simp [n2]) _

/-- numbers: the knots of C19 -/
theorem C84_remap_fin (p len : ℤ) (U : ℤ → K) {start stop : Option K} (hd : U p < U (len + (-p - 1)))
    (h : start.getD (U p) < stop.getD (U (len + (-p - 1)))) (hne : ¬ (U p = start.getD (U p) ∧ U (len + (-p - 1)) = stop.getD (U (len + (-p - 1))))) :
    remapX p len (fun j => fin (U j)) (start.map fin) (stop.map fin) = .ok (some fun j => fin
      ((U j - U p) * ((stop.getD (U (len + (-p - 1))) - start.getD (U p)) / (U (len + (-p - 1)) - U p)) + start.getD (U p))) := by
  have g1 : (start.map fin).getD (fin (U p)) = fin (start.getD (U p)) := by cases start <;> rfl
  have g2 : (stop.map fin).getD (fin (U (len + (-p - 1)))) = fin (stop.getD (U (len + (-p - 1)))) := by cases stop <;> rfl
  unfold remapX
  dsimp only
  rw [g1, g2, if_neg (by simpa [Dbl.eq] using hne), pyAssert_pos' (by simpa [lt] using h)]
  have h0 : U (len + (-p - 1)) + -U p ≠ 0 := by
    have := sub_pos.mpr hd
    rw [sub_eq_add_neg] at this
    exact this.ne'
  simp only [Dbl.sub, neg, add, div]
  rw [if_neg h0]
  simp only [mul, ← sub_eq_add_neg]
  rfl

/-- infinite ends are accepted, and then the domain of the object begins with a NaN -/
theorem C84_remap_inf (p len : ℤ) (U : ℤ → K) (hd : U p < U (len + (-p - 1))) (c e : Dbl K)
    (h : (∃ x, c = fin x ∧ e = pinf) ∨ (c = ninf ∧ ∃ x, e = fin x) ∨ c = ninf ∧ e = pinf) :
    ∃ V, remapX p len (fun j => fin (U j)) (some c) (some e) = .ok (some V) ∧ V p = nan := by
  have h0 : U (len + (-p - 1)) + -U p ≠ 0 := by
    have := sub_pos.mpr hd
    rw [sub_eq_add_neg] at this
    exact this.ne'
  have hpos : ¬ U (len + (-p - 1)) + -U p < 0 := by
    have := sub_pos.mpr hd
    rw [sub_eq_add_neg] at this
    exact this.not_gt
  have hz : mulInf (U p + -U p) = (nan : Dbl K) := by
    rw [add_neg_cancel]
    simp [mulInf]
  unfold remapX
  dsimp only
  have hA : ∀ {c e : Dbl K}, lt c e = true → (eq (fin (U p)) c && eq (fin (U (len + (-p - 1)))) e) = false →
      div (Dbl.sub e c) (Dbl.sub (fin (U (len + (-p - 1)))) (fin (U p))) = pinf →
      ∃ V, (if eq (fin (U p)) c = true ∧ eq (fin (U (len + (-p - 1)))) e = true then pure none
        else do
          pyAssert (lt c e = true)
          pure (some fun j => add (mul (Dbl.sub (fin (U j)) (fin (U p))) (div (Dbl.sub e c) (Dbl.sub (fin (U (len + (-p - 1)))) (fin (U p))))) c)) =
        (.ok (some V) : Res (Option (ℤ → Dbl K))) ∧ V p = nan := by
    intro c e h1 h2 h3
    refine ⟨fun j => add (mul (Dbl.sub (fin (U j)) (fin (U p)))
      (div (Dbl.sub e c) (Dbl.sub (fin (U (len + (-p - 1)))) (fin (U p))))) c, ?_, ?_⟩
    · rw [if_neg (by
        rintro ⟨a, b⟩
        rw [a, b] at h2
        cases h2), pyAssert_pos' h1]
      rfl
    · dsimp only
      rw [h3]
      simp only [Dbl.sub, neg, add, mul, hz]
  rcases h with ⟨x, rfl, rfl⟩ | ⟨rfl, x, rfl⟩ | ⟨rfl, rfl⟩
  · refine hA rfl (by simp [Dbl.eq]) ?_
    simp only [Option.getD_some, Dbl.sub, neg, add, div, if_neg hpos]
  · refine hA rfl (by simp [Dbl.eq]) ?_
    simp only [Option.getD_some, Dbl.sub, neg, add, div, if_neg hpos]
  · refine hA rfl (by simp [Dbl.eq]) ?_
    simp only [Option.getD_some, Dbl.sub, neg, add, div, if_neg hpos]

/-! ## Examples -/

/-- a search in an array with NaN and unsorted entries -/
example : findSpanX 3 6 2 (fin (7 / 2 : ℚ)) (fun j => if j = 4 then nan else if j = 5 then ninf else fin j) = some 5 := by decide +kernel
example : findSpanX 3 6 2 (nan : Dbl ℚ) (fun j => fin j) = some 4 := by decide +kernel
example : (fin (1 / 2) : Dbl ℚ).Inside 0 1 ∧ ¬ (nan : Dbl ℚ).Inside 0 1 ∧ ¬ (pinf : Dbl ℚ).Inside 0 1 :=
  ⟨⟨1 / 2, rfl, by norm_num, by norm_num⟩, (fun ⟨_, h, _⟩ => by cases h), (fun ⟨_, h, _⟩ => by cases h)⟩
example : refineX (fin (0 : ℚ)) (fin 1) [fin (1 / 2), nan, fin (1 / 3)] (.ok 0) (fun _ => .ok 1) = (.error .assertion : Res ℕ) :=
  (C84_refine (0 : ℚ) 1 (by simp) _ _).2 (fun h => by
    obtain ⟨u, hu, -⟩ := h nan (by simp)
    cases hu)
example := C84_remap_fin 2 9 Ex.U (start := some 5) (stop := none) (by decide +kernel)
example := C84_remap_inf 2 9 Ex.U (by decide +kernel) (fin 0) pinf (Or.inl ⟨0, rfl, rfl⟩)

end Igakit
