import Verif.Proofs.ElevLoop
import Verif.Proofs.CurveSpec
import Verif.Props.Spans
import Verif.Spec.Elevate

/-!
# Degree elevation of a clamped curve
-/

set_option linter.unusedSectionVars false

namespace Igakit
open Spec Finset

variable {K : Type*} [Field K] [LinearOrder K] [IsStrictOrderedRing K]
variable {E : Type*} [AddCommGroup E] [Module K E]

/-- last position with the value `U j` -/
theorem exists_run_end {U : ℤ → K} {j m : ℤ} (hj : j ≤ m) (hs : ∀ i, j ≤ i → i < m → U i ≤ U (i + 1)) :
    ∃ k, j ≤ k ∧ k ≤ m ∧ (∀ i, j ≤ i → i ≤ k → U i = U k) ∧ (k < m → U k < U (k + 1)) := by
  obtain ⟨c, hc⟩ : ∃ c : ℕ, m - j = c := ⟨(m - j).toNat, by omega⟩
  induction c generalizing j with
  | zero => exact ⟨j, le_rfl, hj, fun i a b => by rw [show i = j by omega], fun h => by omega⟩
  | succ c ih =>
    push_cast at hc
    rcases (hs j le_rfl (by omega)).eq_or_lt with h | h
    · obtain ⟨k, k1, k2, k3, k4⟩ := ih (j := j + 1) (by omega) (fun i a b => hs i (by omega) b) (by omega)
      refine ⟨k, by omega, k2, ?_, k4⟩
      intro i a b
      by_cases e : i = j
      · rw [e, h]; exact k3 (j + 1) le_rfl k1
      · exact k3 i (by omega) b
    · exact ⟨j, le_rfl, hj, fun i a b => by rw [show i = j by omega], fun _ => h⟩

theorem exists_brk {n : ℤ} {p : ℕ} {U : ℤ → K} (hv : ValidKnots n p U) (hl : ClampedL p U) (hr : ClampedR n p U)
    (hm : MultLe n p U) : ∃ S a, Brk n p U S a := by
  have h1 := hv.one_le
  have h2 := hv.le
  have key : ∀ (c : ℕ) (j : ℤ), (p : ℤ) ≤ j → j ≤ n → U j < U (j + 1) → (n - j).toNat ≤ c →
      ∃ (S : ℕ) (a : ℕ → ℤ), 1 ≤ S ∧ a 0 = j ∧ a S = n + p + 1 ∧ (∀ s, s + 1 = S → a s = n) ∧
        (∀ s, s < S → a s < a (s + 1)) ∧
        (∀ s, s < S → ∀ j, a s < j → j ≤ a (s + 1) → U j = U (a (s + 1))) ∧
        (∀ s, s < S → U (a s) < U (a (s + 1))) ∧ (∀ s, s + 1 < S → a (s + 1) - a s ≤ p) := by
    intro c
    induction c with
    | zero =>
      intro j j1 j2 j3 j4
      have e : j = n := by omega
      subst e
      have hc : ∀ i, j + 1 ≤ i → i ≤ j + p + 1 → U i = U (j + p + 1) := by
        intro i i1 i2; rw [hr i i1 i2, hr (j + p + 1) (by omega) (by omega)]
      refine ⟨1, fun s => if s = 0 then j else j + p + 1, le_rfl, rfl, rfl, ?_, ?_, ?_, ?_, ?_⟩ <;> dsimp only
      · intro s hs; rw [if_pos (by omega)]
      · intro s hs; rw [if_pos (by omega), if_neg (by omega)]; omega
      · intro s hs i i1 i2
        rw [if_pos (by omega)] at i1; rw [if_neg (by omega)] at i2 ⊢
        exact hc i (by omega) i2
      · intro s hs; rw [if_pos (by omega), if_neg (by omega), ← hc (j + 1) le_rfl (by omega)]; exact j3
      · intro s hs; omega
    | succ c ih =>
      intro j j1 j2 j3 j4
      by_cases e : j = n
      · exact ih j j1 j2 j3 (by omega)
      obtain ⟨k, k1, k2, k3, k4⟩ := exists_run_end (U := U) (j := j + 1) (m := n + p + 1) (by omega)
        (fun i a b => hv.sorted i (i + 1) (by omega) (by omega) (by omega))
      have hkn : k ≤ n := by
        by_contra hc
        have a1 : U n = U k := k3 n (by omega) (by omega)
        have a2 := k3 (n + 1) (by omega) (by omega)
        have := hv.last
        rw [a1, a2] at this; exact lt_irrefl _ this
      have hk4 := k4 (by omega)
      obtain ⟨S, a, b1, b2, b3, b4, b5, b6, b7, b8⟩ := ih k (by omega) hkn hk4 (by omega)
      have hUk : U (j + 1) = U k := k3 (j + 1) le_rfl k1
      refine ⟨S + 1, fun s => if s = 0 then j else a (s - 1), by omega, rfl, ?_, ?_, ?_, ?_, ?_, ?_⟩ <;> dsimp only
      · rw [if_neg (by omega)]; exact b3
      · intro s hs
        rw [if_neg (by omega)]
        exact b4 (s - 1) (by omega)
      · intro s hs
        rcases Nat.eq_zero_or_pos s with h0 | h0
        · subst h0; rw [if_pos rfl, if_neg (by omega)]; simp only [zero_add, Nat.sub_self]; rw [b2]; omega
        · rw [if_neg (by omega), if_neg (by omega)]
          have := b5 (s - 1) (by omega)
          rw [show s - 1 + 1 = s by omega] at this
          exact this
      · intro s hs i i1 i2
        rcases Nat.eq_zero_or_pos s with h0 | h0
        · subst h0; rw [if_pos rfl] at i1; rw [if_neg (by omega)] at i2 ⊢
          simp only [zero_add, Nat.sub_self] at i2 ⊢
          rw [b2] at i2 ⊢
          exact k3 i (by omega) i2
        · rw [if_neg (by omega)] at i1 i2 ⊢
          have := b6 (s - 1) (by omega) i i1
          rw [show s - 1 + 1 = s by omega] at this
          exact this i2
      · intro s hs
        rcases Nat.eq_zero_or_pos s with h0 | h0
        · subst h0; rw [if_pos rfl, if_neg (by omega)]
          simp only [zero_add, Nat.sub_self]
          rw [b2, ← hUk]; exact j3
        · rw [if_neg (by omega), if_neg (by omega)]
          have := b7 (s - 1) (by omega)
          rw [show s - 1 + 1 = s by omega] at this
          exact this
      · intro s hs
        rcases Nat.eq_zero_or_pos s with h0 | h0
        · subst h0; rw [if_pos rfl, if_neg (by omega)]
          simp only [zero_add, Nat.sub_self]
          rw [b2]
          have hlt : U p < U k := lt_of_le_of_lt (hv.sorted _ _ (by omega) j1 (by omega)) (hUk ▸ j3)
          have hlt2 : U k < U (n + 1) := lt_of_lt_of_le hk4 (hv.sorted _ _ (by omega) (by omega) (by omega))
          have := hm (U k) hlt hlt2
          have hsub : Icc (j + 1) k ⊆ (Icc 0 (n + (p : ℤ) + 1)).filter (fun i => U i = U k) := by
            intro i hi
            rw [mem_Icc] at hi
            rw [mem_filter, mem_Icc]
            exact ⟨by omega, k3 i hi.1 hi.2⟩
          have := card_le_card hsub
          rw [Int.card_Icc] at this
          unfold mult at *
          omega
        · rw [if_neg (by omega), if_neg (by omega)]
          have := b8 (s - 1) (by omega)
          rw [show s - 1 + 1 = s by omega] at this
          exact this
  obtain ⟨S, a, b1, b2, b3, b4, b5, b6, b7, b8⟩ := key _ p le_rfl h2 hv.first le_rfl
  exact ⟨S, a, b1, b2, b3, b4, b5, hl, b6, b7, b8⟩

namespace Brk
variable {n : ℤ} {p : ℕ} {U : ℤ → K} {S : ℕ} {a : ℕ → ℤ} {P : ℤ → E} {f : ℕ → Multiset K → E} {t : ℕ}

theorem find_blk (H : Brk n p U S a) {k : ℤ} (h1 : (p : ℤ) < k) (h2 : k ≤ n + p + 1) :
    ∃ s, s < S ∧ a s < k ∧ k ≤ a (s + 1) := by
  have : ∀ S', S' ≤ S → k ≤ a S' → ∃ s, s < S' ∧ a s < k ∧ k ≤ a (s + 1) := by
    intro S'
    induction S' with
    | zero => intro _ h; rw [H.zero] at h; omega
    | succ S' ih =>
      intro hS h
      rcases lt_or_ge (a S') k with hc | hc
      · exact ⟨S', by omega, hc, h⟩
      · obtain ⟨s, s1, s2⟩ := ih (by omega) hc
        exact ⟨s, by omega, s2⟩
  exact this S le_rfl (by rw [H.last]; exact h2)

theorem break_iff (H : Brk n p U S a) {k : ℤ} (h1 : (p : ℤ) ≤ k) (h2 : k ≤ n) :
    U k ≠ U (k + 1) ↔ ∃ s, s < S ∧ k = a s := by
  constructor
  · intro hne
    rcases h1.eq_or_lt with h | h
    · exact ⟨0, H.pos, by rw [H.zero]; exact h.symm⟩
    · obtain ⟨s, s1, s2, s3⟩ := H.find_blk h (by omega)
      rcases s3.eq_or_lt with e | e
      · refine ⟨s + 1, ?_, e⟩
        by_contra hc
        have : s + 1 = S := by omega
        rw [this, H.last] at e; omega
      · exact absurd ((H.blk s s1 k s2 s3).trans (H.blk s s1 (k + 1) (by omega) (by omega)).symm) hne
  · rintro ⟨s, s1, rfl⟩
    exact (H.ne s1).ne

theorem spans_card (H : Brk n p U S a) (hv : ValidKnots n p U) : countSpans n p U = S := by
  rw [C32_countSpans, if_neg (fun h => absurd h.2 hv.last.ne), add_zero]
  have : (Icc (p : ℤ) n).filter (fun k => U k ≠ U (k + 1)) = (range S).image a := by
    ext k
    rw [mem_filter, mem_Icc, mem_image]
    constructor
    · rintro ⟨⟨b1, b2⟩, b3⟩
      obtain ⟨s, s1, s2⟩ := (H.break_iff b1 b2).mp b3
      exact ⟨s, mem_range.mpr s1, s2.symm⟩
    · rintro ⟨s, s1, rfl⟩
      rw [mem_range] at s1
      have := H.a_ge s1.le
      have := H.a_le s1
      exact ⟨by omega, (H.break_iff (by omega) (by omega)).mpr ⟨s, s1, rfl⟩⟩
  rw [this, card_image_of_injOn, card_range]
  intro x hx y hy hxy
  rw [coe_range, Set.mem_Iio] at hx hy
  rcases lt_trichotomy x y with h | h | h
  · have := H.ult h (by omega); rw [hxy] at this; exact absurd this (lt_irrefl _)
  · exact h
  · have := H.ult h (by omega); rw [hxy] at this; exact absurd this (lt_irrefl _)

/-- every knot is one of the breakpoints -/
theorem find_val (H : Brk n p U S a) {k : ℤ} (h1 : 0 ≤ k) (h2 : k ≤ n + p + 1) :
    ∃ s, s ≤ S ∧ U k = U (a s) := by
  rcases le_or_gt k p with h | h
  · exact ⟨0, by omega, by rw [H.zero]; exact H.blk0 k h1 h⟩
  · obtain ⟨s, s1, s2, s3⟩ := H.find_blk h h2
    exact ⟨s + 1, by omega, H.blk s s1 k s2 s3⟩

theorem val_inj (H : Brk n p U S a) {s s' : ℕ} (h : s ≤ S) (h' : s' ≤ S) (e : U (a s) = U (a s')) : s = s' := by
  rcases lt_trichotomy s s' with c | c | c
  · have := H.ult c h'; rw [e] at this; exact absurd this (lt_irrefl _)
  · exact c
  · have := H.ult c h; rw [e] at this; exact absurd this (lt_irrefl _)

theorem mult_zero (H : Brk n p U S a) (hn : -1 ≤ n) : Spec.mult U 0 (n + p + 1) (U (a 0)) = p + 1 := by
  unfold Spec.mult
  have : (Icc 0 (n + (p : ℤ) + 1)).filter (fun i => U i = U (a 0)) = Icc 0 (p : ℤ) := by
    ext k
    rw [mem_filter, mem_Icc, mem_Icc]
    constructor
    · rintro ⟨⟨b1, b2⟩, b3⟩
      refine ⟨b1, ?_⟩
      by_contra hc
      obtain ⟨s, s1, s2, s3⟩ := H.find_blk (k := k) (by omega) b2
      rw [H.blk s s1 k s2 s3] at b3
      have := H.val_inj (by omega) (by omega) b3
      omega
    · rintro ⟨b1, b2⟩
      refine ⟨by omega, ?_⟩
      rw [H.zero]; exact H.blk0 k b1 b2
  rw [this, Int.card_Icc]; omega

theorem mult_succ (H : Brk n p U S a) {s : ℕ} (h : s < S) :
    (Spec.mult U 0 (n + p + 1) (U (a (s + 1))) : ℤ) = a (s + 1) - a s := by
  unfold Spec.mult
  have hap := H.a_ge h.le
  have haS : a (s + 1) ≤ n + p + 1 := by
    have := H.le (s := s + 1) (s' := S) (by omega) le_rfl
    rw [H.last] at this; omega
  have : (Icc 0 (n + (p : ℤ) + 1)).filter (fun i => U i = U (a (s + 1))) = Ioc (a s) (a (s + 1)) := by
    ext k
    rw [mem_filter, mem_Icc, mem_Ioc]
    constructor
    · rintro ⟨⟨b1, b2⟩, b3⟩
      rcases le_or_gt k p with hk | hk
      · rw [H.blk0 k b1 hk, ← H.zero] at b3
        have := H.val_inj (by omega) (by omega) b3
        omega
      · obtain ⟨s', s1, s2, s3⟩ := H.find_blk hk b2
        rw [H.blk s' s1 k s2 s3] at b3
        have := H.val_inj (by omega) (by omega) b3
        obtain rfl : s' = s := by omega
        exact ⟨s2, s3⟩
    · rintro ⟨b1, b2⟩
      exact ⟨by omega, H.blk s h k b1 b2⟩
  have hmo := H.mono s h
  rw [this, Int.card_Ioc]; omega

theorem find_kz (H : Brk n p U S a) (t : ℕ) {i : ℤ} (h1 : 0 ≤ i) :
    ∃ s, s ≤ S ∧ kz a t s ≤ i ∧ (s < S → i < kz a t (s + 1)) := by
  have : ∀ S', S' ≤ S → ∃ s, s ≤ S' ∧ kz a t s ≤ i ∧ (s < S' → i < kz a t (s + 1)) := by
    intro S'
    induction S' with
    | zero => intro _; exact ⟨0, le_rfl, h1, fun h => absurd h (lt_irrefl _)⟩
    | succ S' ih =>
      intro hS
      rcases lt_or_ge i (kz a t (S' + 1)) with hc | hc
      · obtain ⟨s, s1, s2, s3⟩ := ih (by omega)
        refine ⟨s, by omega, s2, ?_⟩
        intro _
        rcases s1.eq_or_lt with e | e
        · rw [e]; exact hc
        · exact s3 e
      · exact ⟨S' + 1, le_rfl, hc, fun h => absurd h (lt_irrefl _)⟩
  exact this S le_rfl

theorem elvK_sorted (H : Brk n p U S a) (t : ℕ) (lo hi : ℤ) : SortedOn (elvK U a S t) lo hi := by
  intro i j _ hij _
  unfold elvK
  have h1 : #{s ∈ range S | kz a t (s + 1) ≤ i} ≤ #{s ∈ range S | kz a t (s + 1) ≤ j} := by
    apply card_le_card
    intro x hx
    rw [mem_filter] at hx ⊢
    exact ⟨hx.1, by omega⟩
  have h2 : #{s ∈ range S | kz a t (s + 1) ≤ j} ≤ S := by
    have := card_filter_le (range S) (fun s => kz a t (s + 1) ≤ j)
    rwa [card_range] at this
  rcases h1.eq_or_lt with e | e
  · rw [e]
  · exact (H.ult e h2).le

theorem kz_S (H : Brk n p U S a) (t : ℕ) : kz a t S = n + t * S + 1 := by
  obtain ⟨S', rfl⟩ : ∃ S', S = S' + 1 := ⟨S - 1, by have := H.pos; omega⟩
  simp only [kz]
  rw [H.prev S' rfl]; push_cast; ring

theorem elvK_valid (H : Brk n p U S a) (hv : ValidKnots n p U) (t : ℕ) :
    ValidKnots (n + t * S) ((p + t : ℕ) : ℤ) (elvK U a S t) := by
  have h1 := hv.one_le
  have h2 := hv.le
  have hS := H.pos
  have hkS := H.kz_S t
  have hk1 := H.kz_zero_one t
  have k0 : kz a t 0 = 0 := rfl
  refine ⟨by push_cast; omega, ?_, H.elvK_sorted t _ _, ?_, ?_⟩
  · have : (t : ℤ) * 1 ≤ t * S := by
      apply mul_le_mul_of_nonneg_left _ (by omega); exact_mod_cast hS
    push_cast; omega
  · rw [H.elvK_eq t (s := 0) (by omega) (by omega) (fun _ => by show _ < kz a t 1; push_cast; omega),
      H.elvK_eq t (s := 1) (by omega) (by push_cast; omega) (fun h => ?_)]
    · exact H.lt 0 (by omega)
    · have := H.kz_step t (s := 0) (by omega)
      rw [zero_add] at this
      have e2 : kz a t (1 + 1) = kz a t 2 := rfl
      rw [e2] at this ⊢
      push_cast; omega
  · obtain ⟨S', rfl⟩ : ∃ S', S = S' + 1 := ⟨S - 1, by omega⟩
    rw [H.elvK_eq t (s := S' + 1) (i := n + t * (S' + 1 : ℕ) + 1) le_rfl (by omega)
        (fun h => absurd h (lt_irrefl _)),
      H.elvK_eq t (s := S') (by omega) ?_ (fun _ => by omega)]
    · exact H.lt S' (by omega)
    · rcases Nat.eq_zero_or_pos S' with h0 | h0
      · subst h0
        rw [k0]; rw [show 0 + 1 = 1 from rfl] at hkS; omega
      · obtain ⟨S'', rfl⟩ : ∃ S'', S' = S'' + 1 := ⟨S' - 1, by omega⟩
        have := H.kz_step t (s := S'') (by omega)
        omega

theorem elvK_mult (H : Brk n p U S a) (hn : -1 ≤ n) (t : ℕ) {s : ℕ} (h : s ≤ S) :
    Spec.mult (elvK U a S t) 0 (n + t * S + ((p + t : ℕ) : ℤ) + 1) (U (a s)) = Spec.mult U 0 (n + p + 1) (U (a s)) + t := by
  have hkS := H.kz_S t
  have hS := H.pos
  have hk1 := H.kz_zero_one t
  have k0 : kz a t 0 = 0 := rfl
  have hk0 : ∀ s, s ≤ S → 0 ≤ kz a t s := fun s h => by rw [← k0]; exact H.kz_mono t (by omega) h
  have key : ∀ i, 0 ≤ i → (elvK U a S t i = U (a s) ↔ kz a t s ≤ i ∧ (s < S → i < kz a t (s + 1))) := by
    intro i hi
    constructor
    · intro he
      obtain ⟨s', b1, b2, b3⟩ := H.find_kz t hi
      rw [H.elvK_eq t b1 b2 b3] at he
      have := H.val_inj b1 h he
      subst this
      exact ⟨b2, b3⟩
    · rintro ⟨b2, b3⟩; exact H.elvK_eq t h b2 b3
  rcases h.eq_or_lt with e | e
  · have e2 : (Icc 0 (n + t * S + ((p + t : ℕ) : ℤ) + 1)).filter (fun i => elvK U a S t i = U (a s)) =
        Icc (kz a t S) (n + t * S + ((p + t : ℕ) : ℤ) + 1) := by
      ext i
      rw [mem_filter, mem_Icc, mem_Icc]
      have := hk0 S le_rfl
      constructor
      · rintro ⟨⟨c1, c2⟩, c3⟩
        have := (key i c1).mp c3
        rw [e] at this
        exact ⟨this.1, c2⟩
      · rintro ⟨c1, c2⟩
        exact ⟨⟨by omega, c2⟩, (key i (by omega)).mpr ⟨by rw [e]; exact c1, fun h => absurd h (by omega)⟩⟩
    have e3 : (Spec.mult U 0 (n + p + 1) (U (a s)) : ℤ) = p + 1 := by
      obtain ⟨S', rfl⟩ : ∃ S', S = S' + 1 := ⟨S - 1, by omega⟩
      rw [e, H.mult_succ (by omega), H.last, H.prev S' rfl]; ring
    have : Spec.mult (elvK U a S t) 0 (n + t * S + ((p + t : ℕ) : ℤ) + 1) (U (a s)) = p + t + 1 := by
      unfold Spec.mult
      rw [e2, Int.card_Icc, hkS]; omega
    rw [this]; omega
  · have hle : kz a t (s + 1) ≤ kz a t S := H.kz_mono t (by omega) le_rfl
    have e2 : (Icc 0 (n + t * S + ((p + t : ℕ) : ℤ) + 1)).filter (fun i => elvK U a S t i = U (a s)) =
        Ico (kz a t s) (kz a t (s + 1)) := by
      ext i
      rw [mem_filter, mem_Icc, mem_Ico]
      have := hk0 s h
      constructor
      · rintro ⟨⟨c1, c2⟩, c3⟩
        have := (key i c1).mp c3
        exact ⟨this.1, this.2 e⟩
      · rintro ⟨c1, c2⟩
        exact ⟨⟨by omega, by omega⟩, (key i (by omega)).mpr ⟨c1, fun _ => c2⟩⟩
    unfold Spec.mult
    rw [e2, Int.card_Ico]
    cases s with
    | zero =>
      have := H.mult_zero hn
      unfold Spec.mult at this
      rw [this, k0, zero_add, hk1]; omega
    | succ s =>
      have h3 := H.mult_succ (s := s) (by omega)
      unfold Spec.mult at h3
      rw [show s + 1 + 1 = s + 2 from rfl, kz_succ]
      omega

/-- the whole routine -/
theorem elevate (H : Brk n p U S a) (hv : ValidKnots n p U) (hok : ElevOK p t S a) (ht : 1 ≤ t) {eps : K}
    (he : 0 ≤ eps) (hsep : ∀ s, s < S → eps < |U (a s) - U (a s + 1)|) (jk : ℤ → K) (je : ℤ → E)
    (jb : ℤ → ℤ → K) (P : ℤ → E) :
    (∀ i, 0 ≤ i → i ≤ n + t * S + (p + t : ℕ) + 1 →
      (degreeElevate eps jk je jb n p U P t).1 i = elvK U a S t i) ∧
    ∀ u, U p ≤ u → u ≤ U (n + 1) →
      curve (n + t * S) (p + t) (elvK U a S t) (degreeElevate eps jk je jb n p U P t).2 u = curve n p U P u := by
  have h1 := hv.one_le
  have h2 := hv.le
  have hS := H.pos
  have hkS := H.kz_S t
  have hk1 := H.kz_zero_one t
  have k0 : kz a t 0 = 0 := rfl
  obtain ⟨f, Hf⟩ := H.exists_forms hv.sorted P
  have hSn : S ≤ (n + p + 1).toNat := by
    have := H.a_ge (s := S) le_rfl
    rw [H.last] at this; omega
  have head : Head p U P S a t f 0
      { a := p, b := p + 1, r := -1, kind := (p + t : ℤ) + 1, cind := 1, ua := U p,
        Uh := fillRange jk 0 (p + t : ℤ) 0 (fun _ => U p), Qw := upd je 0 (P 0),
        bpts := fillRange je 0 p 0 P, ebpts := je, nextbpts := je, alfs := jk } := by
    refine ⟨by rw [H.zero], by rw [H.zero], rfl, by rw [H.zero], ?_, ?_, ?_⟩
    · intro i i1 i2
      dsimp only at i2 ⊢
      rw [fillRange_in _ _ _ _ _ (by omega) (by omega), H.elvK_eq t (s := 0) (by omega) (by omega)
        (fun _ => by show _ < kz a t 1; omega), H.zero]
    · intro k k1' k2
      dsimp only
      rw [fillRange_in _ _ _ _ _ (by omega) (by omega), sub_zero,
        Hf.rep 0 (by omega) k (by rw [H.zero]; omega) (by rw [H.zero]; omega)]
      congr 1
      rw [show p = ((p : ℤ) - k).toNat + k.toNat by omega, kn_add]
      congr 1
      · rw [kn_const (x := U (a 0)) (fun l l1 l2 => by rw [H.zero]; exact H.blk0 _ (by omega) (by omega))]
        congr 1; omega
      · congr 1; rw [H.zero]; omega
    · refine ⟨rfl, ?_, ?_⟩
      · exact upd_same je 0 (P 0)
      · exact hk1.symm
  obtain ⟨g1, g2⟩ := H.loop hv.sorted Hf hok (by omega) ht he hsep jb _ 0 _ (by omega) (by omega) head
  have hdef : degreeElevate eps jk je jb n p U P t =
      ((elevLoop eps (elevBez jb p t) n p t U P (n + p + 1).toNat
      { a := p, b := p + 1, r := -1, kind := (p + t : ℤ) + 1, cind := 1, ua := U p,
        Uh := fillRange jk 0 (p + t : ℤ) 0 (fun _ => U p), Qw := upd je 0 (P 0),
        bpts := fillRange je 0 p 0 P, ebpts := je, nextbpts := je, alfs := jk }).Uh,
      (elevLoop eps (elevBez jb p t) n p t U P (n + p + 1).toNat
      { a := p, b := p + 1, r := -1, kind := (p + t : ℤ) + 1, cind := 1, ua := U p,
        Uh := fillRange jk 0 (p + t : ℤ) 0 (fun _ => U p), Qw := upd je 0 (P 0),
        bpts := fillRange je 0 p 0 P, ebpts := je, nextbpts := je, alfs := jk }).Qw) := by
    unfold degreeElevate
    rw [if_neg (by omega)]
  rw [hdef]
  refine ⟨fun i i1 i2 => g1 i i1 (by push_cast at i2; omega), ?_⟩
  intro u u1 u2
  dsimp only
  generalize (elevLoop eps (elevBez jb p t) n p t U P (n + p + 1).toNat
      { a := p, b := p + 1, r := -1, kind := (p + t : ℤ) + 1, cind := 1, ua := U p,
        Uh := fillRange jk 0 (p + t : ℤ) 0 (fun _ => U p), Qw := upd je 0 (P 0),
        bpts := fillRange je 0 p 0 P, ebpts := je, nextbpts := je, alfs := jk }).Qw = Q at g2
  have hlt : U p < U (n + 1) := lt_of_lt_of_le hv.first (hv.sorted _ _ (by omega) (by omega) (by omega))
  obtain ⟨k, hk⟩ := SpanOf.exists' hv.sorted hlt h2 u1 u2
  obtain ⟨s, s1, rfl⟩ := (H.break_iff hk.lo hk.hi).mp hk.ne.ne
  have hvE := H.elvK_valid hv t
  have hmo := H.mono s s1
  have hks : kz a t s + 1 ≤ kz a t (s + 1) := by
    rcases Nat.eq_zero_or_pos s with h0 | h0
    · subst h0; rw [zero_add, k0]; omega
    · obtain ⟨s', rfl⟩ : ∃ s', s = s' + 1 := ⟨s - 1, by omega⟩
      have := H.kz_step t (s := s') (by omega); omega
  have hks1 : kz a t 1 ≤ kz a t (s + 1) := H.kz_mono t (by omega) (by omega)
  have hks2 : kz a t (s + 1) ≤ kz a t S := H.kz_mono t (by omega) le_rfl
  have e1 : elvK U a S t (kz a t (s + 1) - 1) = U (a s) :=
    H.elvK_eq t (by omega) (by omega) (fun _ => by omega)
  have e2 : elvK U a S t (kz a t (s + 1)) = U (a (s + 1)) :=
    H.elvK_eq t (by omega) le_rfl (fun h => by
      have := H.kz_step t (s := s) s1; omega)
  have e3 : elvK U a S t (n + t * S + 1) = U (n + 1) := by
    rw [← hkS, H.elvK_eq t le_rfl le_rfl (fun h => absurd h (lt_irrefl _))]
    obtain ⟨S', rfl⟩ : ∃ S', S = S' + 1 := ⟨S - 1, by omega⟩
    rw [H.blk S' (by omega) (n + 1) (by rw [H.prev S' rfl]; omega) (by rw [H.last]; omega)]
  have e4 : U (a s + 1) = U (a (s + 1)) := H.blk s s1 _ (by omega) (by omega)
  have hk' : SpanOf (n + t * S) (p + t) (elvK U a S t) (kz a t (s + 1) - 1) u := by
    refine ⟨by push_cast; omega, by omega, ?_⟩
    rw [sub_add_cancel, e1, e2, e3, ← e4]
    exact hk.mem
  rw [hk.curve_form hv.sorted (Hf.form s s1) (Hf.rep s s1),
    hk'.curve_form hvE.sorted (elv_form (ph := p + t) (Hf.form s s1)) ?_, elv_diag (by omega)]
  intro i i1 i2
  push_cast at i1
  rw [g2 i (by omega) (by omega) s (by omega) (by omega) (by omega)]
  congr 1
  apply kn_congr
  intro l l1 l2
  rcases lt_or_ge (i + l) (kz a t S) with hc | hc
  · exact elvT_lt t S hc
  · rw [elvT_ge t S hc, H.elvK_eq t le_rfl hc (fun h => absurd h (lt_irrefl _))]

end Brk

end Igakit
