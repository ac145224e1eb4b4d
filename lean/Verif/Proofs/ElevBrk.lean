import Verif.Proofs.ElevRem

/-!
# Breakpoints, the elevated knot vector and the forms of the spans
-/

set_option linter.unusedSectionVars false

namespace Igakit
open Spec Finset

variable {K : Type*} [Field K] [LinearOrder K] [IsStrictOrderedRing K]
variable {E : Type*} [AddCommGroup E] [Module K E]

/-- `a 0 < ... < a S` are the last positions of the distinct knots of a clamped vector -/
structure Brk (n : ℤ) (p : ℕ) (U : ℤ → K) (S : ℕ) (a : ℕ → ℤ) : Prop where
  pos : 1 ≤ S
  zero : a 0 = p
  last : a S = n + p + 1
  prev : ∀ s, s + 1 = S → a s = n
  mono : ∀ s, s < S → a s < a (s + 1)
  blk0 : ∀ j, 0 ≤ j → j ≤ (p : ℤ) → U j = U p
  blk : ∀ s, s < S → ∀ j, a s < j → j ≤ a (s + 1) → U j = U (a (s + 1))
  lt : ∀ s, s < S → U (a s) < U (a (s + 1))
  mult : ∀ s, s + 1 < S → a (s + 1) - a s ≤ p

/-- first position of the `s`-th distinct knot in the elevated vector -/
def kz (a : ℕ → ℤ) (t : ℕ) : ℕ → ℤ
  | 0 => 0
  | s + 1 => a s + t * (s + 1) + 1

/-- the elevated knot vector -/
def elvK (U : ℤ → K) (a : ℕ → ℤ) (S t : ℕ) (i : ℤ) : K :=
  U (a #{s ∈ range S | kz a t (s + 1) ≤ i})

/-- the elevated knot vector up to its `s`-th knot, which is repeated for ever -/
def elvT (U : ℤ → K) (a : ℕ → ℤ) (S t s : ℕ) (i : ℤ) : K :=
  if i < kz a t s then elvK U a S t i else U (a s)

namespace Brk
variable {n : ℤ} {p : ℕ} {U : ℤ → K} {S : ℕ} {a : ℕ → ℤ}

theorem le (H : Brk n p U S a) {s s' : ℕ} (h : s ≤ s') (h' : s' ≤ S) : a s + (s' - s : ℕ) ≤ a s' := by
  obtain ⟨c, rfl⟩ := Nat.exists_eq_add_of_le h
  induction c with
  | zero => simp
  | succ c ih =>
    have := ih (by omega) (by omega)
    have := H.mono (s + c) (by omega)
    rw [← add_assoc] at *
    push_cast at *
    have e1 : s + c - s = c := by omega
    have e2 : s + c + 1 - s = c + 1 := by omega
    rw [e1] at *; rw [e2]; push_cast; omega

theorem ult (H : Brk n p U S a) {s s' : ℕ} (h : s < s') (h' : s' ≤ S) : U (a s) < U (a s') := by
  obtain ⟨c, rfl⟩ := Nat.exists_eq_add_of_lt h
  induction c with
  | zero => exact H.lt s (by omega)
  | succ c ih => exact (ih (by omega) (by omega)).trans (H.lt (s + c + 1) (by omega))

theorem kz_step (H : Brk n p U S a) (t : ℕ) {s : ℕ} (h : s < S) :
    kz a t (s + 1) + 1 + t ≤ kz a t (s + 1 + 1) := by
  have := H.mono s h
  simp only [kz]; push_cast; linarith

theorem kz_zero_one (H : Brk n p U S a) (t : ℕ) : kz a t 1 = p + t + 1 := by
  simp [kz, H.zero]

theorem kz_mono (H : Brk n p U S a) (t : ℕ) {s s' : ℕ} (h : s ≤ s') (h' : s' ≤ S) :
    kz a t s ≤ kz a t s' := by
  obtain ⟨c, rfl⟩ := Nat.exists_eq_add_of_le h
  induction c with
  | zero => simp
  | succ c ih =>
    have hi := ih (by omega) (by omega)
    rcases Nat.eq_zero_or_pos (s + c) with h0 | h0
    · have : kz a t 0 = 0 := rfl
      have := H.kz_zero_one t
      have e : s = 0 := by omega
      have e2 : c = 0 := by omega
      subst e; subst e2; simp at *; omega
    · obtain ⟨d, hd⟩ : ∃ d, s + c = d + 1 := ⟨s + c - 1, by omega⟩
      have := H.kz_step t (s := d) (by omega)
      rw [hd] at hi; rw [← add_assoc, hd]; omega

theorem elvK_eq (H : Brk n p U S a) (t : ℕ) {s : ℕ} (hs : s ≤ S) {i : ℤ} (h1 : kz a t s ≤ i)
    (h2 : s < S → i < kz a t (s + 1)) : elvK U a S t i = U (a s) := by
  unfold elvK
  have : {x ∈ range S | kz a t (x + 1) ≤ i} = range s := by
    ext x
    rw [mem_filter, mem_range, mem_range]
    constructor
    · rintro ⟨b1, b2⟩
      by_contra hc
      have := H.kz_mono t (s := s + 1) (s' := x + 1) (by omega) (by omega)
      have := h2 (by omega)
      omega
    · intro b
      refine ⟨by omega, le_trans (H.kz_mono t (by omega) hs) h1⟩
  rw [this, card_range]

theorem elvT_lt (t s : ℕ) {i : ℤ} (h : i < kz a t s) : elvT U a S t s i = elvK U a S t i := by
  unfold elvT; rw [if_pos h]

theorem elvT_ge (t s : ℕ) {i : ℤ} (h : kz a t s ≤ i) : elvT U a S t s i = U (a s) := by
  unfold elvT; rw [if_neg (by omega)]

/-- block of the `s`-th knot in the elevated vector stopped at `s'` -/
theorem elvT_blk (H : Brk n p U S a) (t : ℕ) {s s' : ℕ} (h : s < s') (hs : s' ≤ S) {i : ℤ} (h1 : kz a t s ≤ i)
    (h2 : i < kz a t (s + 1)) : elvT U a S t s' i = U (a s) := by
  rw [elvT_lt t s' (lt_of_lt_of_le h2 (H.kz_mono t (by omega) hs)), H.elvK_eq t (by omega) h1 (fun _ => h2)]

end Brk

theorem kn_split3 {U W : ℤ → K} {i : ℤ} {x y z c : ℕ} {u v : K} (hc : c = x + (y + z))
    (h1 : ∀ l : ℤ, 1 ≤ l → l ≤ x → U (i + l) = W (i + l))
    (h2 : ∀ l : ℤ, x < l → l ≤ x + y → U (i + l) = u)
    (h3 : ∀ l : ℤ, x + y < l → l ≤ x + y + z → U (i + l) = v) :
    kn U i c = kn W i x + (Multiset.replicate y u + Multiset.replicate z v) := by
  rw [hc, kn_add, kn_add]
  congr 1
  · exact kn_congr h1
  congr 1
  · exact kn_const (fun l a b => by rw [add_assoc]; exact h2 _ (by omega) (by omega))
  · exact kn_const (fun l a b => by
      rw [add_assoc, add_assoc]
      exact h3 _ (by omega) (by omega))

theorem replicate_le_kn {U : ℤ → K} {i : ℤ} {c m : ℕ} {v : K} {lo : ℤ} (h1 : i ≤ lo) (h2 : lo + m ≤ i + c)
    (h : ∀ j, lo < j → j ≤ lo + m → U j = v) : Multiset.replicate m v ≤ kn U i c := by
  have e : c = (lo - i).toNat + (m + (i + c - lo - m).toNat) := by omega
  rw [e, kn_add, kn_add]
  have : kn U (i + (lo - i).toNat) m = Multiset.replicate m v :=
    kn_const (fun l a b => h _ (by omega) (by omega))
  rw [this]
  exact le_trans (Multiset.le_add_right _ _) (Multiset.le_add_left _ _)

/-- the forms of the spans of a curve -/
structure Forms (n : ℤ) (p : ℕ) (U : ℤ → K) (P : ℤ → E) (S : ℕ) (a : ℕ → ℤ) (f : ℕ → Multiset K → E) : Prop where
  form : ∀ s, s < S → IsForm p (f s)
  rep : ∀ s, s < S → Rep p U P (a s - p) (a s) (f s)

namespace Brk
variable {n : ℤ} {p : ℕ} {U : ℤ → K} {S : ℕ} {a : ℕ → ℤ} {P : ℤ → E} {f : ℕ → Multiset K → E}

theorem a_ge (H : Brk n p U S a) {s : ℕ} (h : s ≤ S) : (p : ℤ) + s ≤ a s := by
  have := H.le (Nat.zero_le s) h
  rw [H.zero] at this; simpa using this

theorem a_le (H : Brk n p U S a) {s : ℕ} (h : s < S) : a s ≤ n := by
  obtain ⟨S', rfl⟩ : ∃ S', S = S' + 1 := ⟨S - 1, by omega⟩
  have := H.le (s := s) (s' := S') (by omega) (by omega)
  rw [H.prev S' rfl] at this; omega

theorem ne (H : Brk n p U S a) {s : ℕ} (h : s < S) : U (a s) < U (a s + 1) := by
  have := H.mono s h
  rw [H.blk s h (a s + 1) (by omega) (by omega)]; exact H.lt s h

theorem win (H : Brk n p U S a) (hs : SortedOn U 0 (n + p + 1)) {s : ℕ} (h : s < S) : Win U (a s) p :=
  Win.of_sorted hs (H.ne h) (by have := H.a_ge (s := s) h.le; omega) (by have := H.a_le h; omega)

theorem exists_forms (H : Brk n p U S a) (hs : SortedOn U 0 (n + p + 1)) (P : ℤ → E) :
    ∃ f : ℕ → Multiset K → E, Forms n p U P S a f := by
  have : ∀ s : ℕ, ∃ f : Multiset K → E, s < S → IsForm p f ∧ Rep p U P (a s - p) (a s) f := by
    intro s
    by_cases h : s < S
    · obtain ⟨f, h1, h2⟩ := exists_form P (H.win hs h)
      exact ⟨f, fun _ => ⟨h1, h2⟩⟩
    · exact ⟨fun _ => 0, fun h' => absurd h' h⟩
  choose f hf using this
  exact ⟨f, fun s h => (hf s h).1, fun s h => (hf s h).2⟩

theorem agree (H : Brk n p U S a) (hs : SortedOn U 0 (n + p + 1)) (Hf : Forms n p U P S a f) {s : ℕ}
    (h : s + 1 < S) (m : Multiset K) (hm : m.card + (a (s + 1) - a s).toNat = p) :
    f s (m + Multiset.replicate (a (s + 1) - a s).toNat (U (a (s + 1)))) =
      f (s + 1) (m + Multiset.replicate (a (s + 1) - a s).toNat (U (a (s + 1)))) := by
  have hmul := H.mult s h
  have hmo := H.mono s (by omega)
  have e : kn U (a s) (a (s + 1) - a s).toNat =
      Multiset.replicate (a (s + 1) - a s).toNat (U (a (s + 1))) :=
    kn_const (fun l c d => H.blk s (by omega) _ (by omega) (by omega))
  rw [← e]
  exact form_agree (Hf.form s (by omega)) (Hf.form (s + 1) h) hmo.le (by omega) (H.win hs (by omega))
    (H.win hs h) (Hf.rep s (by omega)) (Hf.rep (s + 1) h) hm

/-- the elevated forms of two spans agree on the knots of a window common to both -/
theorem agreeT (H : Brk n p U S a) (hs : SortedOn U 0 (n + p + 1)) (Hf : Forms n p U P S a f) (t : ℕ)
    {s0 s1 : ℕ} (h01 : s0 ≤ s1) (h1 : s1 < S) {T : ℤ → K} {i : ℤ}
    (hi1 : kz a t (s1 + 1) - 1 - (p + t) ≤ i) (hi0 : i ≤ kz a t (s0 + 1) - 1)
    (hT : ∀ s, s0 < s → s ≤ s1 → ∀ j, kz a t s ≤ j → j < kz a t (s + 1) → T j = U (a s)) :
    elv (p + t) p (f s0) (kn T i (p + t)) = elv (p + t) p (f s1) (kn T i (p + t)) := by
  obtain ⟨c, rfl⟩ := Nat.exists_eq_add_of_le h01
  induction c with
  | zero => rfl
  | succ c ih =>
    have hk := H.kz_mono t (s := s0 + c + 1) (s' := s0 + (c + 1) + 1) (by omega)
    have hmo := H.mono (s0 + c) (by omega)
    have hk1 := H.kz_mono t (s := s0 + 1) (s' := s0 + c + 1) (by omega) (by omega)
    have hst : kz a t (s0 + c + 1 + 1) = kz a t (s0 + c + 1) + (a (s0 + c + 1) - a (s0 + c)) + t := by
      simp only [kz]; push_cast; ring
    rw [ih (by omega) (by omega) (by rw [← add_assoc] at hi1; omega)
      (fun s b1 b2 => hT s b1 (by omega))]
    rw [← add_assoc] at hi1 ⊢
    apply elv_agree (c := (a (s0 + c + 1) - a (s0 + c)).toNat) (v := U (a (s0 + c + 1)))
      (H.agree hs Hf (by omega)) (card_kn _ _ _)
    apply replicate_le_kn (lo := kz a t (s0 + c + 1) - 1) (by omega) (by push_cast; omega)
    intro j j1 j2
    exact hT (s0 + c + 1) (by omega) (by omega) j (by omega) (by push_cast at j2; omega)

end Brk

end Igakit
