import Verif.Proofs.Basis
import Mathlib.Tactic.Module
import Mathlib.Data.Multiset.Replicate
import Mathlib.Data.Multiset.Range
import Mathlib.Algebra.Order.Field.Basic
import Mathlib.Algebra.BigOperators.Ring.Finset
import Mathlib.Algebra.Module.BigOperators

/-!
# Blossoms (polar forms)

`IsForm p f`: `f` is a symmetric multiaffine function of `p` arguments, given as a function of the
multiset of its arguments.
-/

set_option linter.unusedSectionVars false

namespace Igakit
open Spec

variable {K : Type*} [Field K] [LinearOrder K]
variable {E : Type*} [AddCommGroup E] [Module K E]

/-- symmetric multiaffine form of degree `p` -/
def IsForm (p : ℕ) (f : Multiset K → E) : Prop :=
  ∀ m : Multiset K, m.card + 1 = p → ∀ a s t : K,
    f (((1 - a) * s + a * t) ::ₘ m) = (1 - a) • f (s ::ₘ m) + a • f (t ::ₘ m)

/-- the `c` consecutive knots `U(i+1), ..., U(i+c)` -/
def kn (U : ℤ → K) (i : ℤ) (c : ℕ) : Multiset K :=
  (Multiset.range c).map (fun j : ℕ => U (i + 1 + j))

@[simp] theorem kn_zero (U : ℤ → K) (i : ℤ) : kn U i 0 = 0 := rfl

theorem kn_succ_last (U : ℤ → K) (i : ℤ) (c : ℕ) : kn U i (c + 1) = U (i + 1 + c) ::ₘ kn U i c := by
  simp [kn, Multiset.range_succ]

@[simp] theorem card_kn (U : ℤ → K) (i : ℤ) (c : ℕ) : (kn U i c).card = c := by
  simp [kn]

theorem kn_congr {U V : ℤ → K} {i j : ℤ} {c : ℕ}
    (h : ∀ l : ℤ, 1 ≤ l → l ≤ c → U (i + l) = V (j + l)) : kn U i c = kn V j c := by
  induction c with
  | zero => rfl
  | succ c ih =>
    rw [kn_succ_last, kn_succ_last, ih (fun l a b => h l a (by push_cast; omega))]
    have := h (1 + c) (by omega) (by push_cast; omega)
    rw [← add_assoc, ← add_assoc] at this
    rw [this]

theorem kn_add (U : ℤ → K) (i : ℤ) (a b : ℕ) : kn U i (a + b) = kn U i a + kn U (i + a) b := by
  induction b with
  | zero => simp
  | succ b ih =>
    rw [← add_assoc, kn_succ_last, ih, kn_succ_last, Multiset.add_cons]
    congr 2; push_cast; ring

theorem kn_succ_first (U : ℤ → K) (i : ℤ) (c : ℕ) :
    kn U i (c + 1) = U (i + 1) ::ₘ kn U (i + 1) c := by
  rw [add_comm, kn_add]
  simp [kn_succ_last]

theorem kn_const {U : ℤ → K} {i : ℤ} {c : ℕ} {x : K}
    (h : ∀ l : ℤ, 1 ≤ l → l ≤ c → U (i + l) = x) : kn U i c = Multiset.replicate c x := by
  induction c with
  | zero => rfl
  | succ c ih =>
    rw [kn_succ_last, ih (fun l a b => h l a (by push_cast; omega)), Multiset.replicate_succ]
    have := h (1 + c) (by omega) (by push_cast; omega)
    rw [← add_assoc] at this
    rw [this]

/-- de Boor's triangle with arbitrary arguments (most recently consumed argument first) -/
def db (U : ℤ → K) (P : ℤ → E) (p : ℕ) : List K → ℤ → E
  | [], i => P i
  | t :: ts, i =>
    (U (i + p - ts.length) - U i)⁻¹ •
      ((t - U i) • db U P p ts i + (U (i + p - ts.length) - t) • db U P p ts (i - 1))

/-- the knots left and right of span `k` that enter degree `p` formulas are distinct -/
def Win (U : ℤ → K) (k : ℤ) (p : ℕ) : Prop :=
  ∀ i j, k - p < i → i ≤ k → k < j → j ≤ k + p → U i < U j

theorem Win.of_sorted {U : ℤ → K} {lo hi k : ℤ} {p : ℕ} (hs : SortedOn U lo hi)
    (hne : U k < U (k + 1)) (h1 : lo ≤ k - p + 1) (h2 : k + p ≤ hi) : Win U k p := by
  intro i j a b c d
  exact lt_of_le_of_lt (hs i k (by omega) b (by omega))
    (lt_of_lt_of_le hne (hs (k + 1) j (by omega) (by omega) (by omega)))

theorem Win.sub_ne {U : ℤ → K} {k : ℤ} {p : ℕ} (h : Win U k p) [IsStrictOrderedRing K] {i j : ℤ}
    (a : k - p < i) (b : i ≤ k)
    (c : k < j) (d : j ≤ k + p) : U j - U i ≠ 0 :=
  sub_ne_zero.mpr (ne_of_gt (h i j a b c d))

theorem db_cons (U : ℤ → K) (P : ℤ → E) (p : ℕ) (t : K) (ts : List K) (i : ℤ) :
    db U P p (t :: ts) i = (U (i + p - ts.length) - U i)⁻¹ •
      ((t - U i) • db U P p ts i + (U (i + p - ts.length) - t) • db U P p ts (i - 1)) := rfl

theorem swap_scalars {a b c d t t' : K} (h1 : d - b ≠ 0) (h2 : c - a ≠ 0) (h3 : c - b ≠ 0)
    (A B C : E) :
    (c - b)⁻¹ • ((t - b) • ((d - b)⁻¹ • ((t' - b) • A + (d - t') • B)) +
      (c - t) • ((c - a)⁻¹ • ((t' - a) • B + (c - t') • C))) =
    (c - b)⁻¹ • ((t' - b) • ((d - b)⁻¹ • ((t - b) • A + (d - t) • B)) +
      (c - t') • ((c - a)⁻¹ • ((t - a) • B + (c - t) • C))) := by
  match_scalars
  · field_simp
  · field_simp; ring
  · field_simp

variable [IsStrictOrderedRing K]

theorem db_swap {U : ℤ → K} {P : ℤ → E} {p : ℕ} {k : ℤ} (hw : Win U k p) (t t' : K)
    (ts : List K) (i : ℤ) (h1 : k - p + ts.length + 2 ≤ i) (h2 : i ≤ k) :
    db U P p (t :: t' :: ts) i = db U P p (t' :: t :: ts) i := by
  rw [db_cons, db_cons, db_cons, db_cons, db_cons, db_cons]
  simp only [List.length_cons]
  have e1 : i + (p : ℤ) - ((ts.length + 1 : ℕ) : ℤ) = i - 1 + p - ts.length := by push_cast; ring
  rw [e1]
  apply swap_scalars
  · exact hw.sub_ne (by omega) (by omega) (by omega) (by omega)
  · exact hw.sub_ne (by omega) (by omega) (by omega) (by omega)
  · exact hw.sub_ne (by omega) (by omega) (by omega) (by omega)

theorem db_perm {U : ℤ → K} {P : ℤ → E} {p : ℕ} {k : ℤ} (hw : Win U k p) {l l' : List K}
    (hp : l.Perm l') :
    ∀ i : ℤ, k - p + l.length ≤ i → i ≤ k → db U P p l i = db U P p l' i := by
  induction hp with
  | nil => intros; rfl
  | cons x h ih =>
    intro i h1 h2
    simp only [List.length_cons] at h1
    push_cast at h1
    rw [db_cons, db_cons, ih i (by omega) h2, ih (i - 1) (by omega) (by omega), h.length_eq]
  | swap x y l =>
    intro i h1 h2
    simp only [List.length_cons] at h1
    push_cast at h1
    exact db_swap hw y x l i (by omega) h2
  | trans h _ ih1 ih2 =>
    intro i h1 h2
    rw [ih1 i h1 h2, ih2 i (by rw [← h.length_eq]; exact h1) h2]

theorem db_knots_right {U : ℤ → K} {P : ℤ → E} {p : ℕ} {k : ℤ} (hw : Win U k p) (i : ℤ)
    (h1 : k - p ≤ i) (h2 : i ≤ k) (q : ℕ) (hq : k + q ≤ i + p) :
    db U P p ((List.range q).map (fun c : ℕ => U (i + p - q + 1 + c))) i = P i := by
  induction q with
  | zero => rfl
  | succ q ih =>
    push_cast at hq
    rw [List.range_succ_eq_map, List.map_cons, List.map_map, db_cons]
    have e : (List.map ((fun c : ℕ => U (i + p - ((q + 1 : ℕ) : ℤ) + 1 + c)) ∘ Nat.succ)
        (List.range q)) = (List.range q).map (fun c : ℕ => U (i + p - q + 1 + c)) := by
      apply List.map_congr_left
      intro c _
      simp only [Function.comp]
      congr 1; push_cast; ring
    rw [e, ih (by omega)]
    simp only [List.length_map, List.length_range]
    have e2 : i + (p : ℤ) - ((q + 1 : ℕ) : ℤ) + 1 + ((0 : ℕ) : ℤ) = i + p - q := by push_cast; ring
    rw [e2, sub_self, zero_smul, add_zero, smul_smul, inv_mul_cancel₀, one_smul]
    exact hw.sub_ne (by omega) (by omega) (by omega) (by omega)

theorem db_knots {U : ℤ → K} {P : ℤ → E} {p : ℕ} {k : ℤ} (hw : Win U k p) (i : ℤ)
    (h1 : k - p ≤ i) (c : ℕ) (hc : i + c ≤ k) :
    ∃ l : List K, (l : Multiset K) = kn U i c + kn U k (i + p - k).toNat ∧
      db U P p l (i + c) = P i := by
  induction c with
  | zero =>
    refine ⟨(List.range (i + p - k).toNat).map
      (fun c : ℕ => U (i + p - ((i + p - k).toNat : ℕ) + 1 + c)), ?_, ?_⟩
    · rw [kn_zero, zero_add, kn]
      have e : ∀ c : ℕ, i + (p : ℤ) - ((i + p - k).toNat : ℕ) + 1 + c = k + 1 + c := by
        intro c; omega
      simp only [e]
      rfl
    · have := db_knots_right (P := P) hw i h1 (by omega) (i + p - k).toNat (by omega)
      simpa using this
  | succ c ih =>
    push_cast at hc
    obtain ⟨l, hl, hd⟩ := ih (by omega)
    refine ⟨U (i + 1 + c) :: l, ?_, ?_⟩
    · rw [← Multiset.cons_coe, hl, kn_succ_last, Multiset.cons_add]
    · have e : i + ((c + 1 : ℕ) : ℤ) = i + 1 + c := by push_cast; ring
      have hlen : l.length = c + (i + p - k).toNat := by
        have := congrArg Multiset.card hl
        simpa using this
      have e2 : i + 1 + (c : ℤ) - 1 = i + c := by ring
      rw [e, db_cons, sub_self, zero_smul, zero_add, e2, hd, smul_smul, inv_mul_cancel₀, one_smul]
      exact hw.sub_ne (by omega) (by omega) (by omega) (by omega)

/-- `P` is represented on the index range `[lo, hi]` of the knots `U` by the form `f` -/
def Rep (p : ℕ) (U : ℤ → K) (P : ℤ → E) (lo hi : ℤ) (f : Multiset K → E) : Prop :=
  ∀ i, lo ≤ i → i ≤ hi → P i = f (kn U i p)

/-- On every nonempty span the control points are the values of a form at consecutive knots. -/
theorem exists_form {U : ℤ → K} (P : ℤ → E) {p : ℕ} {k : ℤ} (hw : Win U k p) :
    ∃ f : Multiset K → E, IsForm p f ∧ Rep p U P (k - p) k f := by
  refine ⟨fun m => db U P p m.toList k, ?_, ?_⟩
  · intro m hm a s t
    have hcons : ∀ x : K, db U P p (x ::ₘ m).toList k = db U P p (x :: m.toList) k := by
      intro x
      apply db_perm hw _ k _ (le_refl _)
      · rw [← Multiset.coe_eq_coe, Multiset.coe_toList, ← Multiset.cons_coe, Multiset.coe_toList]
      · rw [Multiset.length_toList, Multiset.card_cons]; omega
    simp only [hcons, db_cons]
    match_scalars
    · ring
    · ring
  · intro i h1 h2
    obtain ⟨l, hl, hd⟩ := db_knots (P := P) hw i h1 (k - i).toNat (by omega)
    have e : i + ((k - i).toNat : ℤ) = k := by omega
    rw [e] at hd
    rw [← hd]
    have hm : (l : Multiset K) = kn U i p := by
      have hp : p = (k - i).toNat + (i + p - k).toNat := by omega
      conv_rhs => rw [hp]
      rw [hl, kn_add, e]
    apply db_perm hw _ k _ (le_refl _)
    · rw [← Multiset.coe_eq_coe, Multiset.coe_toList, hm]
    · have := congrArg Multiset.card hm
      simp only [Multiset.coe_card, card_kn] at this
      omega

/-- A form evaluated between two arguments. -/
theorem IsForm.interp {p : ℕ} {f : Multiset K → E} (hf : IsForm p f) {m : Multiset K}
    (hm : m.card + 1 = p) {s t : K} (h : t - s ≠ 0) (x : K) :
    f (x ::ₘ m) = (t - s)⁻¹ • ((x - s) • f (t ::ₘ m) + (t - x) • f (s ::ₘ m)) := by
  have := hf m hm ((x - s) / (t - s)) s t
  have e : (1 - (x - s) / (t - s)) * s + (x - s) / (t - s) * t = x := by field_simp; ring
  rw [e] at this
  rw [this]
  match_scalars
  · field_simp; ring
  · field_simp

theorem IsForm.interp' {p : ℕ} {f : Multiset K → E} (hf : IsForm p f) {m : Multiset K}
    (hm : m.card + 1 = p) {s t : K} (h : t - s ≠ 0) (x : K) :
    f (x ::ₘ m) = ((x - s) / (t - s)) • f (t ::ₘ m) + (1 - (x - s) / (t - s)) • f (s ::ₘ m) := by
  rw [hf.interp hm h x]
  match_scalars
  · field_simp
  · field_simp; ring

/-- de Boor's triangle computes values of the representing form. -/
theorem db_form {p : ℕ} {f : Multiset K → E} (hf : IsForm p f) {U : ℤ → K} {P : ℤ → E}
    {lo hi k : ℤ} (hr : Rep p U P lo hi f) (hw : Win U k p) :
    ∀ (ts : List K) (i : ℤ), k - p + ts.length ≤ i → i ≤ k → lo + ts.length ≤ i → i ≤ hi →
      db U P p ts i = f ((ts : Multiset K) + kn U i (p - ts.length)) := by
  intro ts
  induction ts with
  | nil => intro i h1 h2 h3 h4; simpa [db] using hr i (by simpa using h3) h4
  | cons t ts ih =>
    intro i h1 h2 h3 h4
    simp only [List.length_cons] at h1 h3 ⊢
    push_cast at h1 h3
    have hlt : ts.length + 1 ≤ p := by omega
    rw [db_cons, ih i (by omega) h2 (by omega) h4, ih (i - 1) (by omega) (by omega) (by omega) (by omega)]
    set q := p - (ts.length + 1) with hq
    have hpq : p - ts.length = q + 1 := by omega
    rw [hpq]
    have e1 : kn U i (q + 1) = U (i + p - ts.length) ::ₘ kn U i q := by
      rw [kn_succ_last]; congr 2; omega
    have e2 : kn U (i - 1) (q + 1) = U i ::ₘ kn U i q := by
      rw [kn_succ_first]; simp
    rw [e1, e2, ← Multiset.cons_coe, Multiset.cons_add, Multiset.add_cons, Multiset.add_cons]
    rw [hf.interp (m := (ts : Multiset K) + kn U i q) (by simp; omega)
      (hw.sub_ne (i := i) (j := i + p - ts.length) (by omega) (by omega) (by omega) (by omega)) t]

/-- The sum of basis pieces times control points is de Boor's triangle at equal arguments. -/
theorem sum_piece_db {U : ℤ → K} {P : ℤ → E} {p : ℕ} {k : ℤ} (hw : Win U k p) (u : K) :
    ∀ (q : ℕ), q ≤ p →
      ∑ r ∈ Finset.range (p + 1), piece U k p (k - p + r) u • P (k - p + r) =
      ∑ r ∈ Finset.range (q + 1), piece U k q (k - q + r) u •
        db U P p (List.replicate (p - q) u) (k - q + r) := by
  intro q hq
  obtain ⟨d, rfl⟩ : ∃ d, p = q + d := ⟨p - q, by omega⟩
  induction d generalizing q with
  | zero => simp [db]
  | succ d ih =>
    have hpq : q + (d + 1) = (q + 1) + d := by omega
    have ih' := ih (q + 1) (by rw [← hpq]; exact hw) (by omega)
    rw [← hpq] at ih'
    rw [ih']
    have e1 : q + (d + 1) - (q + 1) = d := by omega
    have e2 : q + (d + 1) - q = d + 1 := by omega
    rw [e1, e2]
    set X := db U P (q + (d + 1)) (List.replicate d u) with hX
    have hY : ∀ i, db U P (q + (d + 1)) (List.replicate (d + 1) u) i =
        (U (i + q + 1) - U i)⁻¹ • ((u - U i) • X i + (U (i + q + 1) - u) • X (i - 1)) := by
      intro i
      rw [List.replicate_succ, db_cons, List.length_replicate]
      have : i + ((q + (d + 1) : ℕ) : ℤ) - d = i + q + 1 := by push_cast; ring
      rw [this]
    simp only [hY]
    -- split the left sum into the two Cox - de Boor terms
    have hL : ∀ r : ℕ, piece U k (q + 1) (k - ((q + 1 : ℕ) : ℤ) + r) u • X (k - ((q + 1 : ℕ) : ℤ) + r)
        = ((u - U (k - q - 1 + r)) / (U (k + r) - U (k - q - 1 + r)) *
            piece U k q (k - q - 1 + r) u) • X (k - q - 1 + r)
          + ((U (k + r + 1) - u) / (U (k + r + 1) - U (k - q + r)) *
            piece U k q (k - q + r) u) • X (k - q - 1 + r) := by
      intro r
      have a1 : k - ((q + 1 : ℕ) : ℤ) + r = k - q - 1 + r := by push_cast; ring
      have a2 : k - (q : ℤ) - 1 + r + q + 1 = k + r := by ring
      have a3 : k - (q : ℤ) - 1 + r + q + 2 = k + r + 1 := by ring
      have a4 : k - (q : ℤ) - 1 + r + 1 = k - q + r := by ring
      rw [a1, piece_succ, a2, a3, a4, add_smul]
    simp only [hL, Finset.sum_add_distrib]
    rw [Finset.sum_range_succ' (n := q + 1), Finset.sum_range_succ (n := q + 1)]
    have z1 : piece U k q (k - q - 1 + ((0 : ℕ) : ℤ)) u = 0 :=
      piece_zero_of_lt _ _ _ _ _ (by push_cast; omega)
    have z2 : piece U k q (k - q + ((q + 1 : ℕ) : ℤ)) u = 0 :=
      piece_zero_of_gt _ _ _ _ _ (by push_cast; omega)
    rw [z1, z2, mul_zero, mul_zero, zero_smul, zero_smul, add_zero, add_zero,
      ← Finset.sum_add_distrib]
    apply Finset.sum_congr rfl
    intro r hr
    have hr' : r < q + 1 := Finset.mem_range.mp hr
    have b1 : k - (q : ℤ) - 1 + ((r + 1 : ℕ) : ℤ) = k - q + r := by push_cast; ring
    have b2 : k + ((r + 1 : ℕ) : ℤ) = k + r + 1 := by push_cast; ring
    have b3 : k - (q : ℤ) + r + q + 1 = k + r + 1 := by ring
    have b4 : k - (q : ℤ) + r - 1 = k - q - 1 + r := by ring
    rw [b1, b2, b3, b4]
    match_scalars
    · ring
    · ring

/-- Evaluation on a span equals the diagonal of the form. -/
theorem sum_piece_form {p : ℕ} {f : Multiset K → E} (hf : IsForm p f) {U : ℤ → K} {P : ℤ → E}
    {k : ℤ} (hr : Rep p U P (k - p) k f) (hw : Win U k p) (u : K) :
    ∑ r ∈ Finset.range (p + 1), piece U k p (k - p + r) u • P (k - p + r) =
      f (Multiset.replicate p u) := by
  rw [sum_piece_db hw u 0 (by omega)]
  simp only [zero_add, Finset.sum_range_one, Nat.sub_zero, Nat.cast_zero, sub_zero, add_zero]
  rw [db_form hf hr hw _ k (by simp) (le_refl _) (by simp) (le_refl _)]
  simp [piece, coxDB, Multiset.coe_replicate]

end Igakit
