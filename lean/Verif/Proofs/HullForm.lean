import Verif.Proofs.ElevForm
import Verif.Proofs.Unique
import Mathlib.Analysis.Convex.Basic

/-!
# Values of a form at windows of a finer knot vector are averages of the control points
-/

set_option linter.unusedSectionVars false

namespace Igakit
open Spec

variable {K : Type*} [Field K] [LinearOrder K] [IsStrictOrderedRing K]
variable {E : Type*} [AddCommGroup E] [Module K E]

theorem convex_interp {S : Set E} (hS : Convex K S) {A B : E} (hA : A ∈ S) (hB : B ∈ S) {s t x : K} (h1 : s ≤ x)
    (h2 : x ≤ t) (h3 : s < t) : (t - s)⁻¹ • ((x - s) • A + (t - x) • B) ∈ S := by
  have h0 : 0 < t - s := sub_pos.mpr h3
  rw [smul_add, smul_smul, smul_smul]
  refine hS hA hB (mul_nonneg (inv_nonneg.mpr h0.le) (sub_nonneg.mpr h1))
    (mul_nonneg (inv_nonneg.mpr h0.le) (sub_nonneg.mpr h2)) ?_
  field_simp
  ring

/-- a window around the span filled up with values between its neighbours -/
theorem form_mem {p : ℕ} {f : Multiset K → E} (hf : IsForm p f) {U : ℤ → K} {k : ℤ}
    (hs : SortedOn U (k - p + 1) (k + p)) (hk : U k < U (k + 1)) {S : Set E} (hS : Convex K S)
    (hP : ∀ i, k - p ≤ i → i ≤ k → f (kn U i p) ∈ S) :
    ∀ (X : Multiset K) (a b : ℕ), a + b + X.card = p → (∀ x ∈ X, U (k - a) ≤ x ∧ x ≤ U (k + b + 1)) →
      f (X + kn U (k - a) (a + b)) ∈ S := by
  intro X
  induction X using Multiset.induction with
  | empty =>
    intro a b hc _
    rw [Multiset.card_zero, add_zero] at hc
    rw [zero_add, hc]
    exact hP _ (by omega) (by omega)
  | cons x X ih =>
    intro a b hc hx
    rw [Multiset.card_cons] at hc
    have hX : 0 < X.card → X ≠ 0 := fun h e => by simp [e] at h
    obtain ⟨x1, x2⟩ := hx x (Multiset.mem_cons_self _ _)
    have hlt : U (k - a) < U (k + b + 1) :=
      lt_of_le_of_lt (hs _ _ (by omega) (by omega) (by omega))
        (lt_of_lt_of_le hk (hs _ _ (by omega) (by omega) (by omega)))
    have hcard : (X + kn U (k - a) (a + b)).card + 1 = p := by
      rw [Multiset.card_add, card_kn]; omega
    rw [Multiset.cons_add, hf.interp hcard (sub_ne_zero.mpr hlt.ne') x]
    apply convex_interp hS _ _ x1 x2 hlt
    · have := ih a (b + 1) (by omega) (fun y hy => by
        have h0 := Multiset.card_pos_iff_exists_mem.mpr ⟨y, hy⟩
        obtain ⟨y1, y2⟩ := hx y (Multiset.mem_cons_of_mem hy)
        exact ⟨y1, y2.trans (hs _ _ (by omega) (by push_cast; omega) (by push_cast; omega))⟩)
      rw [← add_assoc, kn_succ_last, Multiset.add_cons] at this
      rwa [show k - (a : ℤ) + 1 + ((a + b : ℕ) : ℤ) = k + b + 1 by push_cast; ring] at this
    · have := ih (a + 1) b (by omega) (fun y hy => by
        have h0 := Multiset.card_pos_iff_exists_mem.mpr ⟨y, hy⟩
        obtain ⟨y1, y2⟩ := hx y (Multiset.mem_cons_of_mem hy)
        exact ⟨le_trans (hs _ _ (by push_cast; omega) (by push_cast; omega) (by omega)) y1, y2⟩)
      rw [show a + 1 + b = a + b + 1 by ring, kn_succ_first, Multiset.add_cons] at this
      rwa [show k - ((a + 1 : ℕ) : ℤ) + 1 = k - a by push_cast; ring] at this

theorem count_kn_mono (U : ℤ → K) (y : K) {i j : ℤ} {c e : ℕ} (h1 : j ≤ i) (h2 : i + c ≤ j + e) :
    (kn U i c).count y ≤ (kn U j e).count y := by
  obtain ⟨a, rfl⟩ := Int.le.dest h1
  obtain ⟨b, rfl⟩ : ∃ b : ℕ, e = a + c + b := ⟨e - a - c, by omega⟩
  rw [kn_add, kn_add, Multiset.count_add, Multiset.count_add]
  omega

/-- left part of a finer window: the knots next to the span, and values not below the next knot -/
theorem split_left {U : ℤ → K} {k : ℤ} {p : ℕ} {A : Multiset K} (hA : A.card ≤ p) {L : K} (hL : ∀ x ∈ A, L ≤ x)
    (hs : SortedOn U (k - p + 1) k)
    (hm : ∀ y, L < y → y ≤ U k → (kn U (k - p) p).count y ≤ A.count y) :
    ∃ (a : ℕ) (X : Multiset K), A = X + kn U (k - a) a ∧ ∀ x ∈ X, U (k - a) ≤ x := by
  classical
  have hex : ∃ a, a ≤ p ∧ kn U (k - a) a ≤ A ∧ ¬ (a + 1 ≤ p ∧ kn U (k - (a + 1 : ℕ)) (a + 1) ≤ A) := by
    by_contra hc
    push Not at hc
    have : ∀ a, a ≤ p → kn U (k - a) a ≤ A := by
      intro a
      induction a with
      | zero => intro _; simp
      | succ a ih => intro h; exact (hc a (by omega) (ih (by omega))).2
    have h1 := (hc p le_rfl (this p le_rfl)).1
    omega
  obtain ⟨a, h1, h2, h3⟩ := hex
  obtain ⟨X, rfl⟩ := Multiset.le_iff_exists_add.mp h2
  refine ⟨a, X, add_comm _ _, ?_⟩
  intro x hx
  by_contra hc
  push Not at hc
  rw [Multiset.card_add, card_kn] at hA
  have h0 := Multiset.card_pos_iff_exists_mem.mpr ⟨x, hx⟩
  apply h3
  refine ⟨by omega, ?_⟩
  have hLx := hL x (Multiset.mem_add.mpr (Or.inr hx))
  rw [kn_succ_first, show k - ((a + 1 : ℕ) : ℤ) + 1 = k - a by push_cast; ring, Multiset.le_iff_count]
  intro z
  rw [Multiset.count_cons]
  by_cases hz : z = U (k - a)
  · subst hz
    have := hm (U (k - a)) (lt_of_le_of_lt hLx hc) (hs _ _ (by omega) (by omega) le_rfl)
    refine le_trans ?_ this
    rw [if_pos rfl, ← Multiset.count_cons_self,
      show U (k - a) ::ₘ kn U (k - a) a = kn U (k - ((a + 1 : ℕ) : ℤ)) (a + 1) by
        rw [kn_succ_first, show k - ((a + 1 : ℕ) : ℤ) + 1 = k - a by push_cast; ring]]
    exact count_kn_mono _ _ (by push_cast; omega) (by push_cast; omega)
  · rw [if_neg hz, add_zero]
    exact Multiset.le_iff_count.mp h2 z

/-- right part of a finer window -/
theorem split_right {U : ℤ → K} {k : ℤ} {p : ℕ} {A : Multiset K} (hA : A.card ≤ p) {R : K} (hR : ∀ x ∈ A, x ≤ R)
    (hs : SortedOn U (k + 1) (k + p))
    (hm : ∀ y, U (k + 1) ≤ y → y < R → (kn U k p).count y ≤ A.count y) :
    ∃ (b : ℕ) (X : Multiset K), A = X + kn U k b ∧ ∀ x ∈ X, x ≤ U (k + b + 1) := by
  classical
  have hex : ∃ a, a ≤ p ∧ kn U k a ≤ A ∧ ¬ (a + 1 ≤ p ∧ kn U k (a + 1) ≤ A) := by
    by_contra hc
    push Not at hc
    have : ∀ a, a ≤ p → kn U k a ≤ A := by
      intro a
      induction a with
      | zero => intro _; simp
      | succ a ih => intro h; exact (hc a (by omega) (ih (by omega))).2
    have h1 := (hc p le_rfl (this p le_rfl)).1
    omega
  obtain ⟨a, h1, h2, h3⟩ := hex
  obtain ⟨X, rfl⟩ := Multiset.le_iff_exists_add.mp h2
  refine ⟨a, X, add_comm _ _, ?_⟩
  intro x hx
  by_contra hc
  push Not at hc
  rw [Multiset.card_add, card_kn] at hA
  have h0 := Multiset.card_pos_iff_exists_mem.mpr ⟨x, hx⟩
  apply h3
  refine ⟨by omega, ?_⟩
  have hLx := hR x (Multiset.mem_add.mpr (Or.inr hx))
  have e : k + 1 + (a : ℤ) = k + a + 1 := by ring
  rw [kn_succ_last, e, Multiset.le_iff_count]
  intro z
  rw [Multiset.count_cons]
  by_cases hz : z = U (k + a + 1)
  · subst hz
    have := hm (U (k + a + 1)) (hs _ _ le_rfl (by omega) (by omega)) (lt_of_lt_of_le hc hLx)
    refine le_trans ?_ this
    rw [if_pos rfl, ← Multiset.count_cons_self, show U (k + a + 1) ::ₘ kn U k a = kn U k (a + 1) by rw [kn_succ_last, e]]
    exact count_kn_mono _ _ le_rfl (by push_cast; omega)
  · rw [if_neg hz, add_zero]
    exact Multiset.le_iff_count.mp h2 z

/-- value of the form of a span at the two halves of a finer window -/
theorem form_split {p : ℕ} {f : Multiset K → E} (hf : IsForm p f) {U : ℤ → K} {k : ℤ}
    (hs : SortedOn U (k - p + 1) (k + p)) (hk : U k < U (k + 1)) {S : Set E} (hS : Convex K S)
    (hP : ∀ i, k - p ≤ i → i ≤ k → f (kn U i p) ∈ S) {A B : Multiset K} (hc : A.card + B.card = p) {L R : K}
    (hA : ∀ x ∈ A, L ≤ x ∧ x ≤ U (k + 1)) (hB : ∀ x ∈ B, U k ≤ x ∧ x ≤ R)
    (hL : ∀ y, L < y → y ≤ U k → (kn U (k - p) p).count y ≤ A.count y)
    (hR : ∀ y, U (k + 1) ≤ y → y < R → (kn U k p).count y ≤ B.count y) : f (A + B) ∈ S := by
  obtain ⟨a, X, rfl, hX⟩ := split_left (by omega) (fun x hx => (hA x hx).1)
    (fun i j h1 h2 h3 => hs i j h1 h2 (by omega)) hL
  obtain ⟨b, Y, rfl, hY⟩ := split_right (by omega) (fun x hx => (hB x hx).2)
    (fun i j h1 h2 h3 => hs i j (by omega) h2 h3) hR
  rw [Multiset.card_add, Multiset.card_add, card_kn, card_kn] at hc
  have e : X + kn U (k - a) a + (Y + kn U k b) = (X + Y) + kn U (k - a) (a + b) := by
    rw [kn_add, show k - (a : ℤ) + a = k by ring]
    abel
  rw [e]
  apply form_mem hf hs hk hS hP
  · rw [Multiset.card_add]; omega
  · intro x hx
    have h0 := Multiset.card_pos_iff_exists_mem.mpr ⟨x, hx⟩
    rw [Multiset.card_add] at h0
    rcases Multiset.mem_add.mp hx with h | h
    · refine ⟨hX x h, ((hA x (Multiset.mem_add.mpr (Or.inl h))).2).trans ?_⟩
      exact hs _ _ (by omega) (by omega) (by omega)
    · refine ⟨le_trans ?_ (hB x (Multiset.mem_add.mpr (Or.inl h))).1, hY x h⟩
      exact hs _ _ (by omega) (by omega) (by omega)

theorem mean_mem {S : Set E} (hS : Convex K S) : ∀ (M : Multiset E), 0 < M.card → (∀ x ∈ M, x ∈ S) →
    ((M.card : ℕ) : K)⁻¹ • M.sum ∈ S := by
  intro M
  induction M using Multiset.induction with
  | empty => intro h; simp at h
  | cons x M ih =>
    intro _ h
    rcases Nat.eq_zero_or_pos M.card with h0 | h0
    · rw [Multiset.card_eq_zero.mp h0]
      simpa using h x (Multiset.mem_cons_self _ _)
    · have h1 := ih h0 (fun y hy => h y (Multiset.mem_cons_of_mem hy))
      have hc : (0 : K) < (M.card : ℕ) := by exact_mod_cast h0
      have := hS (h x (Multiset.mem_cons_self _ _)) h1 (a := ((M.card : K) + 1)⁻¹) (b := ((M.card : K) + 1)⁻¹ * M.card)
        (by positivity) (by positivity) (by field_simp; ring)
      rw [Multiset.card_cons, Multiset.sum_cons, smul_add]
      convert this using 2
      · push_cast; rfl
      · rw [smul_smul]; congr 1; push_cast; field_simp

/-- the same for the form of one degree more: all counts are one higher -/
theorem form_split_elev {p : ℕ} {f : Multiset K → E} (hf : IsForm p f) {U : ℤ → K} {k : ℤ}
    (hs : SortedOn U (k - p + 1) (k + p)) (hk : U k < U (k + 1)) {S : Set E} (hS : Convex K S)
    (hP : ∀ i, k - p ≤ i → i ≤ k → f (kn U i p) ∈ S) {A B : Multiset K} (hc : A.card + B.card = p + 1) {L R : K}
    (hA : ∀ x ∈ A, L ≤ x ∧ x ≤ U (k + 1)) (hB : ∀ x ∈ B, U k ≤ x ∧ x ≤ R)
    (hL : ∀ y, L < y → y ≤ U k → (kn U (k - p) p).count y ≠ 0 → (kn U (k - p) p).count y + 1 ≤ A.count y)
    (hR : ∀ y, U (k + 1) ≤ y → y < R → (kn U k p).count y ≠ 0 → (kn U k p).count y + 1 ≤ B.count y) :
    elv (p + 1) p f (A + B) ∈ S := by
  classical
  unfold elv psum
  have hcard : (((A + B).powersetCard p).map f).card = (p + 1).choose p := by
    rw [Multiset.card_map, Multiset.card_powersetCard, Multiset.card_add, hc]
  rw [← hcard]
  apply mean_mem hS
  · rw [hcard]; exact Nat.choose_pos (by omega)
  · intro v hv
    obtain ⟨s, hs', rfl⟩ := Multiset.mem_map.mp hv
    obtain ⟨s1, s2⟩ := Multiset.mem_powersetCard.mp hs'
    obtain ⟨r, hr⟩ := Multiset.le_iff_exists_add.mp s1
    have hr1 : r.card = 1 := by
      have := congrArg Multiset.card hr
      rw [Multiset.card_add, Multiset.card_add] at this
      omega
    obtain ⟨e, rfl⟩ := Multiset.card_eq_one.mp hr1
    have hmem : e ∈ A + B := by rw [hr]; simp
    rcases Multiset.mem_add.mp hmem with h | h
    · obtain ⟨A', rfl⟩ := Multiset.exists_cons_of_mem h
      have : s = A' + B := by
        rw [Multiset.cons_add, ← Multiset.singleton_add, add_comm] at hr
        exact (add_right_cancel hr).symm
      rw [this]
      refine form_split hf hs hk hS hP ?_ (fun x hx => hA x (Multiset.mem_cons_of_mem hx)) hB ?_ ?_
      · rw [Multiset.card_cons] at hc; omega
      · intro y y1 y2
        by_cases h0 : (kn U (k - p) p).count y = 0
        · omega
        · have := hL y y1 y2 h0
          rw [Multiset.count_cons] at this
          split_ifs at this <;> omega
      · intro y y1 y2
        by_cases h0 : (kn U k p).count y = 0
        · omega
        · have := hR y y1 y2 h0; omega
    · obtain ⟨B', rfl⟩ := Multiset.exists_cons_of_mem h
      have : s = A + B' := by
        rw [Multiset.add_cons, ← Multiset.singleton_add, add_comm] at hr
        exact (add_right_cancel hr).symm
      rw [this]
      refine form_split hf hs hk hS hP ?_ hA (fun x hx => hB x (Multiset.mem_cons_of_mem hx)) ?_ ?_
      · rw [Multiset.card_cons] at hc; omega
      · intro y y1 y2
        by_cases h0 : (kn U (k - p) p).count y = 0
        · omega
        · have := hL y y1 y2 h0; omega
      · intro y y1 y2
        by_cases h0 : (kn U k p).count y = 0
        · omega
        · have := hR y y1 y2 h0
          rw [Multiset.count_cons] at this
          split_ifs at this <;> omega

/-- forms with the same diagonal on an infinite set agree -/
theorem form_eq {ι : Type*} {p : ℕ} {f g : Multiset K → ι → K} (hf : IsForm p f) (hg : IsForm p g) {S : Set K}
    (hS : S.Infinite) (h : ∀ t ∈ S, f (Multiset.replicate p t) = g (Multiset.replicate p t)) {m : Multiset K}
    (hm : m.card = p) : f m = g m := by
  funext c
  have hd : IsForm p (fun m => f m c - g m c) := by
    intro m hm a s t
    have h1 := congrFun (hf m hm a s t) c
    have h2 := congrFun (hg m hm a s t) c
    simp only [Pi.add_apply, Pi.smul_apply, smul_eq_mul] at h1 h2 ⊢
    rw [h1, h2]; ring
  have := form_zero hd hS (fun t ht => by rw [h t ht, sub_self]) hm
  exact sub_eq_zero.mp this

theorem elv_succ {ι : Type*} {p t : ℕ} {f : Multiset K → ι → K} (hf : IsForm p f) {m : Multiset K}
    (hm : m.card = p + t + 1) : elv (p + t + 1) p f m = elv (p + t + 1) (p + t) (elv (p + t) p f) m := by
  refine form_eq (elv_form hf) (elv_form (elv_form hf)) (S := Set.univ) Set.infinite_univ (fun x _ => ?_) hm
  rw [elv_diag (by omega), elv_diag (by omega), elv_diag (by omega)]

end Igakit
