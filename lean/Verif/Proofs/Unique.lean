import Verif.Proofs.CurveForm
import Verif.Proofs.Tensor
import Mathlib.Algebra.Polynomial.Roots
import Mathlib.Order.Interval.Set.Infinite

/-! # Linear independence: a spline that vanishes on its domain has vanishing control points -/

set_option linter.unusedSectionVars false

namespace Igakit
open Spec

variable {K : Type*} [Field K] [LinearOrder K] [IsStrictOrderedRing K]

/-- iterated difference of a form in its arguments -/
def formD (f : Multiset K → K) : ℕ → Multiset K → K
  | 0, m => f m
  | i + 1, m => formD f i (1 ::ₘ m) - formD f i (0 ::ₘ m)

theorem formD_cons {p : ℕ} {f : Multiset K → K} (hf : IsForm p f) (t : K) :
    ∀ (i : ℕ) (m : Multiset K), m.card + 1 + i = p →
      formD f i (t ::ₘ m) = formD f i (0 ::ₘ m) + t * formD f (i + 1) m
  | 0, m, h => by
    have := hf m (by omega) t 0 1
    simp only [mul_zero, mul_one, zero_add, smul_eq_mul] at this
    simp only [formD]
    rw [this]; ring
  | i + 1, m, h => by
    have a := formD_cons hf t i (1 ::ₘ m) (by simp; omega)
    have b := formD_cons hf t i (0 ::ₘ m) (by simp; omega)
    simp only [formD] at a b ⊢
    rw [Multiset.cons_swap 1 t, Multiset.cons_swap 0 t, a, b]
    rw [Multiset.cons_swap 0 1]
    ring

theorem binom_sum (G : ℕ → K) (t : K) (j : ℕ) :
    ∑ i ∈ Finset.range (j + 1 + 1), ((j + 1).choose i : K) * t ^ i * G i =
      ∑ i ∈ Finset.range (j + 1), (j.choose i : K) * t ^ i * G i +
        t * ∑ i ∈ Finset.range (j + 1), (j.choose i : K) * t ^ i * G (i + 1) := by
  rw [Finset.sum_range_succ', Finset.mul_sum]
  have : ∑ i ∈ Finset.range (j + 1), (j.choose i : K) * t ^ i * G i =
      ∑ i ∈ Finset.range (j + 1), (j.choose (i + 1) : K) * t ^ (i + 1) * G (i + 1) + (j.choose 0 : K) * t ^ 0 * G 0 := by
    rw [← Finset.sum_range_succ' (fun i => (j.choose i : K) * t ^ i * G i),
      Finset.sum_range_succ _ (j + 1)]
    simp
  rw [this]
  simp only [Nat.choose_succ_succ, Nat.cast_add, Nat.choose_zero_right]
  rw [add_right_comm, ← Finset.sum_add_distrib]
  congr 1
  apply Finset.sum_congr rfl
  intro i _
  ring

/-- binomial expansion of a form in powers of a repeated argument -/
theorem form_expand {p : ℕ} {f : Multiset K → K} (hf : IsForm p f) (t : K) :
    ∀ (j : ℕ) (l : ℕ) (m : Multiset K), m.card + j + l = p →
      formD f l (m + Multiset.replicate j t) =
        ∑ i ∈ Finset.range (j + 1), (j.choose i : K) * t ^ i * formD f (l + i) (m + Multiset.replicate (j - i) 0)
  | 0, l, m, h => by simp
  | j + 1, l, m, h => by
    rw [Multiset.replicate_succ, Multiset.add_cons, formD_cons hf t l _ (by simp; omega)]
    have a := form_expand hf t j l (0 ::ₘ m) (by simp; omega)
    have b := form_expand hf t j (l + 1) m (by omega)
    rw [Multiset.cons_add] at a
    rw [a, b, binom_sum (fun i => formD f (l + i) (m + Multiset.replicate (j + 1 - i) 0))]
    congr 1
    · apply Finset.sum_congr rfl
      intro i hi
      have := Finset.mem_range.mp hi
      rw [show j + 1 - i = (j - i) + 1 by omega, Multiset.replicate_succ, Multiset.add_cons, Multiset.cons_add]
    · congr 1
      apply Finset.sum_congr rfl
      intro i hi
      rw [show j + 1 - (i + 1) = j - i by omega, show l + (i + 1) = l + 1 + i by omega]

/-- a form whose diagonal vanishes on an infinite set vanishes -/
theorem form_zero {p : ℕ} {f : Multiset K → K} (hf : IsForm p f) {S : Set K} (hS : S.Infinite)
    (h : ∀ t ∈ S, f (Multiset.replicate p t) = 0) {m : Multiset K} (hm : m.card = p) : f m = 0 := by
  have hc : ∀ i, i ≤ p → formD f i (Multiset.replicate (p - i) 0) = 0 := by
    have key : (∑ i ∈ Finset.range (p + 1),
        Polynomial.C ((p.choose i : K) * formD f i (Multiset.replicate (p - i) 0)) * Polynomial.X ^ i) = 0 := by
      apply Polynomial.eq_zero_of_infinite_isRoot
      refine hS.mono (fun t ht => ?_)
      have := form_expand hf t p 0 0 (by simp)
      simp only [zero_add] at this
      have h0 : formD f 0 (Multiset.replicate p t) = 0 := h t ht
      rw [h0] at this
      show Polynomial.IsRoot _ t
      rw [Polynomial.IsRoot.def, Polynomial.eval_finset_sum]
      refine Eq.trans ?_ this.symm
      apply Finset.sum_congr rfl
      intro i _
      rw [Polynomial.eval_mul, Polynomial.eval_C, Polynomial.eval_pow, Polynomial.eval_X]
      ring
    intro i hi
    have e := congrArg (fun q => Polynomial.coeff q i) key
    simp only [Polynomial.finset_sum_coeff, Polynomial.coeff_C_mul, Polynomial.coeff_X_pow, Polynomial.coeff_zero] at e
    rw [Finset.sum_eq_single i] at e
    · simp only [if_true, mul_one] at e
      rcases mul_eq_zero.mp e with e | e
      · have := Nat.choose_pos hi
        exact absurd (Nat.cast_eq_zero.mp e) (by omega)
      · exact e
    · intro j _ hj
      rw [if_neg (fun h => hj h.symm), mul_zero]
    · intro h
      exact absurd (Finset.mem_range.mpr (by omega)) h
  have key : ∀ (j : ℕ) (m : Multiset K), m.card = j → ∀ i, j + i ≤ p →
      formD f i (m + Multiset.replicate (p - i - j) 0) = 0 := by
    intro j
    induction j with
    | zero =>
      intro m hm i hi
      rw [Multiset.card_eq_zero.mp hm, zero_add]
      exact hc i (by omega)
    | succ j ih =>
      intro m hm i hi
      obtain ⟨t, ht⟩ := Multiset.card_pos_iff_exists_mem.mp (by omega : 0 < m.card)
      obtain ⟨m, rfl⟩ := Multiset.exists_cons_of_mem ht
      have hm' : m.card = j := by simpa using hm
      rw [Multiset.cons_add, formD_cons hf t i _ (by simp; omega)]
      have a := ih m hm' i (by omega)
      have b := ih m hm' (i + 1) (by omega)
      rw [show p - i - j = (p - i - (j + 1)) + 1 by omega, Multiset.replicate_succ, Multiset.add_cons] at a
      rw [show p - (i + 1) - j = p - i - (j + 1) by omega] at b
      rw [a, b]; ring
  have := key p m hm 0 (by omega)
  simpa [formD] using this

/-- control points that act on a nonempty span are determined by the curve -/
theorem curve_eq_zero {n : ℤ} {p : ℕ} {U : ℤ → K} (hs : SortedOn U 0 (n + p + 1)) {P : ℤ → K}
    (h : ∀ u, U p ≤ u → u ≤ U (n + 1) → curve n p U P u = 0) {k : ℤ} (h1 : (p : ℤ) ≤ k) (h2 : k ≤ n)
    (hk : U k < U (k + 1)) {i : ℤ} (hi1 : k - p ≤ i) (hi2 : i ≤ k) : P i = 0 := by
  have hw : Win U k p := Win.of_sorted hs hk (by omega) (by omega)
  obtain ⟨f, hf, hr⟩ := exists_form P hw
  rw [hr i hi1 hi2]
  refine form_zero hf (Set.Ico_infinite hk) (fun t ht => ?_) (card_kn _ _ _)
  rw [← SpanOf.curve_form ⟨h1, h2, Or.inl ht⟩ hs hf hr]
  exact h t (le_trans (hs _ _ (by omega) h1 (by omega)) ht.1)
    (le_trans ht.2.le (hs _ _ (by omega) (by omega) (by omega)))

/-- every control point acts on some nonempty span of the domain -/
def Active (n : ℤ) (p : ℕ) (U : ℤ → K) : Prop :=
  ∀ i, 0 ≤ i → i ≤ n → ∃ k, (p : ℤ) ≤ k ∧ k ≤ n ∧ i ≤ k ∧ k ≤ i + p ∧ U k < U (k + 1)

theorem exists_step {U : ℤ → K} : ∀ (c : ℕ) (a : ℤ), U a < U (a + c) → ∃ k, a ≤ k ∧ k < a + c ∧ U k < U (k + 1)
  | 0, a, h => by simp at h
  | c + 1, a, h => by
    by_cases h' : U a < U (a + c)
    · obtain ⟨k, h1, h2, h3⟩ := exists_step c a h'
      exact ⟨k, h1, by push_cast; omega, h3⟩
    · refine ⟨a + c, by omega, by push_cast; omega, lt_of_le_of_lt (not_lt.mp h') ?_⟩
      rw [add_assoc]; exact_mod_cast h

/-- interior knots of multiplicity at most `p + 1` suffice -/
theorem active_of_mult {n : ℤ} {p : ℕ} {U : ℤ → K} (hv : ValidKnots n p U)
    (hm : ∀ x, U p < x → x < U (n + 1) → mult U 0 (n + p + 1) x ≤ p + 1) : Active n p U := by
  intro i hi0 hin
  have hle := hv.le
  have h1 := hv.one_le
  have hs := hv.sorted
  have key : ∀ a b : ℤ, 0 ≤ a → a ≤ b → U a < U b → (p : ℤ) ≤ a → b ≤ n + 1 → i ≤ a → b ≤ i + p + 1 →
      ∃ k, (p : ℤ) ≤ k ∧ k ≤ n ∧ i ≤ k ∧ k ≤ i + p ∧ U k < U (k + 1) := by
    intro a b h0 hab hlt a1 a2 a3 a4
    obtain ⟨k, k1, k2, k3⟩ := exists_step (b - a).toNat a (by rw [Int.toNat_of_nonneg (by omega)]; simpa using hlt)
    exact ⟨k, by omega, by omega, by omega, by omega, k3⟩
  by_cases c1 : i ≤ p
  · exact key p (p + 1) (by omega) (by omega) hv.first (by omega) (by omega) c1 (by omega)
  · by_cases c2 : n < i + p
    · exact key n (n + 1) (by omega) (by omega) hv.last (by omega) (by omega) (by omega) (by omega)
    · refine key i (i + p + 1) hi0 (by omega) ?_ (by omega) (by omega) le_rfl le_rfl
      by_contra hc
      have e := le_antisymm (hs i (i + p + 1) hi0 (by omega) (by omega)) (not_lt.mp hc)
      have := hm (U i) (lt_of_lt_of_le hv.first (hs _ _ (by omega) (by omega) (by omega)))
        (lt_of_le_of_lt (hs i n (by omega) (by omega) (by omega)) hv.last)
      have hsub : Finset.Icc i (i + p + 1) ⊆ (Finset.Icc 0 (n + p + 1)).filter (fun j => U j = U i) := by
        intro j hj
        have hj := Finset.mem_Icc.mp hj
        refine Finset.mem_filter.mpr ⟨Finset.mem_Icc.mpr ⟨by omega, by omega⟩, le_antisymm ?_ ?_⟩
        · rw [e]; exact hs _ _ (by omega) hj.2 (by omega)
        · exact hs _ _ hi0 hj.1 (by omega)
      have := Finset.card_le_card hsub
      rw [Int.card_Icc] at this
      unfold mult at *
      omega

/-- a tensor product spline that vanishes on its domain has vanishing control points -/
theorem tensor_eq_zero : ∀ {d : ℕ} {n : Fin d → ℤ} {p : Fin d → ℕ} {U : Fin d → ℤ → K}
    (_ : ∀ a, SortedOn (U a) 0 (n a + p a + 1)) (_ : ∀ a, Active (n a) (p a) (U a)) {P : (Fin d → ℤ) → K}
    (_ : ∀ x, (∀ a, U a (p a) ≤ x a ∧ x a ≤ U a (n a + 1)) → tensor n p U P x = 0)
    {idx : Fin d → ℤ} (_ : ∀ a, 0 ≤ idx a ∧ idx a ≤ n a), P idx = 0
  | 0, n, p, U, _, _, P, h, idx, _ => by
    have := h Fin.elim0 (fun a => a.elim0)
    unfold tensor at this
    rw [Finset.sum_eq_single idx] at this
    · simpa using this
    · intro b _ hb
      exact absurd (Subsingleton.elim b idx) hb
    · intro hb
      exact absurd (Fintype.mem_piFinset.mpr (fun a => a.elim0)) hb
  | d + 1, n, p, U, hs, ha, P, h, idx, hi => by
    have key : ∀ (o : Fin d → ℤ), (∀ b, 0 ≤ o b ∧ o b ≤ n (Fin.succAbove 0 b)) → ∀ u, U 0 (p 0) ≤ u → u ≤ U 0 (n 0 + 1) →
        curve (n 0) (p 0) (U 0) (fun i => rows 0 P i o) u = 0 := by
      intro o ho u hu1 hu2
      rw [← curve_apply]
      refine tensor_eq_zero (n := Fin.removeNth 0 n) (p := Fin.removeNth 0 p) (U := Fin.removeNth 0 U)
        (fun a => hs _) (fun a => ha _) (fun x hx => ?_) ho
      have := h (Fin.insertNth 0 u x) (fun a => by
        refine Fin.succAboveCases 0 ?_ (fun b => ?_) a
        · rw [Fin.insertNth_apply_same]; exact ⟨hu1, hu2⟩
        · rw [Fin.insertNth_apply_succAbove]; exact hx b)
      rw [tensor_split 0, Fin.insertNth_apply_same, Fin.removeNth_insertNth] at this
      exact this
    obtain ⟨k, k1, k2, k3, k4, k5⟩ := ha 0 (idx 0) (hi 0).1 (hi 0).2
    have := curve_eq_zero (hs 0) (key (Fin.removeNth 0 idx) (fun b => hi _)) k1 k2 k5 (by omega) k3
    unfold rows at this
    rwa [Fin.insertNth_self_removeNth] at this

end Igakit
