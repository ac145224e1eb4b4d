import Verif.Proofs.Unique
import Verif.Spec.Periodic

/-! # Control points of curves that close smoothly -/

set_option linter.unusedSectionVars false

namespace Igakit
open Spec Polynomial

variable {K : Type} [Field K] [LinearOrder K] [IsStrictOrderedRing K]

/-- the diagonal of a form as a polynomial -/
noncomputable def diagPoly (p : ℕ) (f : Multiset K → K) : K[X] :=
  ∑ i ∈ Finset.range (p + 1), C ((p.choose i : K) * formD f i (Multiset.replicate (p - i) 0)) * X ^ i

theorem diagPoly_eval {p : ℕ} {f : Multiset K → K} (hf : IsForm p f) (t : K) :
    (diagPoly p f).eval t = f (Multiset.replicate p t) := by
  have := form_expand hf t p 0 0 (by simp)
  simp only [zero_add] at this
  have h0 : formD f 0 (Multiset.replicate p t) = f (Multiset.replicate p t) := rfl
  rw [← h0, this, diagPoly, eval_finset_sum]
  apply Finset.sum_congr rfl
  intro i _
  rw [eval_mul, eval_C, eval_pow, eval_X]
  ring

theorem diagPoly_coeff (p : ℕ) (f : Multiset K → K) {i : ℕ} (hi : i ≤ p) :
    (diagPoly p f).coeff i = (p.choose i : K) * formD f i (Multiset.replicate (p - i) 0) := by
  unfold diagPoly
  simp only [finset_sum_coeff, coeff_C_mul, coeff_X_pow]
  rw [Finset.sum_eq_single i]
  · simp
  · intro j _ hj
    rw [if_neg (fun h => hj h.symm), mul_zero]
  · intro h
    exact absurd (Finset.mem_range.mpr (by omega)) h

/-- a form whose diagonal has no terms of order up to `c` vanishes when `p - c` arguments vanish -/
theorem form_flat {p c : ℕ} {f : Multiset K → K} (hf : IsForm p f) (hc : c ≤ p) (h0 : ∀ l ≤ c, (diagPoly p f).coeff l = 0)
    {m : Multiset K} (hm : m.card = c) : f (m + Multiset.replicate (p - c) 0) = 0 := by
  have hz : ∀ i, i ≤ c → formD f i (Multiset.replicate (p - i) 0) = 0 := by
    intro i hi
    have := h0 i hi
    rw [diagPoly_coeff p f (by omega)] at this
    rcases mul_eq_zero.mp this with e | e
    · have := Nat.choose_pos (show i ≤ p by omega)
      exact absurd (Nat.cast_eq_zero.mp e) (by omega)
    · exact e
  have key : ∀ (j : ℕ) (m : Multiset K), m.card = j → ∀ i, j + i ≤ c →
      formD f i (m + Multiset.replicate (p - i - j) 0) = 0 := by
    intro j
    induction j with
    | zero =>
      intro m hm i hi
      rw [Multiset.card_eq_zero.mp hm, zero_add]
      exact hz i (by omega)
    | succ j ih =>
      intro m hm i hi
      obtain ⟨t, ht⟩ := Multiset.card_pos_iff_exists_mem.mp (by omega : 0 < m.card)
      obtain ⟨m, rfl⟩ := Multiset.exists_cons_of_mem ht
      have hm' : m.card = j := by simpa using hm
      rw [Multiset.cons_add, formD_cons hf t i _ (by simp; omega)]
      have a := ih m hm' i (by omega)
      have b := ih m hm' (i + 1) (by omega)
      rw [show p - i - j = (p - i - (j + 1)) + 1 by omega, Multiset.replicate_succ, Multiset.add_cons] at a
      rw [show p - (i + 1) - j = p - i - (j + 1) by omega] at b
      rw [a, b]; ring
  have := key c m hm 0 (by omega)
  simpa [formD] using this

/-- and conversely -/
theorem flat_form {p c : ℕ} {f : Multiset K → K} (hc : c ≤ p)
    (h : ∀ m : Multiset K, m.card = c → f (m + Multiset.replicate (p - c) 0) = 0) : ∀ l ≤ c, (diagPoly p f).coeff l = 0 := by
  have key : ∀ (i : ℕ) (m : Multiset K), m.card + i = c → formD f i (m + Multiset.replicate (p - c) 0) = 0 := by
    intro i
    induction i with
    | zero => intro m hm; exact h m (by omega)
    | succ i ih =>
      intro m hm
      have a := ih (1 ::ₘ m) (by simp; omega)
      have b := ih (0 ::ₘ m) (by simp; omega)
      rw [Multiset.cons_add] at a b
      show formD f i _ - formD f i _ = 0
      rw [a, b, sub_zero]
  intro l hl
  rw [diagPoly_coeff p f (by omega)]
  have := key l (Multiset.replicate (c - l) 0) (by simp; omega)
  rw [← Multiset.replicate_add, show c - l + (p - c) = p - l by omega] at this
  rw [this, mul_zero]

theorem IsForm.shift {p : ℕ} {f : Multiset K → K} (hf : IsForm p f) (s : K) :
    IsForm p (fun m => f (m.map (· + s))) := by
  intro m hm a x y
  have := hf (m.map (· + s)) (by simpa using hm) a (x + s) (y + s)
  simp only [Multiset.map_cons]
  rw [← this]
  congr 2
  ring

theorem diag_shift {p : ℕ} {f : Multiset K → K} (hf : IsForm p f) (s : K) {A : K[X]} {S : Set K} (hS : S.Infinite)
    (h : ∀ u ∈ S, f (Multiset.replicate p u) = A.eval u) : diagPoly p (fun m => f (m.map (· + s))) = A.comp (X + C s) := by
  have hA : A = diagPoly p f := by
    refine eq_of_infinite_eval_eq _ _ (hS.mono fun u hu => ?_)
    show A.eval u = _
    rw [diagPoly_eval hf, h u hu]
  refine Polynomial.funext fun u => ?_
  rw [diagPoly_eval (hf.shift s), hA, eval_comp, diagPoly_eval hf]
  simp

theorem iterate_derivative_shift (A : K[X]) (s : K) (l : ℕ) : derivative^[l] (A.comp (X + C s)) = (derivative^[l] A).comp (X + C s) := by
  induction l generalizing A with
  | zero => rfl
  | succ l ih =>
    rw [Function.iterate_succ_apply, Function.iterate_succ_apply, derivative_comp, derivative_add, derivative_X, derivative_C,
      add_zero, one_mul, ih]

theorem coeff_shift (A : K[X]) (s : K) (l : ℕ) : (derivative^[l] A).eval s = (l.factorial : K) * (A.comp (X + C s)).coeff l := by
  have h1 : (derivative^[l] (A.comp (X + C s))).coeff 0 = (l.factorial : K) * (A.comp (X + C s)).coeff l := by
    rw [coeff_iterate_derivative, zero_add, Nat.descFactorial_self, nsmul_eq_mul]
  rw [← h1, iterate_derivative_shift, coeff_zero_eq_eval_zero, eval_comp]
  simp

theorem derivs_agree_iff (A B : K[X]) (s t : K) (c : ℕ) :
    (∀ l ≤ c, (derivative^[l] A).eval s = (derivative^[l] B).eval t) ↔
      ∀ l ≤ c, (B.comp (X + C t) - A.comp (X + C s)).coeff l = 0 := by
  refine forall₂_congr fun l _ => ?_
  rw [coeff_shift, coeff_shift, coeff_sub, sub_eq_zero]
  have : (l.factorial : K) ≠ 0 := Nat.cast_ne_zero.2 (Nat.factorial_ne_zero l)
  constructor
  · intro h; exact (mul_left_cancel₀ this h).symm
  · intro h; rw [h]

theorem IsForm.sub {p : ℕ} {f g : Multiset K → K} (hf : IsForm p f) (hg : IsForm p g) : IsForm p (fun s => f s - g s) := by
  intro m hm a s t
  have h1 := hf m hm a s t
  have h2 := hg m hm a s t
  dsimp only
  rw [h1, h2]
  simp only [smul_eq_mul]
  ring

theorem formD_sub (f g : Multiset K → K) : ∀ (i : ℕ) (m : Multiset K), formD (fun s => f s - g s) i m = formD f i m - formD g i m
  | 0, _ => rfl
  | i + 1, m => by
    simp only [formD]
    rw [formD_sub f g i, formD_sub f g i]
    ring

theorem diagPoly_sub (p : ℕ) (f g : Multiset K → K) : diagPoly p (fun s => f s - g s) = diagPoly p f - diagPoly p g := by
  unfold diagPoly
  rw [← Finset.sum_sub_distrib]
  refine Finset.sum_congr rfl fun i _ => ?_
  rw [formD_sub, mul_sub, C_sub, sub_mul]

theorem kn_map (U : ℤ → K) (i : ℤ) (c : ℕ) (g : K → K) : (kn U i c).map g = kn (fun j => g (U j)) i c := by
  unfold kn
  rw [Multiset.map_map]
  rfl

/-- knots of period `V (n + 1) - V p`, with ends of multiplicity `p - c` -/
structure PeriodicKnots (n : ℤ) (p c : ℕ) (V : ℤ → K) : Prop where
  lt : c < p
  mid : ∀ j : ℤ, c < j → j ≤ p → V j = V p
  shift : ∀ j : ℤ, 0 ≤ j → j ≤ p + 1 + c → V (n - c + j) = V j + (V (n + 1) - V p)

section
variable {n : ℤ} {p c : ℕ} {V : ℤ → K}

/-- the windows of the first `c + 1` control points, without the copies of the end knot, which is moved to 0 -/
def window (p c : ℕ) (V : ℤ → K) (i : ℕ) : Multiset K :=
  (kn V i (c - i) + kn V p i).map (· - V p)

theorem window_card {i : ℕ} (hi : i ≤ c) : (window p c V i).card = c := by
  unfold window kn
  simp
  omega

theorem window_lo (hper : PeriodicKnots n p c V) {i : ℕ} (hi : i ≤ c) :
    kn V i p = (window p c V i + Multiset.replicate (p - c) 0).map (· + V p) := by
  have hc := hper.lt
  have e1 : kn V i p = kn V i (c - i) + (kn V c (p - c) + kn V p i) := by
    rw [show p = (c - i) + ((p - c) + i) by omega, kn_add, kn_add]
    congr 3 <;> push_cast <;> omega
  have e2 : kn V c (p - c) = Multiset.replicate (p - c) (V p) := kn_const (fun l b1 b2 => hper.mid _ (by omega) (by omega))
  rw [e1, e2]
  unfold window
  rw [Multiset.map_add, Multiset.map_map]
  simp only [Function.comp_def, sub_add_cancel, Multiset.map_id', Multiset.map_replicate, zero_add]
  rw [add_assoc]
  congr 1
  exact add_comm _ _

theorem window_hi (hper : PeriodicKnots n p c V) {i : ℕ} (hi : i ≤ c) :
    kn V (n - c + i) p = (window p c V i + Multiset.replicate (p - c) 0).map (· + V (n + 1)) := by
  have e : kn V (n - c + i) p = (kn V i p).map (· + (V (n + 1) - V p)) := by
    rw [kn_map]
    refine kn_congr fun l b1 b2 => ?_
    have := hper.shift (i + l) (by omega) (by omega)
    rw [← this]
    congr 1
    ring
  rw [e, window_lo hper hi, Multiset.map_map]
  congr 1
  funext x
  simp

/-- the difference of the two end pieces, both ends moved to 0 -/
theorem end_forms (hv : ValidKnots n p V) (P : ℤ → K) :
    ∃ f g : Multiset K → K, IsForm p f ∧ IsForm p g ∧
      (∀ i : ℤ, 0 ≤ i → i ≤ p → P i = f (kn V i p)) ∧ (∀ i : ℤ, n - p ≤ i → i ≤ n → P i = g (kn V i p)) ∧
      (∀ u, V p ≤ u → u < V (p + 1) → curve n p V P u = f (Multiset.replicate p u)) ∧
      (∀ u, V n < u → u ≤ V (n + 1) → curve n p V P u = g (Multiset.replicate p u)) := by
  have hs := hv.sorted
  have hle := hv.le
  have w1 : Win V p p := Win.of_sorted hs hv.first (by omega) (by omega)
  have w2 : Win V n p := Win.of_sorted hs hv.last (by omega) (by omega)
  obtain ⟨f, hf, hfr⟩ := exists_form P w1
  obtain ⟨g, hg, hgr⟩ := exists_form P w2
  refine ⟨f, g, hf, hg, fun i h1 h2 => hfr i (by omega) h2, fun i h1 h2 => hgr i h1 h2, fun u h1 h2 => ?_, fun u h1 h2 => ?_⟩
  · exact SpanOf.curve_form ⟨le_rfl, by omega, Or.inl ⟨h1, h2⟩⟩ hs hf hfr
  · refine SpanOf.curve_form ⟨by omega, le_rfl, ?_⟩ hs hg hgr
    rcases h2.eq_or_lt with h | h
    · exact Or.inr ⟨h1, h, h⟩
    · exact Or.inl ⟨h1.le, h⟩

/-- a curve on periodic knots that closes to order `c` has wrapped control points -/
theorem curve_wraps (hv : ValidKnots n p V) (hper : PeriodicKnots n p c V) {P : ℤ → K}
    (h : ClosesTo (curve n p V P) (V p) (V (n + 1)) c) {i : ℕ} (hi : i ≤ c) : P i = P (n - c + i) := by
  have hc := hper.lt
  have hle := hv.le
  have hs := hv.sorted
  obtain ⟨f, g, hf, hg, hP, hQ, hl, hr⟩ := end_forms hv P
  obtain ⟨A, B, δ, hδ, hA, hB, hd⟩ := h
  have hlt : V p < V (n + 1) := lt_of_lt_of_le hv.first (hs _ _ (by omega) (by omega) (by omega))
  have i1 : (Set.Ico (V p) (min (V p + δ) (V (p + 1)))).Infinite := Set.Ico_infinite (lt_min (by linarith) hv.first)
  have i2 : (Set.Ioc (max (V (n + 1) - δ) (V n)) (V (n + 1))).Infinite := Set.Ioc_infinite (max_lt (by linarith) hv.last)
  have d1 := diag_shift hf (V p) (A := A) i1 (fun u hu => by
    have h2 := lt_min_iff.1 hu.2
    rw [← hl u hu.1 h2.2]
    exact hA u hu.1 h2.1 (h2.2.le.trans (hs _ _ (by omega) (by omega) (by omega))))
  have d2 := diag_shift hg (V (n + 1)) (A := B) i2 (fun u hu => by
    have h2 := max_lt_iff.1 hu.1
    rw [← hr u h2.2 hu.2]
    exact hB u h2.1 hu.2 ((hs p n (by omega) (by omega) (by omega)).trans h2.2.le))
  rw [derivs_agree_iff, ← d1, ← d2, ← diagPoly_sub] at hd
  have key := form_flat ((hg.shift (V (n + 1))).sub (hf.shift (V p))) (by omega) hd (window_card (p := p) (V := V) hi)
  rw [← window_lo hper hi, ← window_hi hper hi, sub_eq_zero] at key
  rw [hP i (by omega) (by omega), hQ (n - c + i) (by omega) (by omega), key]

/-- a curve on periodic knots with wrapped control points closes to order `c` -/
theorem curve_closes (hv : ValidKnots n p V) (hper : PeriodicKnots n p c V) {P : ℤ → K}
    (h : ∀ i : ℕ, i ≤ c → P i = P (n - c + i)) : ClosesTo (curve n p V P) (V p) (V (n + 1)) c := by
  have hc := hper.lt
  have hle := hv.le
  have hs := hv.sorted
  obtain ⟨f, g, hf, hg, hP, hQ, hl, hr⟩ := end_forms hv P
  refine ⟨diagPoly p f, diagPoly p g, min (V (p + 1) - V p) (V (n + 1) - V n),
    lt_min (sub_pos.2 hv.first) (sub_pos.2 hv.last), fun u h1 h2 _ => ?_, fun u h1 h2 _ => ?_, ?_⟩
  · rw [diagPoly_eval hf, hl u h1]
    have := min_le_left (V (p + 1) - V p) (V (n + 1) - V n)
    linarith
  · rw [diagPoly_eval hg, hr u _ h2]
    have := min_le_right (V (p + 1) - V p) (V (n + 1) - V n)
    linarith
  · have d1 := diag_shift hf (V p) (A := diagPoly p f) (S := Set.univ) Set.infinite_univ (fun u _ => (diagPoly_eval hf u).symm)
    have d2 := diag_shift hg (V (n + 1)) (A := diagPoly p g) (S := Set.univ) Set.infinite_univ
      (fun u _ => (diagPoly_eval hg u).symm)
    rw [derivs_agree_iff, ← d1, ← d2, ← diagPoly_sub]
    have hh := (hg.shift (V (n + 1))).sub (hf.shift (V p))
    refine flat_form (by omega) fun m hm => ?_
    -- the form of degree `c` in the remaining arguments
    let F : Multiset K → K := fun m => (fun s => g (s.map (· + V (n + 1))) - f (s.map (· + V p))) (m + Multiset.replicate (p - c) 0)
    have hF : IsForm c F := by
      intro m hm a s t
      have := hh (m + Multiset.replicate (p - c) 0) (by simp; omega) a s t
      simp only [← Multiset.cons_add] at this
      exact this
    -- the knots without the copies of the end
    let S : ℤ → K := fun j => (if j ≤ c then V j else V (p - c + j)) - V p
    have hlo : ∀ j : ℤ, 0 ≤ j → j ≤ c → V j ≤ V p := fun j h1 h2 => hs j p h1 (by omega) (by omega)
    have hw : Win S c c := by
      intro i j h1 h2 h3 h4
      show (if i ≤ c then V i else V (p - c + i)) - V p < (if j ≤ c then V j else V (p - c + j)) - V p
      rw [if_pos h2, if_neg (by omega)]
      have := hlo i (by omega) h2
      have := hs (p + 1) (p - c + j) (by omega) (by omega) (by omega)
      have := hv.first
      linarith
    have hwin : ∀ i : ℕ, i ≤ c → kn S i c = window p c V i := by
      intro i hi
      unfold window
      rw [Multiset.map_add, kn_map, kn_map, show c = (c - i) + i by omega, kn_add]
      rw [show (c - i) + i - i = c - i by omega]
      congr 1
      · refine kn_congr fun l b1 b2 => ?_
        show (if (i : ℤ) + l ≤ c then _ else _) - V p = V (i + l) - V p
        rw [if_pos (by omega)]
      · refine kn_congr fun l b1 b2 => ?_
        show (if (i : ℤ) + ((c - i : ℕ) : ℤ) + l ≤ c then _ else _) - V p = V (p + l) - V p
        rw [if_neg (by omega)]
        congr 2
        omega
    have hz : ∀ m : Multiset K, m.card = c → F m = 0 := by
      intro m hm
      refine form_unique (g := fun _ => 0) (P := fun _ => 0) hF (fun m _ a s t => by simp) hw ?_ (fun _ _ _ => rfl) hm
      intro i h1 h2
      obtain ⟨i, rfl⟩ := Int.eq_ofNat_of_zero_le (show 0 ≤ i by omega)
      have hi : i ≤ c := by omega
      rw [hwin i hi]
      show 0 = g ((window p c V i + Multiset.replicate (p - c) 0).map _) - f ((window p c V i + Multiset.replicate (p - c) 0).map _)
      rw [← window_lo hper hi, ← window_hi hper hi, ← hP i (by omega) (by omega), ← hQ (n - c + i) (by omega) (by omega), h i hi,
        sub_self]
    exact hz m hm

end

end Igakit
