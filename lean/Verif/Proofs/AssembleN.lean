import Verif.Spec.AssembleN
import Verif.Props.Assemble
import Verif.Props.Derivs
import Mathlib.MeasureTheory.Integral.Pi
import Verif.Proofs.Tensor
import Mathlib.MeasureTheory.Measure.Lebesgue.Basic
import Mathlib.Algebra.MvPolynomial.Degrees
import Mathlib.Algebra.MvPolynomial.Eval
import Mathlib.Algebra.BigOperators.Ring.Finset
import Mathlib.Algebra.Order.BigOperators.Ring.Finset

/-!
# Helper lemmas: quadrature and assembly over surfaces and volumes
-/

set_option linter.unusedSectionVars false

namespace Igakit
open Spec MeasureTheory

variable {ι : Type} [Fintype ι] [DecidableEq ι]

/-- products of nearly equal factors -/
theorem prod_error (s : Finset ι) {A I c ε : ι → ℝ} (h : ∀ a ∈ s, |A a - I a| ≤ ε a) (hI : ∀ a ∈ s, |I a| ≤ c a) :
    |∏ a ∈ s, A a - ∏ a ∈ s, I a| ≤ ∏ a ∈ s, (c a + ε a) - ∏ a ∈ s, c a ∧ |∏ a ∈ s, A a| ≤ ∏ a ∈ s, (c a + ε a) := by
  induction s using Finset.induction_on with
  | empty => simp
  | insert x s hx ih =>
    obtain ⟨i1, i2⟩ := ih (fun a ha => h a (Finset.mem_insert_of_mem ha)) (fun a ha => hI a (Finset.mem_insert_of_mem ha))
    have h1 := h x (Finset.mem_insert_self _ _)
    have h2 := hI x (Finset.mem_insert_self _ _)
    have h3 : |A x| ≤ c x + ε x := by
      have := abs_add_le (I x) (A x - I x)
      rw [add_sub_cancel] at this
      linarith
    rw [Finset.prod_insert hx, Finset.prod_insert hx, Finset.prod_insert hx, Finset.prod_insert hx]
    refine ⟨?_, by rw [abs_mul]; exact mul_le_mul h3 i2 (abs_nonneg _) ((abs_nonneg _).trans h3)⟩
    calc |A x * ∏ a ∈ s, A a - I x * ∏ a ∈ s, I a|
        = |(A x - I x) * ∏ a ∈ s, A a + I x * (∏ a ∈ s, A a - ∏ a ∈ s, I a)| := by congr 1; ring
      _ ≤ |A x - I x| * |∏ a ∈ s, A a| + |I x| * |∏ a ∈ s, A a - ∏ a ∈ s, I a| := by
          rw [← abs_mul, ← abs_mul]; exact abs_add_le _ _
      _ ≤ ε x * ∏ a ∈ s, (c a + ε a) + c x * (∏ a ∈ s, (c a + ε a) - ∏ a ∈ s, c a) :=
          add_le_add (mul_le_mul h1 i2 (abs_nonneg _) ((abs_nonneg _).trans h1))
            (mul_le_mul h2 i1 (abs_nonneg _) ((abs_nonneg _).trans h2))
      _ = _ := by ring

/-- the sum of the absolute values of the coefficients -/
noncomputable def l1m (R : MvPolynomial ι ℝ) : ℝ := ∑ m ∈ R.support, |R.coeff m|

/-! ## sums of absolute coefficients of polynomials in several variables -/

open MvPolynomial in
theorem l1m_le_of_subset {R : MvPolynomial ι ℝ} {s : Finset (ι →₀ ℕ)} (h : R.support ⊆ s) :
    l1m R = ∑ m ∈ s, |R.coeff m| :=
  Finset.sum_subset h fun m _ hm => by rw [notMem_support_iff.1 hm, abs_zero]

theorem l1m_nonneg (R : MvPolynomial ι ℝ) : 0 ≤ l1m R := Finset.sum_nonneg fun _ _ => abs_nonneg _

theorem l1m_zero : l1m (0 : MvPolynomial ι ℝ) = 0 := by simp [l1m]

theorem l1m_add (R S : MvPolynomial ι ℝ) : l1m (R + S) ≤ l1m R + l1m S := by
  rw [l1m_le_of_subset (MvPolynomial.support_add (p := R) (q := S)),
    l1m_le_of_subset (R := R) (s := R.support ∪ S.support) Finset.subset_union_left,
    l1m_le_of_subset (R := S) (s := R.support ∪ S.support) Finset.subset_union_right, ← Finset.sum_add_distrib]
  exact Finset.sum_le_sum fun m _ => by rw [MvPolynomial.coeff_add]; exact abs_add_le _ _

theorem l1m_sum {α : Type*} (s : Finset α) (F : α → MvPolynomial ι ℝ) : l1m (∑ x ∈ s, F x) ≤ ∑ x ∈ s, l1m (F x) := by
  classical
  induction s using Finset.induction_on with
  | empty => simp [l1m_zero]
  | insert x s hx ih => rw [Finset.sum_insert hx, Finset.sum_insert hx]; exact (l1m_add _ _).trans (by linarith)

theorem l1m_monomial (m : ι →₀ ℕ) (c : ℝ) : l1m (MvPolynomial.monomial m c) ≤ |c| := by
  rw [l1m_le_of_subset (MvPolynomial.support_monomial_subset), Finset.sum_singleton, MvPolynomial.coeff_monomial, if_pos rfl]

theorem l1m_mul (R S : MvPolynomial ι ℝ) : l1m (R * S) ≤ l1m R * l1m S := by
  rw [MvPolynomial.mul_def]
  unfold l1m
  rw [Finset.sum_mul]
  refine (l1m_sum _ _).trans (Finset.sum_le_sum fun m _ => ?_)
  rw [Finset.mul_sum]
  refine (l1m_sum _ _).trans (Finset.sum_le_sum fun k _ => ?_)
  exact (l1m_monomial _ _).trans (le_of_eq (abs_mul _ _))

theorem l1m_C (c : ℝ) : l1m (MvPolynomial.C c : MvPolynomial ι ℝ) ≤ |c| := l1m_monomial _ _

theorem l1m_prod {α : Type*} (s : Finset α) (F : α → MvPolynomial ι ℝ) : l1m (∏ x ∈ s, F x) ≤ ∏ x ∈ s, l1m (F x) := by
  classical
  induction s using Finset.induction_on with
  | empty => simpa using l1m_C (ι := ι) 1
  | insert x s hx ih =>
    rw [Finset.prod_insert hx, Finset.prod_insert hx]
    exact (l1m_mul _ _).trans (mul_le_mul_of_nonneg_left ih (l1m_nonneg _))

/-- a polynomial in the variable `a` -/
noncomputable def inVar (a : ι) (P : Polynomial ℝ) : MvPolynomial ι ℝ :=
  ∑ k ∈ Finset.range (P.natDegree + 1), MvPolynomial.monomial (Finsupp.single a k) (P.coeff k)

theorem l1m_inVar (a : ι) (P : Polynomial ℝ) : l1m (inVar a P) ≤ l1n P :=
  (l1m_sum _ _).trans (Finset.sum_le_sum fun _ _ => l1m_monomial _ _)

theorem eval_inVar (a : ι) (P : Polynomial ℝ) (t : ι → ℝ) : MvPolynomial.eval t (inVar a P) = P.eval (t a) := by
  unfold inVar
  rw [map_sum, Polynomial.eval_eq_sum_range]
  refine Finset.sum_congr rfl fun k _ => ?_
  simp [MvPolynomial.eval_monomial]

theorem degreeOf_inVar (a b : ι) (P : Polynomial ℝ) :
    (inVar a P).degreeOf b ≤ if b = a then P.natDegree else 0 := by
  unfold inVar
  refine (MvPolynomial.degreeOf_sum_le _ _ _).trans (Finset.sup_le fun k hk => ?_)
  have hk' := Finset.mem_range.1 hk
  by_cases h0 : P.coeff k = 0
  · rw [h0]; simp
  · rw [MvPolynomial.degreeOf_monomial_eq _ _ h0, Finsupp.single_apply]
    split_ifs with h1 h2 h2
    · omega
    · exact absurd h1.symm h2
    · exact absurd h2.symm h1
    · exact le_rfl

/-! ## functions which are polynomials in a box -/

section
variable {U : ι → ℤ → ℝ} {k : ι → ℤ} {D D' : ι → ℕ} {M M' : ℝ} {f f' : (ι → ℝ) → ℝ}

theorem Spec.CellPoly.nonneg (h : CellPoly U k D M f) : 0 ≤ M := by
  obtain ⟨R, _, h2, _⟩ := h; exact (l1m_nonneg R).trans h2

theorem Spec.CellPoly.mono (h : CellPoly U k D M f) (hD : ∀ a, D a ≤ D' a) (hM : M ≤ M') : CellPoly U k D' M' f := by
  obtain ⟨R, h1, h2, h3⟩ := h
  exact ⟨R, fun a => (h1 a).trans (hD a), h2.trans hM, h3⟩

theorem Spec.CellPoly.add (h : CellPoly U k D M f) (h' : CellPoly U k D M' f') : CellPoly U k D (M + M') fun x => f x + f' x := by
  obtain ⟨R, h1, h2, h3⟩ := h
  obtain ⟨S, h4, h5, h6⟩ := h'
  refine ⟨R + S, fun a => (MvPolynomial.degreeOf_add_le a R S).trans (max_le (h1 a) (h4 a)),
    (l1m_add R S).trans (add_le_add h2 h5), fun t t1 t2 => ?_⟩
  rw [map_add, ← h3 t t1 t2, ← h6 t t1 t2]

theorem Spec.CellPoly.mul (h : CellPoly U k D M f) (h' : CellPoly U k D' M' f') :
    CellPoly U k (fun a => D a + D' a) (M * M') fun x => f x * f' x := by
  have hM := h.nonneg
  obtain ⟨R, h1, h2, h3⟩ := h
  obtain ⟨S, h4, h5, h6⟩ := h'
  refine ⟨R * S, fun a => (MvPolynomial.degreeOf_mul_le a R S).trans (add_le_add (h1 a) (h4 a)),
    (l1m_mul R S).trans (mul_le_mul h2 h5 (l1m_nonneg S) hM), fun t t1 t2 => ?_⟩
  rw [map_mul, ← h3 t t1 t2, ← h6 t t1 t2]

theorem Spec.CellPoly.const (U : ι → ℤ → ℝ) (k : ι → ℤ) (c : ℝ) : CellPoly U k (fun _ => 0) |c| fun _ => c :=
  ⟨MvPolynomial.C c, fun a => by rw [MvPolynomial.degreeOf_C], l1m_C c, fun t _ _ => by rw [MvPolynomial.eval_C]⟩

theorem Spec.CellPoly.sum {α : Type*} (s : Finset α) {F : α → (ι → ℝ) → ℝ} {m : α → ℝ}
    (h : ∀ i ∈ s, CellPoly U k D (m i) (F i)) : CellPoly U k D (∑ i ∈ s, m i) fun x => ∑ i ∈ s, F i x := by
  classical
  induction s using Finset.induction_on with
  | empty => simpa using (CellPoly.const U k 0).mono (D' := D) (fun a => Nat.zero_le _) le_rfl
  | insert i s hi ih =>
    simp only [Finset.sum_insert hi]
    exact (h i (Finset.mem_insert_self _ _)).add (ih fun j hj => h j (Finset.mem_insert_of_mem hj))

theorem Spec.CellPoly.congr (h : CellPoly U k D M f) (hk : ∀ a, U a (k a) < U a (k a + 1))
    (he : ∀ x, (∀ a, U a (k a) < x a ∧ x a < U a (k a + 1)) → f' x = f x) : CellPoly U k D M f' := by
  obtain ⟨R, h1, h2, h3⟩ := h
  refine ⟨R, h1, h2, fun t t1 t2 => ?_⟩
  rw [he, h3 t t1 t2]
  intro a
  have := hk a
  have := t1 a
  have := t2 a
  constructor <;> nlinarith

theorem Spec.CellPoly.finprod {α : Type*} (s : Finset α) {F : α → (ι → ℝ) → ℝ} {m : α → ℝ} {d : α → ι → ℕ}
    (h : ∀ i ∈ s, CellPoly U k (d i) (m i) (F i)) :
    CellPoly U k (fun a => ∑ i ∈ s, d i a) (∏ i ∈ s, m i) fun x => ∏ i ∈ s, F i x := by
  classical
  induction s using Finset.induction_on with
  | empty => simpa using CellPoly.const U k 1
  | insert i s hi ih =>
    simp only [Finset.sum_insert hi, Finset.prod_insert hi]
    exact (h i (Finset.mem_insert_self _ _)).mul (ih fun j hj => h j (Finset.mem_insert_of_mem hj))

/-- a product of functions of one variable each -/
theorem Spec.CellPoly.prod {F : ι → ℝ → ℝ} {P : ι → Polynomial ℝ} {m : ι → ℝ} (h1 : ∀ a, (P a).natDegree ≤ D a)
    (h2 : ∀ a, l1n (P a) ≤ m a)
    (h3 : ∀ a t, -1 < t → t < 1 → F a (U a (k a) + (t + 1) * ((U a (k a + 1) - U a (k a)) / 2)) = (P a).eval t) :
    CellPoly U k D (∏ a, m a) fun x => ∏ a, F a (x a) := by
  refine ⟨∏ a, inVar a (P a), fun b => ?_, ?_, fun t t1 t2 => ?_⟩
  · refine (MvPolynomial.degreeOf_prod_le _ _ _).trans ?_
    refine (Finset.sum_le_sum fun a _ => degreeOf_inVar a b (P a)).trans ?_
    rw [Finset.sum_ite_eq]
    simpa using h1 b
  · exact (l1m_prod _ _).trans (Finset.prod_le_prod (fun a _ => l1m_nonneg _) fun a _ => (l1m_inVar _ _).trans (h2 a))
  · rw [map_prod]
    refine Finset.prod_congr rfl fun a _ => ?_
    rw [eval_inVar, h3 a _ (t1 a) (t2 a)]
end

/-- a monomial on one element -/
theorem mono_error {q : ℕ} (h1 : 1 ≤ q) (h2 : q ≤ 10) {c : ℕ} (hc : c < 2 * q) {A J : ℝ} (hJ : 0 < J) :
    |(∑ g ∈ Finset.range q, J * (((legW q).getD g 0 : ℚ) : ℝ) * (((legX q).getD g 0 : ℚ) : ℝ) ^ c) -
      ∫ x in A..(A + 2 * J), ((x - A) / J - 1) ^ c| ≤ J * (3 / 10 ^ 36) ∧
    |∫ x in A..(A + 2 * J), ((x - A) / J - 1) ^ c| ≤ J * 2 := by
  have hab : A < A + 2 * J := by linarith
  have hJ' : (A + 2 * J - A) / 2 = J := by ring
  have := (elem_error h1 h2 hab (f := fun x => ((x - A) / J - 1) ^ c) (R := Polynomial.X ^ c) (by simpa using hc) (by
    intro t _ _
    rw [hJ']
    simp only [Polynomial.eval_pow, Polynomial.eval_X]
    congr 1
    field_simp
    ring)).2
  rw [hJ'] at this
  refine ⟨?_, ?_⟩
  · have e1 : ∑ k ∈ Finset.range (2 * q), |(Polynomial.X ^ c : Polynomial ℝ).coeff k| = 1 := by
      rw [Finset.sum_eq_single c]
      · simp
      · intro b _ hb; rw [Polynomial.coeff_X_pow, if_neg hb, abs_zero]
      · intro h; exact absurd (Finset.mem_range.2 hc) h
    rw [e1, mul_one] at this
    have e2 : ∀ g : ℕ, (((((legX q).getD g 0 : ℚ) : ℝ) + 1) * J + A - A) / J - 1 = (((legX q).getD g 0 : ℚ) : ℝ) := by
      intro g; field_simp; ring
    simpa only [e2] using this
  · have := intervalIntegral.norm_integral_le_of_norm_le_const (a := A) (b := A + 2 * J) (C := 1)
      (f := fun x => ((x - A) / J - 1) ^ c) (by
        intro x hx
        rw [Set.uIoc_of_le hab.le] at hx
        rw [Real.norm_eq_abs, abs_pow]
        refine pow_le_one₀ (abs_nonneg _) ?_
        rw [abs_le]
        have y1 : 0 ≤ (x - A) / J := div_nonneg (by linarith [hx.1]) hJ.le
        have y2 : (x - A) / J ≤ 2 := by rw [div_le_iff₀ hJ]; linarith [hx.2]
        constructor <;> linarith)
    rw [Real.norm_eq_abs] at this
    refine this.trans (le_of_eq ?_)
    rw [abs_of_pos (by linarith)]
    ring

/-- the quadrature on a box of a function which is a polynomial inside -/
theorem cell_error {Q : ι → ℕ} (h1 : ∀ a, 1 ≤ Q a) (h2 : ∀ a, Q a ≤ 10) {A J : ι → ℝ} (hJ : ∀ a, 0 < J a)
    {f : (ι → ℝ) → ℝ} {R : MvPolynomial ι ℝ} (hdeg : ∀ a, R.degreeOf a < 2 * Q a)
    (hf : ∀ t : ι → ℝ, (∀ a, -1 < t a) → (∀ a, t a < 1) → f (fun a => A a + (t a + 1) * J a) = MvPolynomial.eval t R) :
    IntegrableOn f (Set.univ.pi fun a => Set.Ioc (A a) (A a + 2 * J a)) ∧
    |(∑ g ∈ Fintype.piFinset fun a => Finset.range (Q a), (∏ a, J a * (((legW (Q a)).getD (g a) 0 : ℚ) : ℝ)) *
        f (fun a => ((((legX (Q a)).getD (g a) 0 : ℚ) : ℝ) + 1) * J a + A a)) -
      ∫ x in Set.univ.pi fun a => Set.Ioc (A a) (A a + 2 * J a), f x| ≤
      (∏ a, J a) * (l1m R * ((2 + 3 / 10 ^ 36) ^ Fintype.card ι - 2 ^ Fintype.card ι)) := by
  have hdeg' : ∀ m ∈ R.support, ∀ a, m a < 2 * Q a := fun m hm a =>
    (MvPolynomial.degreeOf_lt_iff (by have := h1 a; omega)).1 (hdeg a) m hm
  set G : (ι → ℝ) → ℝ := fun x => ∑ m ∈ R.support, R.coeff m * ∏ a, ((x a - A a) / J a - 1) ^ m a with hG
  have hGc : Continuous G := by fun_prop
  have hin : Set.EqOn f G (Set.univ.pi fun a => Set.Ioo (A a) (A a + 2 * J a)) := by
    intro x hx
    have hx' : ∀ a, A a < x a ∧ x a < A a + 2 * J a := fun a => hx a (Set.mem_univ a)
    have := hf (fun a => (x a - A a) / J a - 1) (fun a => by
      have := div_pos (sub_pos.2 (hx' a).1) (hJ a); linarith) (fun a => by
      have : (x a - A a) / J a < 2 := by rw [div_lt_iff₀ (hJ a)]; linarith [(hx' a).2]
      linarith)
    rw [MvPolynomial.eval_eq'] at this
    rw [hG]
    dsimp only
    rw [← this]
    congr 1
    funext a
    have := (hJ a).ne'
    field_simp
    ring
  have hae : (Set.univ.pi fun a => Set.Ioo (A a) (A a + 2 * J a)) =ᵐ[volume]
      (Set.univ.pi fun a => Set.Ioc (A a) (A a + 2 * J a)) := by
    rw [volume_pi]
    exact Measure.univ_pi_Ioo_ae_eq_Icc.trans Measure.univ_pi_Ioc_ae_eq_Icc.symm
  have hmeas : MeasurableSet (Set.univ.pi fun a => Set.Ioo (A a) (A a + 2 * J a)) :=
    MeasurableSet.univ_pi fun _ => measurableSet_Ioo
  have hGi : IntegrableOn G (Set.univ.pi fun a => Set.Ioo (A a) (A a + 2 * J a)) := by
    refine (hGc.continuousOn.integrableOn_compact (isCompact_univ_pi fun a => isCompact_Icc (a := A a) (b := A a + 2 * J a))).mono_set ?_
    exact Set.pi_mono fun a _ => Set.Ioo_subset_Icc_self
  have hfi : IntegrableOn f (Set.univ.pi fun a => Set.Ioo (A a) (A a + 2 * J a)) :=
    (integrableOn_congr_fun hin hmeas).2 hGi
  refine ⟨hfi.congr_set_ae hae.symm, ?_⟩
  have hprod : ∀ m : ι →₀ ℕ, ∫ x in Set.univ.pi fun a => Set.Ioc (A a) (A a + 2 * J a), ∏ a, ((x a - A a) / J a - 1) ^ m a =
      ∏ a, ∫ x in (A a)..(A a + 2 * J a), ((x - A a) / J a - 1) ^ m a := by
    intro m
    rw [volume_pi, Measure.restrict_pi_pi,
      integral_fintype_prod_eq_prod (fun a (y : ℝ) => ((y - A a) / J a - 1) ^ m a)]
    refine Finset.prod_congr rfl fun a _ => ?_
    rw [intervalIntegral.integral_of_le (by linarith [hJ a])]
  have hI : ∫ x in Set.univ.pi fun a => Set.Ioc (A a) (A a + 2 * J a), f x =
      ∑ m ∈ R.support, R.coeff m * ∏ a, ∫ x in (A a)..(A a + 2 * J a), ((x - A a) / J a - 1) ^ m a := by
    rw [← setIntegral_congr_set hae, setIntegral_congr_fun hmeas hin, setIntegral_congr_set hae, hG, integral_finsetSum]
    · refine Finset.sum_congr rfl fun m _ => ?_
      rw [integral_const_mul, hprod]
    · intro m _
      have : Continuous fun x : ι → ℝ => R.coeff m * ∏ a, ((x a - A a) / J a - 1) ^ m a := by fun_prop
      exact (this.continuousOn.integrableOn_compact (isCompact_univ_pi fun a => isCompact_Icc (a := A a) (b := A a + 2 * J a))).mono_set
        (Set.pi_mono fun a _ => Set.Ioc_subset_Icc_self)
  have hS : ∑ g ∈ Fintype.piFinset fun a => Finset.range (Q a), (∏ a, J a * (((legW (Q a)).getD (g a) 0 : ℚ) : ℝ)) *
        f (fun a => ((((legX (Q a)).getD (g a) 0 : ℚ) : ℝ) + 1) * J a + A a) =
      ∑ m ∈ R.support, R.coeff m * ∏ a, ∑ g ∈ Finset.range (Q a), J a * (((legW (Q a)).getD g 0 : ℚ) : ℝ) *
        (((legX (Q a)).getD g 0 : ℚ) : ℝ) ^ m a := by
    have : ∀ m ∈ R.support, R.coeff m * ∏ a, ∑ g ∈ Finset.range (Q a), J a * (((legW (Q a)).getD g 0 : ℚ) : ℝ) *
        (((legX (Q a)).getD g 0 : ℚ) : ℝ) ^ m a = ∑ g ∈ Fintype.piFinset fun a => Finset.range (Q a),
          (∏ a, J a * (((legW (Q a)).getD (g a) 0 : ℚ) : ℝ)) * (R.coeff m * ∏ a, (((legX (Q a)).getD (g a) 0 : ℚ) : ℝ) ^ m a) := by
      intro m _
      rw [Finset.prod_univ_sum, Finset.mul_sum]
      refine Finset.sum_congr rfl fun g _ => ?_
      rw [Finset.prod_mul_distrib]
      ring
    rw [Finset.sum_congr rfl this, Finset.sum_comm]
    refine Finset.sum_congr rfl fun g hg => ?_
    rw [← Finset.mul_sum]
    congr 1
    have hg' : ∀ a, g a < Q a := fun a => Finset.mem_range.1 (Fintype.mem_piFinset.1 hg a)
    have hx : ∀ a, -1 < (((legX (Q a)).getD (g a) 0 : ℚ) : ℝ) ∧ (((legX (Q a)).getD (g a) 0 : ℚ) : ℝ) < 1 := by
      intro a
      obtain ⟨t1, t2, t3, t4, t5, t6, t7, t8⟩ := leg_table (Q a) (List.mem_range'_1.mpr ⟨by have := h1 a; omega, by have := h2 a; omega⟩)
      have hgl : g a < (legX (Q a)).length := by rw [t1]; exact hg' a
      obtain ⟨x1, x2⟩ := t4 _ (List.getElem_mem hgl)
      rw [List.getD_eq_getElem _ _ hgl]
      exact ⟨by exact_mod_cast x1, by exact_mod_cast x2⟩
    have := hf (fun a => (((legX (Q a)).getD (g a) 0 : ℚ) : ℝ)) (fun a => (hx a).1) (fun a => (hx a).2)
    rw [MvPolynomial.eval_eq'] at this
    rw [← this]
    congr 1
    funext a
    ring
  rw [hS, hI, ← Finset.sum_sub_distrib, l1m, Finset.sum_mul, Finset.mul_sum]
  refine (Finset.abs_sum_le_sum_abs _ _).trans (Finset.sum_le_sum fun m hm => ?_)
  rw [← mul_sub, abs_mul]
  have := (prod_error Finset.univ (fun a _ => (mono_error (h1 a) (h2 a) (hdeg' m hm a) (A := A a) (hJ a)).1)
    (fun a _ => (mono_error (h1 a) (h2 a) (hdeg' m hm a) (A := A a) (hJ a)).2)).1
  refine (mul_le_mul_of_nonneg_left this (abs_nonneg _)).trans (le_of_eq ?_)
  simp only [← mul_add, Finset.prod_mul_distrib, Finset.prod_const, Finset.card_univ]
  ring

/-! ## all elements -/

theorem sum_pi_getElem {M : Type} [AddCommMonoid M] (l : ι → List ℤ) (hn : ∀ a, (l a).Nodup) (F : (ι → ℕ) → M)
    (G : (ι → ℤ) → M) (h : ∀ (e : ι → ℕ) (he : ∀ a, e a < (l a).length), F e = G fun a => (l a)[e a]'(he a)) :
    ∑ e ∈ Fintype.piFinset fun a => Finset.range (l a).length, F e = ∑ k ∈ Fintype.piFinset fun a => (l a).toFinset, G k := by
  refine Finset.sum_nbij (fun e a => (l a).getD (e a) 0) ?_ ?_ ?_ ?_
  · intro e he
    rw [Fintype.mem_piFinset] at he ⊢
    intro a
    have := Finset.mem_range.1 (he a)
    rw [List.mem_toFinset, List.getD_eq_getElem _ _ this]
    exact List.getElem_mem _
  · intro e he e' he' hee
    rw [Finset.mem_coe, Fintype.mem_piFinset] at he he'
    funext a
    have h1 := Finset.mem_range.1 (he a)
    have h2 := Finset.mem_range.1 (he' a)
    have := congrFun hee a
    dsimp only at this
    rw [List.getD_eq_getElem _ _ h1, List.getD_eq_getElem _ _ h2] at this
    exact (hn a).getElem_inj_iff.1 this
  · intro k hk
    rw [Finset.mem_coe, Fintype.mem_piFinset] at hk
    have : ∀ a, ∃ e, ∃ h : e < (l a).length, (l a)[e] = k a := fun a => List.getElem_of_mem (List.mem_toFinset.1 (hk a))
    choose e he1 he2 using this
    refine ⟨e, ?_, ?_⟩
    · rw [Finset.mem_coe, Fintype.mem_piFinset]
      exact fun a => Finset.mem_range.2 (he1 a)
    · funext a
      dsimp only
      rw [List.getD_eq_getElem _ _ (he1 a), he2]
  · intro e he
    rw [Fintype.mem_piFinset] at he
    have he' : ∀ a, e a < (l a).length := fun a => Finset.mem_range.1 (he a)
    rw [h e he']
    congr 1
    funext a
    rw [List.getD_eq_getElem _ _ (he' a)]

/-- the nonempty spans cover the domain -/
theorem spans_cover {U : ℤ → ℝ} {lo : ℤ} : ∀ hi, lo ≤ hi → (∀ k, lo ≤ k → k < hi → U k ≤ U (k + 1)) →
    (⋃ k ∈ (Finset.Ico lo hi).filter fun k => U k < U (k + 1), Set.Ioc (U k) (U (k + 1))) = Set.Ioc (U lo) (U hi) ∧
    ∑ k ∈ Finset.Ico lo hi with U k < U (k + 1), (U (k + 1) - U k) = U hi - U lo ∧ U lo ≤ U hi := by
  intro hi hle
  induction hi, hle using Int.le_induction with
  | base => intro _; simp
  | succ m hm ih =>
    intro hs
    obtain ⟨i1, i2, i3⟩ := ih (fun k a b => hs k a (by omega))
    have hsum : Finset.Ico lo (m + 1) = insert m (Finset.Ico lo m) := by
      ext x; simp only [Finset.mem_Ico, Finset.mem_insert]; omega
    have hle := hs m hm (by omega)
    rcases hle.lt_or_eq with hlt | heq
    · rw [hsum, Finset.filter_insert, if_pos hlt, Finset.sum_insert (by simp), i2, Finset.set_biUnion_insert, i1,
        Set.union_comm, Set.Ioc_union_Ioc_eq_Ioc i3 hle]
      exact ⟨rfl, by ring, i3.trans hle⟩
    · rw [hsum, Finset.filter_insert, if_neg heq.not_lt, ← heq]
      exact ⟨i1, i2, i3⟩

theorem spans_disjoint {U : ℤ → ℝ} {lo hi k k' : ℤ} (hs : SortedOn U lo hi) (h1 : lo ≤ k) (h2 : k < hi) (h3 : lo ≤ k')
    (h4 : k' < hi) (h : k ≠ k') : Disjoint (Set.Ioc (U k) (U (k + 1))) (Set.Ioc (U k') (U (k' + 1))) := by
  rw [Set.disjoint_left]
  rintro x ⟨a1, a2⟩ ⟨b1, b2⟩
  rcases lt_or_gt_of_ne h with h | h
  · have := hs (k + 1) k' (by omega) (by omega) (by omega); linarith
  · have := hs (k' + 1) k (by omega) (by omega) (by omega); linarith

/-- the quadrature over the boxes of the nonempty spans -/
theorem boxes_error {Q : ι → ℕ} (h1 : ∀ a, 1 ≤ Q a) (h2 : ∀ a, Q a ≤ 10) {U : ι → ℤ → ℝ} {lo hi : ι → ℤ}
    (hle : ∀ a, lo a ≤ hi a) (hs : ∀ a, SortedOn (U a) (lo a) (hi a)) {f : (ι → ℝ) → ℝ} {M : ℝ}
    (hR : ∀ k : ι → ℤ, (∀ a, lo a ≤ k a ∧ k a < hi a ∧ U a (k a) < U a (k a + 1)) → ∃ R : MvPolynomial ι ℝ,
      (∀ a, R.degreeOf a < 2 * Q a) ∧ l1m R ≤ M ∧ ∀ t : ι → ℝ, (∀ a, -1 < t a) → (∀ a, t a < 1) →
        f (fun a => U a (k a) + (t a + 1) * ((U a (k a + 1) - U a (k a)) / 2)) = MvPolynomial.eval t R) :
    IntegrableOn f (Set.univ.pi fun a => Set.Icc (U a (lo a)) (U a (hi a))) ∧
    |(∑ k ∈ Fintype.piFinset fun a => (Finset.Ico (lo a) (hi a)).filter fun k => U a k < U a (k + 1),
        ∑ g ∈ Fintype.piFinset fun a => Finset.range (Q a),
          (∏ a, (U a (k a + 1) - U a (k a)) / 2 * (((legW (Q a)).getD (g a) 0 : ℚ) : ℝ)) *
          f (fun a => ((((legX (Q a)).getD (g a) 0 : ℚ) : ℝ) + 1) * ((U a (k a + 1) - U a (k a)) / 2) + U a (k a))) -
      ∫ x in Set.univ.pi fun a => Set.Icc (U a (lo a)) (U a (hi a)), f x| ≤
      M * ((1 + 3 / 2 / 10 ^ 36) ^ Fintype.card ι - 1) * ∏ a, (U a (hi a) - U a (lo a)) := by
  set T : ι → Finset ℤ := fun a => (Finset.Ico (lo a) (hi a)).filter fun k => U a k < U a (k + 1) with hT
  have hmem : ∀ k ∈ Fintype.piFinset T, ∀ a, lo a ≤ k a ∧ k a < hi a ∧ U a (k a) < U a (k a + 1) := by
    intro k hk a
    have := Fintype.mem_piFinset.1 hk a
    rw [hT, Finset.mem_filter, Finset.mem_Ico] at this
    exact ⟨this.1.1, this.1.2, this.2⟩
  have hstep : ∀ a k, lo a ≤ k → k < hi a → U a k ≤ U a (k + 1) := fun a k b c =>
    hs a k (k + 1) (by omega) (by omega) (by omega)
  have hcov := fun a => spans_cover (hi a) (hle a) (hstep a)
  have hcell : ∀ k ∈ Fintype.piFinset T,
      IntegrableOn f (Set.univ.pi fun a => Set.Ioc (U a (k a)) (U a (k a + 1))) ∧
      |(∑ g ∈ Fintype.piFinset fun a => Finset.range (Q a),
          (∏ a, (U a (k a + 1) - U a (k a)) / 2 * (((legW (Q a)).getD (g a) 0 : ℚ) : ℝ)) *
          f (fun a => ((((legX (Q a)).getD (g a) 0 : ℚ) : ℝ) + 1) * ((U a (k a + 1) - U a (k a)) / 2) + U a (k a))) -
        ∫ x in Set.univ.pi fun a => Set.Ioc (U a (k a)) (U a (k a + 1)), f x| ≤
      (∏ a, (U a (k a + 1) - U a (k a)) / 2) * (M * ((2 + 3 / 10 ^ 36) ^ Fintype.card ι - 2 ^ Fintype.card ι)) := by
    intro k hk
    obtain ⟨R, r1, r2, r3⟩ := hR k (hmem k hk)
    have hJ : ∀ a, 0 < (U a (k a + 1) - U a (k a)) / 2 := fun a => by have := (hmem k hk a).2.2; linarith
    obtain ⟨c1, c2⟩ := cell_error h1 h2 hJ r1 r3
    have e : ∀ a, U a (k a) + 2 * ((U a (k a + 1) - U a (k a)) / 2) = U a (k a + 1) := fun a => by ring
    simp only [e] at c1 c2
    refine ⟨c1, c2.trans (mul_le_mul_of_nonneg_left (mul_le_mul_of_nonneg_right r2 ?_)
      (Finset.prod_nonneg fun a _ => (hJ a).le))⟩
    exact sub_nonneg.2 (pow_le_pow_left₀ (by norm_num) (by norm_num) _)
  have hunion : (⋃ k ∈ Fintype.piFinset T, Set.univ.pi fun a => Set.Ioc (U a (k a)) (U a (k a + 1))) =
      Set.univ.pi fun a => Set.Ioc (U a (lo a)) (U a (hi a)) := by
    ext x
    simp only [Set.mem_iUnion, Set.mem_pi, Set.mem_univ, true_implies, exists_prop, Fintype.mem_piFinset]
    have : ∀ a, x a ∈ Set.Ioc (U a (lo a)) (U a (hi a)) ↔ ∃ k, k ∈ T a ∧ x a ∈ Set.Ioc (U a k) (U a (k + 1)) := by
      intro a
      rw [← (hcov a).1]
      simp only [Set.mem_iUnion, exists_prop]
      rfl
    simp only [this]
    constructor
    · rintro ⟨k, hk, hx⟩ a; exact ⟨k a, hk a, hx a⟩
    · intro h
      choose k hk using h
      exact ⟨k, fun a => (hk a).1, fun a => (hk a).2⟩
  have hae : (Set.univ.pi fun a => Set.Ioc (U a (lo a)) (U a (hi a))) =ᵐ[volume]
      (Set.univ.pi fun a => Set.Icc (U a (lo a)) (U a (hi a))) := by
    rw [volume_pi]
    exact Measure.pi_Ioc_ae_eq_pi_Icc
  have hint : IntegrableOn f (Set.univ.pi fun a => Set.Ioc (U a (lo a)) (U a (hi a))) := by
    rw [← hunion, integrableOn_finset_iUnion]
    exact fun k hk => (hcell k hk).1
  refine ⟨hint.congr_set_ae hae.symm, ?_⟩
  rw [← setIntegral_congr_set hae, ← hunion, integral_biUnion_finset]
  · rw [← Finset.sum_sub_distrib]
    refine (Finset.abs_sum_le_sum_abs _ _).trans ((Finset.sum_le_sum fun k hk => (hcell k hk).2).trans (le_of_eq ?_))
    rw [← Finset.sum_mul, ← Finset.prod_univ_sum (fun a => T a) fun a k => (U a (k + 1) - U a k) / 2]
    have : ∀ a, ∑ k ∈ T a, (U a (k + 1) - U a k) / 2 = (U a (hi a) - U a (lo a)) / 2 := by
      intro a
      rw [← Finset.sum_div]
      congr 1
      exact (hcov a).2.1
    simp only [this]
    rw [Finset.prod_div_distrib, Finset.prod_const, Finset.card_univ,
      show (2 + 3 / 10 ^ 36 : ℝ) = 2 * (1 + 3 / 2 / 10 ^ 36) by norm_num, mul_pow]
    field_simp
  · exact fun k _ => MeasurableSet.univ_pi fun _ => measurableSet_Ioc
  · intro k hk k' hk' hne
    have : ∃ a, k a ≠ k' a := by
      by_contra h
      push Not at h
      exact hne (funext h)
    obtain ⟨a, ha⟩ := this
    have b := hmem k hk a
    have c := hmem k' hk' a
    have := spans_disjoint (hs a) b.1 b.2.1 c.1 c.2.1 ha
    rw [Function.onFun, Set.disjoint_left] at *
    intro x hx hx'
    exact this (hx a (Set.mem_univ a)) (hx' a (Set.mem_univ a))
  · exact fun k hk => (hcell k hk).1

/-! ## the data of the axes -/

section
variable {K : Type} [Field K] [LinearOrder K] [IsStrictOrderedRing K]

/-- the global function `i` at point `g` of element `e` -/
def glob (B : QuadData K) (p l : ℕ) (e g : ℕ) (i : ℤ) : K :=
  ∑ a ∈ Finset.range (p + 1), if B.O e + a = i then B.N e g a l else 0

theorem assembled_glob (B : QuadData K) (Q p l1 l2 : ℕ) (i j : ℤ) : assembled B Q p l1 l2 i j =
    ∑ e ∈ Finset.range B.r.toNat, ∑ g ∈ Finset.range Q, B.J e * B.W g * (glob B p l1 e g i * glob B p l2 e g j) := by
  unfold assembled glob
  refine Finset.sum_congr rfl fun e _ => Finset.sum_congr rfl fun g _ => ?_
  rw [Finset.sum_mul_sum, Finset.mul_sum]
  refine Finset.sum_congr rfl fun a _ => ?_
  rw [Finset.mul_sum]
  refine Finset.sum_congr rfl fun b _ => ?_
  split_ifs <;> first | rfl | (exfalso; tauto) | simp

theorem assembledN_prod {d : ℕ} (B : Fin d → QuadData K) (Q p l1 l2 : Fin d → ℕ) (i j : Fin d → ℤ) :
    assembledN B Q p l1 l2 i j = ∏ a, assembled (B a) (Q a) (p a) (l1 a) (l2 a) (i a) (j a) := by
  unfold assembledN assembled
  rw [Finset.prod_univ_sum]
  refine Finset.sum_congr rfl fun e _ => ?_
  rw [Finset.prod_univ_sum]
  refine Finset.sum_congr rfl fun g _ => ?_
  rw [Finset.prod_univ_sum]
  refine Finset.sum_congr rfl fun α _ => ?_
  rw [Finset.prod_univ_sum]
  refine Finset.sum_congr rfl fun β _ => ?_
  rw [Finset.prod_ite_zero]
  simp only [Finset.mem_univ, true_implies, forall_and, Finset.prod_mul_distrib]

theorem patchSumN_prod {d : ℕ} (B : Fin d → QuadData K) (Q : Fin d → ℕ) (F : Fin d → K → K) :
    patchSumN B Q (fun x => ∏ a, F a (x a)) = ∏ a, patchSum (B a) (Q a) (F a) := by
  unfold patchSumN patchSum
  rw [Finset.prod_univ_sum]
  refine Finset.sum_congr rfl fun e _ => ?_
  rw [Finset.prod_univ_sum]
  refine Finset.sum_congr rfl fun g _ => ?_
  rw [← Finset.prod_mul_distrib]

/-- the data of an axis in terms of the rule and of the polynomials of the spans -/
theorem Spec.IsQuad.raw {eps : K} (heps : 0 ≤ eps) {n : ℤ} {p : ℕ} {U : ℤ → K} {D Q : ℕ} {B : QuadData K}
    (h : IsQuad eps n p U D Q B) : ∃ l : List ℤ,
      l.Pairwise (· < ·) ∧ (∀ k, k ∈ l ↔ (p : ℤ) ≤ k ∧ k ≤ n ∧ U k < U (k + 1)) ∧ B.r = l.length ∧
      (∀ g : ℕ, B.W g = (((legW Q).getD g 0 : ℚ) : K)) ∧
      ∀ (e : ℕ) (he : e < l.length), B.O e = l[e] - p ∧ B.J e = (U (l[e] + 1) - U l[e]) / 2 ∧
        (∀ g : ℕ, B.X e g = ((((legX Q).getD g 0 : ℚ) : K) + 1) * B.J e + U l[e]) ∧
        ∀ (g a l' : ℕ), a ≤ p → l' ≤ D →
          B.N e g a l' = (Polynomial.derivative^[l'] (pieceP U l[e] p (l[e] - p + a))).eval (B.X e g) := by
  obtain ⟨jo, jk, j2, ja, jd, d, q, hd, hq, hB⟩ := h.data
  obtain ⟨l, B', hB', rest⟩ := basisData_raw heps jo jk j2 ja jd h.valid h.sep hd h.ders hq h.one_le h.le_ten
  obtain rfl : B' = B := by rw [hB] at hB'; exact (Except.ok.inj hB').symm
  exact ⟨l, rest⟩

/-- the data does not depend on the unset memory -/
theorem Spec.IsQuad.same {eps : K} (heps : 0 ≤ eps) {n : ℤ} {p : ℕ} {U : ℤ → K} {D Q : ℕ} {B B' : QuadData K}
    (h : IsQuad eps n p U D Q B) (h' : IsQuad eps n p U D Q B') : B'.r = B.r ∧ (∀ g : ℕ, B'.W g = B.W g) ∧
      ∀ e : ℕ, e < B.r.toNat → B'.O e = B.O e ∧ B'.J e = B.J e ∧ (∀ g : ℕ, B'.X e g = B.X e g) ∧
        ∀ (g a l : ℕ), a ≤ p → l ≤ D → B'.N e g a l = B.N e g a l := by
  obtain ⟨l, hl, hm, hr, hW, hE⟩ := h.raw heps
  obtain ⟨l', hl', hm', hr', hW', hE'⟩ := h'.raw heps
  obtain rfl : l' = l := hl'.eq_of_mem_iff hl fun k => by rw [hm, hm']
  refine ⟨by rw [hr, hr'], fun g => by rw [hW, hW'], fun e he => ?_⟩
  have he : e < l'.length := by omega
  obtain ⟨a1, a2, a3, a4⟩ := hE e he
  obtain ⟨b1, b2, b3, b4⟩ := hE' e he
  have hx : ∀ g : ℕ, B'.X e g = B.X e g := fun g => by rw [a3, b3, a2, b2]
  exact ⟨by rw [a1, b1], by rw [a2, b2], hx, fun g a l ha hl => by rw [a4 g a l ha hl, b4 g a l ha hl, hx]⟩

/-- the points of an element lie inside -/
theorem Spec.IsQuad.inside {eps : K} (heps : 0 ≤ eps) {n : ℤ} {p : ℕ} {U : ℤ → K} {D Q : ℕ} {B : QuadData K}
    (h : IsQuad eps n p U D Q B) {e g : ℕ} (he : e < B.r.toNat) (hg : g < Q) : ∃ k, (p : ℤ) ≤ k ∧ k ≤ n ∧ U k < U (k + 1) ∧
      B.O e = k - p ∧ 0 < B.J e ∧ 0 < B.W g ∧ U k < B.X e g ∧ B.X e g < U (k + 1) ∧
      ∀ (a l : ℕ), a ≤ p → l ≤ D → B.N e g a l = (Polynomial.derivative^[l] (pieceP U k p (k - p + a))).eval (B.X e g) := by
  obtain ⟨l, hl, hm, hr, hW, hE⟩ := h.raw heps
  obtain ⟨t1, t2, t3, t4, t5, t6, t7, t8⟩ := leg_table Q (List.mem_range'_1.mpr ⟨by have := h.one_le; omega, by have := h.le_ten; omega⟩)
  have he' : e < l.length := by omega
  obtain ⟨hO, hJ, hX, hN⟩ := hE e he'
  obtain ⟨k1, k2, k3⟩ := (hm _).1 (List.getElem_mem he')
  refine ⟨l[e], k1, k2, k3, hO, ?_, ?_, ?_, ?_, fun a l' => hN g a l'⟩
  · rw [hJ]; linarith
  · have hg' : g < (legW Q).length := by omega
    have := t5 _ (List.getElem_mem hg')
    rw [hW, List.getD_eq_getElem _ _ hg']
    exact_mod_cast this
  all_goals
    have hgl : g < (legX Q).length := by omega
    obtain ⟨x1, x2⟩ := t4 _ (List.getElem_mem hgl)
    have x1' : (-1 : K) < (((legX Q)[g] : ℚ) : K) := by exact_mod_cast x1
    have x2' : (((legX Q)[g] : ℚ) : K) < 1 := by exact_mod_cast x2
    rw [hX, List.getD_eq_getElem _ _ hgl, hJ]
    nlinarith

/-- an axis: coefficients with a vanishing spline at all points vanish -/
theorem Spec.IsQuad.inj {eps : K} (heps : 0 ≤ eps) {n : ℤ} {p : ℕ} {U : ℤ → K} {D Q : ℕ} {B : QuadData K}
    (h : IsQuad eps n p U D Q B) (hpQ : p < Q)
    (hmult : ∀ x, U p < x → x < U (n + 1) → mult U 0 (n + p + 1) x ≤ p + 1) (c : ℤ → K)
    (hc : ∀ e < B.r.toNat, ∀ g < Q, ∑ i ∈ Finset.Icc 0 n, c i * glob B p 0 e g i = 0) (i : ℤ) (i1 : 0 ≤ i) (i2 : i ≤ n) :
    c i = 0 := by
  by_contra hi
  obtain ⟨jo, jk, j2, ja, jd, d, q, hd, hq, hB⟩ := h.data
  obtain ⟨B', hB', _, _, hpos⟩ := C68_mass heps jo jk j2 ja jd h.valid h.sep hd h.ders hq h.one_le h.le_ten
  obtain rfl : B' = B := by rw [hB] at hB'; exact (Except.ok.inj hB').symm
  have := hpos hpQ hmult c ⟨i, i1, i2, hi⟩
  have e : ∑ i ∈ Finset.Icc 0 n, ∑ j ∈ Finset.Icc 0 n, c i * c j * assembled B' Q p 0 0 i j =
      ∑ e ∈ Finset.range B'.r.toNat, ∑ g ∈ Finset.range Q, B'.J e * B'.W g *
        (∑ i ∈ Finset.Icc 0 n, c i * glob B' p 0 e g i) ^ 2 := by
    simp only [assembled_glob, Finset.mul_sum]
    rw [Finset.sum_congr rfl fun i _ => Finset.sum_comm, Finset.sum_comm]
    refine Finset.sum_congr rfl fun e he => ?_
    rw [Finset.sum_congr rfl fun i _ => Finset.sum_comm, Finset.sum_comm]
    refine Finset.sum_congr rfl fun g hg => ?_
    rw [sq, Finset.sum_mul_sum, Finset.mul_sum]
    refine Finset.sum_congr rfl fun i _ => ?_
    rw [Finset.mul_sum]
    exact Finset.sum_congr rfl fun j _ => by ring
  rw [e] at this
  refine this.ne' (Finset.sum_eq_zero fun e he => Finset.sum_eq_zero fun g hg => ?_)
  rw [hc e (Finset.mem_range.1 he) g (Finset.mem_range.1 hg)]
  ring
end

/-- several axes: coefficients with a vanishing spline at all points vanish -/
theorem tensor_inj {K : Type} [Field K] {σ : Type} : ∀ {d : ℕ} {n : Fin d → ℤ} {T : Fin d → σ → Prop} {b : Fin d → σ → ℤ → K},
    (∀ a (c : ℤ → K), (∀ s, T a s → ∑ i ∈ Finset.Icc 0 (n a), c i * b a s i = 0) → ∀ i, 0 ≤ i → i ≤ n a → c i = 0) →
    ∀ c : (Fin d → ℤ) → K,
    (∀ s : Fin d → σ, (∀ a, T a (s a)) → ∑ idx ∈ Fintype.piFinset fun a => Finset.Icc 0 (n a), c idx * ∏ a, b a (s a) (idx a) = 0) →
    ∀ idx, (∀ a, 0 ≤ idx a ∧ idx a ≤ n a) → c idx = 0
  | 0, n, T, b, _, c, h, idx, _ => by
    have := h Fin.elim0 (fun a => a.elim0)
    rw [Finset.sum_eq_single idx] at this
    · simpa using this
    · intro b _ hb
      exact absurd (Subsingleton.elim b idx) hb
    · intro hb
      exact absurd (Fintype.mem_piFinset.mpr (fun a => a.elim0)) hb
  | d + 1, n, T, b, hinj, c, h, idx, hi => by
    have key : ∀ s0, T 0 s0 → ∀ (o : Fin d → ℤ), (∀ b, 0 ≤ o b ∧ o b ≤ n (Fin.succAbove 0 b)) →
        ∑ i ∈ Finset.Icc 0 (n 0), c (Fin.insertNth 0 i o) * b 0 s0 i = 0 := by
      intro s0 hs0 o ho
      refine tensor_inj (n := fun a => n (Fin.succAbove 0 a)) (T := fun a => T (Fin.succAbove 0 a))
        (b := fun a => b (Fin.succAbove 0 a)) (fun a => hinj _)
        (fun o => ∑ i ∈ Finset.Icc 0 (n 0), c (Fin.insertNth 0 i o) * b 0 s0 i) (fun s hs => ?_) o ho
      have := h (Fin.insertNth 0 s0 s) (fun a => by
        refine Fin.succAboveCases 0 ?_ (fun b => ?_) a
        · rw [Fin.insertNth_apply_same]; exact hs0
        · rw [Fin.insertNth_apply_succAbove]; exact hs b)
      rw [sum_piFinset_split 0] at this
      rw [← this]
      refine Finset.sum_congr rfl fun o _ => ?_
      rw [Finset.sum_mul]
      refine Finset.sum_congr rfl fun i _ => ?_
      rw [Fin.prod_univ_succAbove _ 0]
      simp only [Fin.insertNth_apply_same, Fin.insertNth_apply_succAbove]
      ring
    have := hinj 0 (fun i => c (Fin.insertNth 0 i (Fin.removeNth 0 idx)))
      (fun s hs => key s hs (Fin.removeNth 0 idx) (fun b => hi _)) (idx 0) (hi 0).1 (hi 0).2
    rwa [Fin.insertNth_self_removeNth] at this

/-- inside an element the global functions are the B-splines -/
theorem Spec.IsQuad.glob_eq {eps : ℝ} (heps : 0 ≤ eps) {n : ℤ} {p : ℕ} {U : ℤ → ℝ} {D Q : ℕ} {B : QuadData ℝ}
    (h : IsQuad eps n p U D Q B) {e g : ℕ} (he : e < B.r.toNat) (hg : g < Q) {l : ℕ} (hl : l ≤ D) {i : ℤ} (i1 : 0 ≤ i)
    (i2 : i ≤ n) : glob B p l e g i = iteratedDeriv l (bsplineD n U p i) (B.X e g) := by
  obtain ⟨k, k1, k2, k3, hO, _, _, x1, x2, hN⟩ := h.inside heps he hg
  rw [iteratedDeriv_span h.valid.sorted k1 k2 i1 i2 l x1 x2]
  rw [← sum_local (p := p) (o := k - p) (i := i) (fun i => (Polynomial.derivative^[l] (pieceP U k p i)).eval (B.X e g)) (fun h => by
      have : pieceP U k p i = 0 := by
        rcases h with h | h
        · exact pieceP_zero_of_lt _ _ _ _ (by omega)
        · exact pieceP_zero_of_gt _ _ _ _ (by omega)
      rw [this, Polynomial.iterate_derivative_zero, Polynomial.eval_zero])]
  unfold glob
  refine Finset.sum_congr rfl fun a ha => ?_
  rw [hN a l (by have := Finset.mem_range.1 ha; omega) hl, hO]

/-- the local sums are sums over all functions -/
theorem localSum_eq {d : ℕ} {eps : ℝ} (heps : 0 ≤ eps) {n : Fin d → ℤ} {p D Q : Fin d → ℕ} {U : Fin d → ℤ → ℝ}
    {B : Fin d → QuadData ℝ} (hB : ∀ a, IsQuad eps (n a) (p a) (U a) (D a) (Q a) (B a)) {l : Fin d → ℕ}
    (hl : ∀ a, l a ≤ D a) (P : (Fin d → ℤ) → ℝ) {e g : Fin d → ℕ} (he : ∀ a, e a < (B a).r.toNat) (hg : ∀ a, g a < Q a) :
    localSum B p l P e g = tensorD n p U l P fun a => (B a).X (e a) (g a) := by
  unfold localSum tensorD
  have h1 : ∀ idx ∈ Fintype.piFinset (fun a => Finset.Icc 0 (n a)),
      (∏ a, iteratedDeriv (l a) (bsplineD (n a) (U a) (p a) (idx a)) ((B a).X (e a) (g a))) * P idx =
      ∑ α ∈ Fintype.piFinset fun a => Finset.range (p a + 1),
        if (∀ a, (B a).O (e a) + α a = idx a) then (∏ a, (B a).N (e a) (g a) (α a) (l a)) * P idx else 0 := by
    intro idx hidx
    have hi : ∀ a, 0 ≤ idx a ∧ idx a ≤ n a := fun a => Finset.mem_Icc.1 (Fintype.mem_piFinset.1 hidx a)
    rw [Finset.prod_congr rfl fun a _ => ((hB a).glob_eq heps (he a) (hg a) (hl a) (hi a).1 (hi a).2).symm]
    unfold glob
    rw [Finset.prod_univ_sum, Finset.sum_mul]
    refine Finset.sum_congr rfl fun α _ => ?_
    rw [Finset.prod_ite_zero]
    simp only [Finset.mem_univ, true_implies, ite_mul, zero_mul]
  rw [Finset.sum_congr rfl h1, Finset.sum_comm]
  refine Finset.sum_congr rfl fun α hα => ?_
  have hα' : ∀ a, α a ≤ p a := fun a => by have := Finset.mem_range.1 (Fintype.mem_piFinset.1 hα a); omega
  rw [Finset.sum_eq_single fun a => (B a).O (e a) + α a]
  · rw [if_pos fun _ => rfl]
  · intro idx _ hne
    rw [if_neg fun h => hne (funext fun a => (h a).symm)]
  · intro hno
    refine absurd (Fintype.mem_piFinset.2 fun a => Finset.mem_Icc.2 ?_) hno
    obtain ⟨k, k1, k2, k3, hO, _⟩ := (hB a).inside heps (he a) (hg a)
    have := hα' a
    omega

/-- a derivative of a tensor product spline in a box -/
theorem tensorD_cell {d : ℕ} {n : Fin d → ℤ} {p : Fin d → ℕ} {U : Fin d → ℤ → ℝ}
    (hv : ∀ a, ValidKnots (n a) (p a) (U a)) {δ : Fin d → ℝ} (h0 : ∀ a, 0 < δ a) {k : Fin d → ℤ}
    (hk : ∀ a, (p a : ℤ) ≤ k a ∧ k a ≤ n a ∧ U a (k a) < U a (k a + 1)) (hδ : ∀ a, δ a ≤ U a (k a + 1) - U a (k a))
    (l : Fin d → ℕ) {P : (Fin d → ℤ) → ℝ} {m : ℝ} (hP : ∀ idx, (∀ a, 0 ≤ idx a ∧ idx a ≤ n a) → |P idx| ≤ m) :
    CellPoly U k (fun a => p a - l a) (m * ∏ a, ((p a + 1) * (2 ^ p a * (2 * p a / δ a) ^ l a)))
      (tensorD n p U l P) := by
  have hm : 0 ≤ m := (abs_nonneg _).trans (hP (fun _ => 0) fun a => ⟨le_rfl, by have := (hv a).one_le; have := (hv a).le; omega⟩)
  set c : (Fin d → ℤ) → ℝ := fun idx => if ∀ a, k a - p a ≤ idx a ∧ idx a ≤ k a then
    m * ∏ a, (2 ^ p a * (2 * p a / δ a) ^ l a) else 0 with hc
  have h1 : ∀ idx ∈ Fintype.piFinset (fun a => Finset.Icc 0 (n a)), CellPoly U k (fun a => p a - l a) (c idx)
      (fun x => (∏ a, iteratedDeriv (l a) (bsplineD (n a) (U a) (p a) (idx a)) (x a)) * P idx) := by
    intro idx hidx
    have hi : ∀ a, 0 ≤ idx a ∧ idx a ≤ n a := fun a => Finset.mem_Icc.1 (Fintype.mem_piFinset.1 hidx a)
    have hloc : ∀ a, (loc (U a) (k a)).natDegree ≤ 1 := by
      intro a; unfold loc; rw [add_comm]; exact Polynomial.natDegree_linear_le
    have hs : ∀ a, SortedOn (U a) (k a - p a) (k a + p a + 1) := fun a b c c1 c2 c3 =>
      (hv a).sorted b c (by have := hk a; omega) c2 (by have := hk a; omega)
    have hev : ∀ a t, -1 < t → t < 1 → iteratedDeriv (l a) (bsplineD (n a) (U a) (p a) (idx a))
        (U a (k a) + (t + 1) * ((U a (k a + 1) - U a (k a)) / 2)) =
        ((Polynomial.derivative^[l a] (pieceP (U a) (k a) (p a) (idx a))).comp (loc (U a) (k a))).eval t := by
      intro a t t1 t2
      have k3 := (hk a).2.2
      have y1 : U a (k a) < U a (k a) + (t + 1) * ((U a (k a + 1) - U a (k a)) / 2) := by nlinarith
      have y2 : U a (k a) + (t + 1) * ((U a (k a + 1) - U a (k a)) / 2) < U a (k a + 1) := by nlinarith
      rw [iteratedDeriv_span (hv a).sorted (hk a).1 (hk a).2.1 (hi a).1 (hi a).2 (l a) y1 y2, Polynomial.eval_comp]
      have : (loc (U a) (k a)).eval t = U a (k a) + (t + 1) * ((U a (k a + 1) - U a (k a)) / 2) := by simp [loc]; ring
      rw [this]
    have hdg : ∀ a, ((Polynomial.derivative^[l a] (pieceP (U a) (k a) (p a) (idx a))).comp (loc (U a) (k a))).natDegree ≤ p a - l a := by
      intro a
      refine Polynomial.natDegree_comp_le.trans ((Nat.mul_le_mul (Polynomial.natDegree_iterate_derivative _ _) (hloc a)).trans ?_)
      have := natDegree_pieceP (U a) (k a) (p a) (idx a)
      omega
    by_cases hact : ∀ a, k a - p a ≤ idx a ∧ idx a ≤ k a
    · rw [hc]
      dsimp only
      rw [if_pos hact]
      have := (CellPoly.prod (U := U) (k := k) (D := fun a => p a - l a)
        (F := fun a => iteratedDeriv (l a) (bsplineD (n a) (U a) (p a) (idx a))) hdg
        (fun a => l1n_pieceP_deriv (hk a).2.2 (hs a) (idx a) (h0 a) (hδ a) (l a)) hev).mul (CellPoly.const U k (P idx))
      refine this.mono (fun a => by simp) ?_
      rw [mul_comm m]
      exact mul_le_mul_of_nonneg_left (hP idx hi) (Finset.prod_nonneg fun a _ => by have := h0 a; positivity)
    · rw [hc]
      dsimp only
      rw [if_neg hact]
      push Not at hact
      obtain ⟨b, hb⟩ := hact
      have hz : pieceP (U b) (k b) (p b) (idx b) = 0 := by
        by_cases h : k b - p b ≤ idx b
        · exact pieceP_zero_of_gt _ _ _ _ (hb h)
        · exact pieceP_zero_of_lt _ _ _ _ (by omega)
      refine ⟨0, fun a => by simp, l1m_zero.le, fun t t1 t2 => ?_⟩
      rw [map_zero]
      have := hev b (t b) (t1 b) (t2 b)
      rw [hz, Polynomial.iterate_derivative_zero, Polynomial.zero_comp, Polynomial.eval_zero] at this
      dsimp only
      rw [Finset.prod_eq_zero (Finset.mem_univ b) this, zero_mul]
  refine (CellPoly.sum _ h1).mono (fun a => le_rfl) ?_
  rw [hc, ← Finset.sum_filter, Finset.sum_const, nsmul_eq_mul,
    Finset.prod_mul_distrib (f := fun a => (p a + 1 : ℝ)), mul_left_comm]
  refine mul_le_mul_of_nonneg_left ?_ hm
  refine mul_le_mul_of_nonneg_right ?_ (Finset.prod_nonneg fun a _ => by have := h0 a; positivity)
  have hsub : (Fintype.piFinset fun a => Finset.Icc 0 (n a)).filter (fun idx => ∀ a, k a - p a ≤ idx a ∧ idx a ≤ k a) ⊆
      Fintype.piFinset fun a => Finset.Icc (k a - p a) (k a) := by
    intro idx h
    rw [Fintype.mem_piFinset]
    exact fun a => Finset.mem_Icc.2 ((Finset.mem_filter.1 h).2 a)
  have := Finset.card_le_card hsub
  rw [Fintype.card_piFinset] at this
  have e : ∀ a, (Finset.Icc (k a - p a) (k a)).card = p a + 1 := fun a => by rw [Int.card_Icc]; omega
  simp only [e] at this
  exact_mod_cast this

/-- inside a box of spans the partial derivatives are those of the factors -/
theorem pdo_tensor {d : ℕ} {n : Fin d → ℤ} {p : Fin d → ℕ} {U : Fin d → ℤ → ℝ}
    (hv : ∀ a, ValidKnots (n a) (p a) (U a)) (P : (Fin d → ℤ) → ℝ) {k : Fin d → ℤ}
    (hk : ∀ a, (p a : ℤ) ≤ k a ∧ k a ≤ n a) (dirs : List (Fin d)) :
    ∀ x : Fin d → ℝ, (∀ a, U a (k a) < x a ∧ x a < U a (k a + 1)) →
      pdo dirs (tensor n p U P) x = tensorD n p U (fun a => dirs.count a) P x := by
  induction dirs with
  | nil =>
    intro x _
    simp only [pdo, tensor, tensorD, List.count_nil, iteratedDeriv_zero, smul_eq_mul]
  | cons i dirs ih =>
    intro x hx
    have h1 : (fun t => pdo dirs (tensor n p U P) (Function.update x i t)) =ᶠ[nhds (x i)]
        fun t => tensorD n p U (fun a => dirs.count a) P (Function.update x i t) := by
      filter_upwards [Ioo_mem_nhds (hx i).1 (hx i).2] with t ht
      refine ih _ fun a => ?_
      by_cases h : a = i
      · subst h; rw [Function.update_self]; exact ht
      · rw [Function.update_of_ne h]; exact hx a
    rw [pdo]
    dsimp only
    rw [h1.deriv_eq]
    unfold tensorD
    have hd : ∀ idx ∈ Fintype.piFinset (fun a => Finset.Icc 0 (n a)),
        HasDerivAt (fun t => (∏ a, iteratedDeriv (dirs.count a) (bsplineD (n a) (U a) (p a) (idx a))
          (Function.update x i t a)) * P idx)
          ((∏ a, iteratedDeriv ((i :: dirs).count a) (bsplineD (n a) (U a) (p a) (idx a)) (x a)) * P idx) (x i) := by
      intro idx hidx
      have hi : ∀ a, 0 ≤ idx a ∧ idx a ≤ n a := fun a => Finset.mem_Icc.1 (Fintype.mem_piFinset.1 hidx a)
      have e1 : (fun t => (∏ a, iteratedDeriv (dirs.count a) (bsplineD (n a) (U a) (p a) (idx a)) (Function.update x i t a)) * P idx) =
          fun t => iteratedDeriv (dirs.count i) (bsplineD (n i) (U i) (p i) (idx i)) t *
            ((∏ a ∈ Finset.univ.erase i, iteratedDeriv (dirs.count a) (bsplineD (n a) (U a) (p a) (idx a)) (x a)) * P idx) := by
        funext t
        rw [← Finset.mul_prod_erase _ _ (Finset.mem_univ i), Function.update_self, mul_assoc]
        congr 2
        refine Finset.prod_congr rfl fun a ha => ?_
        rw [Function.update_of_ne (Finset.ne_of_mem_erase ha)]
      have e2 : (∏ a, iteratedDeriv ((i :: dirs).count a) (bsplineD (n a) (U a) (p a) (idx a)) (x a)) * P idx =
          iteratedDeriv (dirs.count i + 1) (bsplineD (n i) (U i) (p i) (idx i)) (x i) *
            ((∏ a ∈ Finset.univ.erase i, iteratedDeriv (dirs.count a) (bsplineD (n a) (U a) (p a) (idx a)) (x a)) * P idx) := by
        rw [← Finset.mul_prod_erase _ _ (Finset.mem_univ i), mul_assoc, List.count_cons_self]
        congr 2
        refine Finset.prod_congr rfl fun a ha => ?_
        rw [List.count_cons_of_ne (Finset.ne_of_mem_erase ha).symm]
      rw [e1, e2]
      refine HasDerivAt.mul_const ?_ _
      rw [iteratedDeriv_succ]
      refine DifferentiableAt.hasDerivAt ?_
      have h2 : iteratedDeriv (dirs.count i) (bsplineD (n i) (U i) (p i) (idx i)) =ᶠ[nhds (x i)]
          fun y => (Polynomial.derivative^[dirs.count i] (pieceP (U i) (k i) (p i) (idx i))).eval y := by
        filter_upwards [Ioo_mem_nhds (hx i).1 (hx i).2] with y hy
        exact iteratedDeriv_span (hv i).sorted (hk i).1 (hk i).2 (hi i).1 (hi i).2 _ hy.1 hy.2
      exact (Filter.EventuallyEq.differentiableAt_iff h2).2 (Polynomial.differentiableAt _)
    exact (HasDerivAt.fun_sum hd).deriv

end Igakit
