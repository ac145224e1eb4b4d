import Verif.Spec.Assemble
import Verif.Props.Quad
import Mathlib.MeasureTheory.Integral.IntervalIntegral.Basic
import Mathlib.Analysis.Calculus.IteratedDeriv.Lemmas
import Mathlib.Topology.Algebra.Polynomial

/-!
# Helper lemmas: quadrature over the elements of a patch
-/

set_option linter.unusedSectionVars false

namespace Igakit
open Spec Polynomial

/-! ## the sum of the absolute coefficients -/

/-- the sum of the absolute values of the coefficients -/
noncomputable def l1n (P : ℝ[X]) : ℝ := ∑ k ∈ Finset.range (P.natDegree + 1), |P.coeff k|

theorem l1n_eq {P : ℝ[X]} {n : ℕ} (h : P.natDegree < n) : l1n P = ∑ k ∈ Finset.range n, |P.coeff k| := by
  unfold l1n
  refine Finset.sum_subset (fun x hx => by simp only [Finset.mem_range] at *; omega) fun x _ hx => ?_
  rw [coeff_eq_zero_of_natDegree_lt (by simp only [Finset.mem_range] at hx; omega), abs_zero]

theorem l1n_nonneg (P : ℝ[X]) : 0 ≤ l1n P := Finset.sum_nonneg fun _ _ => abs_nonneg _

theorem l1n_add (P Q : ℝ[X]) : l1n (P + Q) ≤ l1n P + l1n Q := by
  have h := natDegree_add_le P Q
  rw [l1n_eq (n := max P.natDegree Q.natDegree + 1) (by omega),
    l1n_eq (P := P) (n := max P.natDegree Q.natDegree + 1) (by omega),
    l1n_eq (P := Q) (n := max P.natDegree Q.natDegree + 1) (by omega), ← Finset.sum_add_distrib]
  exact Finset.sum_le_sum fun k _ => by rw [coeff_add]; exact abs_add_le _ _

theorem l1n_C_mul (a : ℝ) (P : ℝ[X]) : l1n (C a * P) = |a| * l1n P := by
  have h := natDegree_C_mul_le a P
  rw [l1n_eq (n := P.natDegree + 1) (by omega), l1n, Finset.mul_sum]
  exact Finset.sum_congr rfl fun k _ => by rw [coeff_C_mul, abs_mul]

theorem l1n_X_mul (P : ℝ[X]) : l1n (X * P) = l1n P := by
  have h : (X * P).natDegree ≤ P.natDegree + 1 := by
    have := natDegree_mul_le (p := X) (q := P)
    have := natDegree_X_le (R := ℝ)
    omega
  rw [l1n_eq (n := P.natDegree + 2) (by omega), Finset.sum_range_succ', l1n]
  simp [coeff_X_mul]

theorem l1n_zero : l1n 0 = 0 := by simp [l1n]

theorem l1n_one : l1n 1 = 1 := by simp [l1n, coeff_one]

theorem l1n_sum {ι : Type} (s : Finset ι) (F : ι → ℝ[X]) : l1n (∑ i ∈ s, F i) ≤ ∑ i ∈ s, l1n (F i) := by
  classical
  induction s using Finset.induction_on with
  | empty => simp [l1n_zero]
  | insert a s ha ih =>
    rw [Finset.sum_insert ha, Finset.sum_insert ha]
    exact (l1n_add _ _).trans (by linarith)

theorem l1n_X_pow_mul (i : ℕ) (P : ℝ[X]) : l1n (X ^ i * P) = l1n P := by
  induction i with
  | zero => simp
  | succ i ih => rw [pow_succ', mul_assoc, l1n_X_mul, ih]

theorem l1n_mul (P Q : ℝ[X]) : l1n (P * Q) ≤ l1n P * l1n Q := by
  conv_lhs => rw [P.as_sum_range_C_mul_X_pow, Finset.sum_mul]
  refine (l1n_sum _ _).trans (le_of_eq ?_)
  unfold l1n
  rw [Finset.sum_mul]
  refine Finset.sum_congr rfl fun k _ => ?_
  have := l1n_C_mul (P.coeff k) (X ^ k * Q)
  rw [l1n_X_pow_mul] at this
  rw [mul_assoc]
  exact this

theorem l1n_linear (a b : ℝ) : l1n (C a + C b * X) ≤ |a| + |b| := by
  refine (l1n_add _ _).trans (le_of_eq ?_)
  have h1 := l1n_C_mul a 1
  have h2 := l1n_C_mul b (X * 1)
  rw [l1n_X_mul, l1n_one] at h2
  rw [l1n_one] at h1
  rw [mul_one] at h1 h2
  rw [mul_one] at h1 h2
  rw [h1, h2]

theorem l1n_derivative {P : ℝ[X]} {p : ℕ} (h : P.natDegree ≤ p) : l1n (derivative P) ≤ p * l1n P := by
  have h' := natDegree_derivative_le P
  rw [l1n_eq (n := p + 1) (by omega), l1n_eq (P := P) (n := p + 1 + 1) (by omega), Finset.mul_sum,
    Finset.sum_range_succ' _ (p + 1)]
  have : ∀ k ∈ Finset.range (p + 1), |(derivative P).coeff k| ≤ p * |P.coeff (k + 1)| := by
    intro k _
    rw [coeff_derivative, abs_mul, mul_comm]
    by_cases hk : k + 1 ≤ p
    · refine mul_le_mul_of_nonneg_right ?_ (abs_nonneg _)
      rw [abs_of_nonneg (by positivity)]
      exact_mod_cast hk
    · rw [coeff_eq_zero_of_natDegree_lt (by omega)]; simp
  have h0 : 0 ≤ (p : ℝ) * |P.coeff 0| := by positivity
  linarith [Finset.sum_le_sum this]

theorem l1n_iterate_derivative {P : ℝ[X]} {p : ℕ} (h : P.natDegree ≤ p) (l : ℕ) :
    l1n (derivative^[l] P) ≤ (p : ℝ) ^ l * l1n P := by
  induction l generalizing P with
  | zero => simp
  | succ l ih =>
    rw [Function.iterate_succ, Function.comp_apply]
    refine (ih (P := derivative P) ((natDegree_derivative_le P).trans (by omega))).trans ?_
    rw [pow_succ, mul_assoc]
    exact mul_le_mul_of_nonneg_left (l1n_derivative h) (by positivity)

theorem iterate_derivative_comp_linear (P : ℝ[X]) (a b : ℝ) (l : ℕ) :
    derivative^[l] (P.comp (C a + C b * X)) = C (b ^ l) * (derivative^[l] P).comp (C a + C b * X) := by
  induction l generalizing P with
  | zero => simp
  | succ l ih =>
    simp only [Function.iterate_succ, Function.comp_apply]
    rw [derivative_comp]
    have : derivative (C a + C b * X : ℝ[X]) = C b := by simp
    rw [this, iterate_derivative_C_mul, ih, pow_succ', C_mul, mul_assoc]

/-! ## the B-splines in the coordinate of an element -/

/-- the coordinate of the span `k`: from -1 to 1 -/
noncomputable def loc (U : ℤ → ℝ) (k : ℤ) : ℝ[X] := C ((U k + U (k + 1)) / 2) + C ((U (k + 1) - U k) / 2) * X

theorem l1n_pieceP {U : ℤ → ℝ} {k : ℤ} (hk : U k < U (k + 1)) : ∀ (p : ℕ), SortedOn U (k - p) (k + p + 1) → ∀ i,
    l1n ((pieceP U k p i).comp (loc U k)) ≤ 2 ^ p := by
  intro p
  induction p with
  | zero =>
    intro _ i
    unfold pieceP
    split_ifs
    · simp [l1n_one]
    · simp [l1n_zero]
  | succ p ih =>
    intro hs i
    have ih' := ih (fun a b h1 h2 h3 => hs a b (by push_cast; omega) h2 (by push_cast; omega))
    have h2p : (0 : ℝ) < 2 ^ p := by positivity
    have key : ∀ (a b c : ℝ) (P : ℝ[X]), l1n (P.comp (loc U k)) ≤ 2 ^ p → 0 < c →
        |a + b * ((U k + U (k + 1)) / 2)| + |b * ((U (k + 1) - U k) / 2)| ≤ c →
        l1n ((C (1 / c) * ((C a + C b * X) * P)).comp (loc U k)) ≤ 2 ^ p := by
      intro a b c P hP hc h
      rw [mul_comp, C_comp, mul_comp, l1n_C_mul]
      have e : (C a + C b * X : ℝ[X]).comp (loc U k) =
          C (a + b * ((U k + U (k + 1)) / 2)) + C (b * ((U (k + 1) - U k) / 2)) * X := by
        simp only [loc, add_comp, mul_comp, C_comp, X_comp, C_add, C_mul]
        ring
      rw [e]
      have h1 := (l1n_mul (C (a + b * ((U k + U (k + 1)) / 2)) + C (b * ((U (k + 1) - U k) / 2)) * X)
        (P.comp (loc U k))).trans (mul_le_mul ((l1n_linear _ _).trans h) hP (l1n_nonneg _) hc.le)
      rw [abs_of_pos (by positivity)]
      calc 1 / c * _ ≤ 1 / c * (c * 2 ^ p) := mul_le_mul_of_nonneg_left h1 (by positivity)
        _ = 2 ^ p := by field_simp
    have z : ∀ c : ℝ, ∀ L : ℝ[X], l1n ((C (1 / c) * (L * 0)).comp (loc U k)) ≤ 2 ^ p := by
      intro c L; simp [l1n_zero, h2p.le]
    have t1 : l1n ((C (1 / (U (i + p + 1) - U i)) * ((X - C (U i)) * pieceP U k p i)).comp (loc U k)) ≤ 2 ^ p := by
      by_cases hi : i ≤ k ∧ k ≤ i + p
      · have a1 : U i ≤ U k := hs i k (by push_cast; omega) (by omega) (by push_cast; omega)
        have a2 : U (k + 1) ≤ U (i + p + 1) := hs _ _ (by push_cast; omega) (by omega) (by push_cast; omega)
        have := key (-U i) 1 (U (i + p + 1) - U i) (pieceP U k p i) (ih' i) (by linarith) (by
          rw [abs_of_nonneg (by linarith), abs_of_nonneg (by linarith)]; linarith)
        convert this using 4
        simp only [C_neg, C_1]; ring
      · have : pieceP U k p i = 0 := by
          rcases (by omega : k < i ∨ i + p < k) with h | h
          · exact pieceP_zero_of_gt _ _ _ _ (by omega)
          · exact pieceP_zero_of_lt _ _ _ _ (by omega)
        rw [this]; exact z _ _
    have t2 : l1n ((C (1 / (U (i + p + 2) - U (i + 1))) * ((C (U (i + p + 2)) - X) * pieceP U k p (i + 1))).comp
        (loc U k)) ≤ 2 ^ p := by
      by_cases hi : i + 1 ≤ k ∧ k ≤ i + 1 + p
      · have a1 : U (i + 1) ≤ U k := hs _ k (by push_cast; omega) (by omega) (by push_cast; omega)
        have a2 : U (k + 1) ≤ U (i + p + 2) := hs _ _ (by push_cast; omega) (by omega) (by push_cast; omega)
        have := key (U (i + p + 2)) (-1) (U (i + p + 2) - U (i + 1)) (pieceP U k p (i + 1)) (ih' _) (by linarith) (by
          rw [abs_of_nonneg (by linarith), abs_of_nonpos (by linarith)]; linarith)
        convert this using 4
        simp only [C_neg, C_1]; ring
      · have : pieceP U k p (i + 1) = 0 := by
          rcases (by omega : k < i + 1 ∨ i + 1 + p < k) with h | h
          · exact pieceP_zero_of_gt _ _ _ _ (by omega)
          · exact pieceP_zero_of_lt _ _ _ _ (by omega)
        rw [this]; exact z _ _
    unfold pieceP
    rw [add_comp]
    refine (l1n_add _ _).trans ?_
    rw [pow_succ]; linarith

/-- the same for the derivatives -/
theorem l1n_pieceP_deriv {U : ℤ → ℝ} {k : ℤ} (hk : U k < U (k + 1)) {p : ℕ} (hs : SortedOn U (k - p) (k + p + 1)) (i : ℤ)
    {δ : ℝ} (h0 : 0 < δ) (hδ : δ ≤ U (k + 1) - U k) (l : ℕ) :
    l1n ((derivative^[l] (pieceP U k p i)).comp (loc U k)) ≤ 2 ^ p * (2 * p / δ) ^ l := by
  have hJ : 0 < (U (k + 1) - U k) / 2 := by linarith
  have h1 := iterate_derivative_comp_linear (pieceP U k p i) ((U k + U (k + 1)) / 2) ((U (k + 1) - U k) / 2) l
  have h2 := congrArg l1n h1
  rw [l1n_C_mul, abs_of_pos (by positivity)] at h2
  have hdeg : ((pieceP U k p i).comp (C ((U k + U (k + 1)) / 2) + C ((U (k + 1) - U k) / 2) * X)).natDegree ≤ p := by
    refine natDegree_comp_le.trans ?_
    have a1 := natDegree_pieceP U k p i
    have a2 : (C ((U k + U (k + 1)) / 2) + C ((U (k + 1) - U k) / 2) * X : ℝ[X]).natDegree ≤ 1 := by
      rw [add_comm]; exact natDegree_linear_le
    exact (Nat.mul_le_mul a1 a2).trans (by omega)
  have h3 := (l1n_iterate_derivative hdeg l).trans
    (mul_le_mul_of_nonneg_left (l1n_pieceP hk p hs i) (by positivity : (0 : ℝ) ≤ (p : ℝ) ^ l))
  rw [h2] at h3
  unfold loc
  set Z := l1n ((derivative^[l] (pieceP U k p i)).comp (C ((U k + U (k + 1)) / 2) + C ((U (k + 1) - U k) / 2) * X))
  have hZ : 0 ≤ Z := l1n_nonneg _
  have h4 : (δ / 2) ^ l * Z ≤ (p : ℝ) ^ l * 2 ^ p :=
    (mul_le_mul_of_nonneg_right (pow_le_pow_left₀ (by positivity) (by linarith) l) hZ).trans h3
  have e : (2 * (p : ℝ) / δ) ^ l = (p : ℝ) ^ l / (δ / 2) ^ l := by
    rw [← div_pow]; congr 1; field_simp
  rw [e, ← mul_div_assoc, le_div_iff₀ (by positivity)]
  linarith

/-! ## one element -/

theorem ruleSum_range (X W : List ℚ) (P : ℝ[X]) (h : X.length = W.length) :
    ruleSum X W P = ∑ g ∈ Finset.range W.length, ((W.getD g 0 : ℚ) : ℝ) * P.eval ((X.getD g 0 : ℚ) : ℝ) := by
  unfold ruleSum
  induction X generalizing W with
  | nil => rw [List.length_nil] at h; rw [← h]; simp
  | cons x X ih =>
    cases W with
    | nil => simp at h
    | cons w W =>
      rw [List.length_cons, Finset.sum_range_succ', List.zipWith_cons_cons, List.sum_cons, ih W (by simpa using h)]
      simp [add_comm]

/-- the quadrature on the span `[a, b]` of a function which is a polynomial inside -/
theorem elem_error {q : ℕ} (h1 : 1 ≤ q) (h2 : q ≤ 10) {a b : ℝ} (hab : a < b) {f : ℝ → ℝ} {R : ℝ[X]}
    (hdeg : R.natDegree < 2 * q) (hf : ∀ t, -1 < t → t < 1 → f (a + (t + 1) * ((b - a) / 2)) = R.eval t) :
    IntervalIntegrable f MeasureTheory.volume a b ∧
    |(∑ g ∈ Finset.range q, (b - a) / 2 * (((legW q).getD g 0 : ℚ) : ℝ) *
        f (((((legX q).getD g 0 : ℚ) : ℝ) + 1) * ((b - a) / 2) + a)) - ∫ x in a..b, f x| ≤
      (b - a) / 2 * (3 / 10 ^ 36 * ∑ k ∈ Finset.range (2 * q), |R.coeff k|) := by
  obtain ⟨t1, t2, t3, t4, t5, t6, t7, t8⟩ := leg_table q (List.mem_range'_1.mpr ⟨by omega, by omega⟩)
  have hJ : 0 < (b - a) / 2 := by linarith
  have hin : Set.EqOn f (fun x => R.eval (((b - a) / 2)⁻¹ * x + -(((b - a) / 2)⁻¹ * a + 1))) (Set.Ioo a b) := by
    rintro x ⟨x1, x2⟩
    have hba : b - a ≠ 0 := by linarith
    have y1 : -1 < ((b - a) / 2)⁻¹ * x + -(((b - a) / 2)⁻¹ * a + 1) := by
      have : 0 < ((b - a) / 2)⁻¹ * (x - a) := mul_pos (by positivity) (by linarith)
      linarith
    have y2 : ((b - a) / 2)⁻¹ * x + -(((b - a) / 2)⁻¹ * a + 1) < 1 := by
      have : 0 < ((b - a) / 2)⁻¹ * (b - x) := mul_pos (by positivity) (by linarith)
      have e : ((b - a) / 2)⁻¹ * (b - a) = 2 := by field_simp
      nlinarith
    dsimp only
    rw [← hf _ y1 y2]
    congr 1
    field_simp
    ring
  have hI : ∫ x in a..b, f x = (b - a) / 2 * ∫ x in (-1 : ℝ)..1, R.eval x := by
    rw [intervalIntegral.integral_congr_Ioo_of_le hab.le hin,
      intervalIntegral.integral_comp_mul_add (f := fun x => R.eval x) (inv_ne_zero hJ.ne'), inv_inv, smul_eq_mul]
    have hba : b - a ≠ 0 := by linarith
    congr 2
    · ring
    · field_simp; ring
  refine ⟨?_, ?_⟩
  · refine IntervalIntegrable.congr_uIoo ?_ (by rw [Set.uIoo_of_le hab.le]; exact hin.symm)
    exact ((Polynomial.continuous (R := ℝ) R).comp (by fun_prop)).intervalIntegrable _ _
  · have hS : ∑ g ∈ Finset.range q, (b - a) / 2 * (((legW q).getD g 0 : ℚ) : ℝ) *
        f (((((legX q).getD g 0 : ℚ) : ℝ) + 1) * ((b - a) / 2) + a) = (b - a) / 2 * ruleSum (legX q) (legW q) R := by
      rw [ruleSum_range _ _ _ (t1.trans t2.symm), t2, Finset.mul_sum]
      refine Finset.sum_congr rfl fun g hg => ?_
      have hg' : g < (legX q).length := by rw [t1]; exact Finset.mem_range.mp hg
      obtain ⟨x1, x2⟩ := t4 _ (List.getElem_mem hg')
      rw [List.getD_eq_getElem (legX q) _ hg', add_comm _ a, hf _ (by exact_mod_cast x1) (by exact_mod_cast x2)]
      ring
    rw [hS, hI, ← mul_sub, abs_mul, abs_of_pos hJ]
    refine mul_le_mul_of_nonneg_left ?_ hJ.le
    have := rule_error t8 hdeg
    push_cast at this
    exact this

/-! ## all elements -/

theorem sum_getElem_eq {M : Type} [AddCommMonoid M] (l : List ℤ) (hn : l.Nodup) (F : ℕ → M) (G : ℤ → M)
    (h : ∀ (e : ℕ) (he : e < l.length), F e = G l[e]) :
    ∑ e ∈ Finset.range l.length, F e = ∑ k ∈ l.toFinset, G k := by
  rw [List.sum_toFinset _ hn]
  clear hn
  induction l generalizing F with
  | nil => simp
  | cons a l ih =>
    rw [List.length_cons, Finset.sum_range_succ', List.map_cons, List.sum_cons, h 0 (by simp), add_comm,
      ih (fun e => F (e + 1)) (fun e he => h (e + 1) (by rw [List.length_cons]; omega))]
    rfl

/-- the quadrature data in terms of the rule and of the polynomials of the spans -/
theorem basisData_raw {K : Type} [Field K] [LinearOrder K] [IsStrictOrderedRing K] {eps : K} (heps : 0 ≤ eps) (jo : ℤ → ℤ)
    (jk : ℤ → K) (j2 ja jd : ℤ → ℤ → K) {n : ℤ} {p : ℕ} {U : ℤ → K} (hv : ValidKnots n p U)
    (hsep : ∀ k, (p : ℤ) ≤ k → k ≤ n → U k < U (k + 1) → eps < U (k + 1) - U k)
    {d q : Option ℤ} {D Q : ℕ} (hd : d.getD p = D) (hDp : D ≤ p) (hq : q.getD (p + 1) = Q) (hq1 : 1 ≤ Q) (hq2 : Q ≤ 10) :
    ∃ (l : List ℤ) (B : QuadData K), BasisData eps jo jk j2 ja jd p (n + p + 1) U d q = .ok B ∧
      l.Pairwise (· < ·) ∧ (∀ k, k ∈ l ↔ (p : ℤ) ≤ k ∧ k ≤ n ∧ U k < U (k + 1)) ∧ B.r = l.length ∧
      (∀ g : ℕ, B.W g = (((legW Q).getD g 0 : ℚ) : K)) ∧
      ∀ (e : ℕ) (he : e < l.length), B.O e = l[e] - p ∧ B.J e = (U (l[e] + 1) - U l[e]) / 2 ∧
        (∀ g : ℕ, B.X e g = ((((legX Q).getD g 0 : ℚ) : K) + 1) * B.J e + U l[e]) ∧
        ∀ (g a l' : ℕ), a ≤ p → l' ≤ D → B.N e g a l' = (derivative^[l'] (pieceP U l[e] p (l[e] - p + a))).eval (B.X e g) := by
  have h1 := hv.one_le
  have h2 := hv.le
  have hlt : ∀ k, (p : ℤ) ≤ k → k ≤ n → (U k ≠ U (k + 1) ↔ U k < U (k + 1)) := by
    intro k a b
    exact ⟨fun h => lt_of_le_of_ne (hv.sorted k (k + 1) (by omega) (by omega) (by omega)) h, ne_of_lt⟩
  have hO := basisDataO_eq heps h2 jo (fun k a b c => by
    have h := (hlt k a b).mp c
    rw [abs_sub_comm, abs_of_pos (by linarith)]
    exact hsep k a b h)
  have hm : ∀ k, k ∈ spanList U p (n + 1) ↔ (p : ℤ) ≤ k ∧ k ≤ n ∧ U k < U (k + 1) := by
    intro k
    rw [mem_spanList]
    constructor
    · rintro ⟨a, b, c⟩; exact ⟨a, by omega, (hlt k a (by omega)).mp c⟩
    · rintro ⟨a, b, c⟩; exact ⟨a, by omega, c.ne⟩
  obtain ⟨B, hB, hr, hBO, hBJ, hBW, hBX, hBN⟩ : ∃ B : QuadData K,
      BasisData eps jo jk j2 ja jd p (n + p + 1) U d q = .ok B ∧ B.r = countSpans n p U ∧
      (∀ e, B.O e = (basisDataO eps p (n + p + 1) U jo).2 (e + 1)) ∧
      (∀ e, B.J e = (U (B.O e + p + 1) - U (B.O e + p)) / 2) ∧
      (∀ g : ℤ, B.W g = (((legW Q).getD g.toNat 0 : ℚ) : K)) ∧
      (∀ e g, B.X e g = ((((legX Q).getD g.toNat 0 : ℚ) : K) + 1) * B.J e + U (B.O e + p)) ∧
      ∀ e g a l, B.N e g a l = dersBasisFuns jk j2 ja jd (B.O e + p) (B.X e g) p D U a l := by
    unfold BasisData
    rw [hd, hq]
    dsimp only
    rw [if_pos ⟨by omega, by omega, by omega, by omega⟩]
    refine ⟨_, rfl, by dsimp only; congr 1; ring, fun e => rfl, fun e => rfl, fun g => ?_, fun e g => ?_,
      fun e g a l => rfl⟩
    · simp
    · simp
  refine ⟨spanList U p (n + 1), B, hB, spanList_pairwise U p (n + 1), hm, ?_, fun g => ?_, fun e he => ?_⟩
  · rw [hr, C32_countSpans, if_neg (fun h => hv.last.ne h.2), spanList_length]
    simp
  · rw [hBW, Int.toNat_natCast]
  · obtain ⟨k1, k2, k3⟩ := (hm _).mp (List.getElem_mem he)
    have hOe : B.O e = (spanList U p (n + 1))[e] - p := by
      rw [hBO, add_comm (e : ℤ) 1]; exact hO e he
    have hOk : B.O e + p = (spanList U p (n + 1))[e] := by omega
    refine ⟨hOe, by rw [hBJ, hOk], fun g => by rw [hBX, hOk, Int.toNat_natCast], fun g a l' ha hl => ?_⟩
    rw [hBN, hOk]
    exact dersBasisFuns_spec jk j2 ja jd _ _ p D U (Win.of_sorted hv.sorted k3 (by omega) (by omega)) a (by omega)
      (by omega) l' hl

/-- the quadrature over the spans from `lo` on -/
theorem spans_error {q : ℕ} (h1 : 1 ≤ q) (h2 : q ≤ 10) {U : ℤ → ℝ} {lo : ℤ} {f : ℝ → ℝ} {M : ℝ} :
    ∀ hi, lo ≤ hi → (∀ k, lo ≤ k → k < hi → U k ≤ U (k + 1)) →
    (∀ k, lo ≤ k → k < hi → U k < U (k + 1) → ∃ R : ℝ[X], R.natDegree < 2 * q ∧
      ∑ c ∈ Finset.range (2 * q), |R.coeff c| ≤ M ∧
      ∀ t, -1 < t → t < 1 → f (U k + (t + 1) * ((U (k + 1) - U k) / 2)) = R.eval t) →
    IntervalIntegrable f MeasureTheory.volume (U lo) (U hi) ∧
    |(∑ k ∈ Finset.Ico lo hi with U k < U (k + 1), ∑ g ∈ Finset.range q,
        (U (k + 1) - U k) / 2 * (((legW q).getD g 0 : ℚ) : ℝ) *
        f (((((legX q).getD g 0 : ℚ) : ℝ) + 1) * ((U (k + 1) - U k) / 2) + U k)) - ∫ x in (U lo)..(U hi), f x| ≤
      (U hi - U lo) / 2 * (3 / 10 ^ 36 * M) := by
  intro hi hle
  induction hi, hle using Int.le_induction with
  | base => intro _ _; simp
  | succ m hm ih =>
    intro hs hR
    obtain ⟨i1, i2⟩ := ih (fun k a b => hs k a (by omega)) (fun k a b => hR k a (by omega))
    have hsum : Finset.Ico lo (m + 1) = insert m (Finset.Ico lo m) := by
      ext x; simp only [Finset.mem_Ico, Finset.mem_insert]; omega
    rcases (hs m hm (by omega)).lt_or_eq with hlt | heq
    · obtain ⟨R, r1, r2, r3⟩ := hR m hm (by omega) hlt
      obtain ⟨j1, j2⟩ := elem_error h1 h2 hlt r1 r3
      refine ⟨i1.trans j1, ?_⟩
      rw [hsum, Finset.filter_insert, if_pos hlt, Finset.sum_insert (by simp),
        ← intervalIntegral.integral_add_adjacent_intervals i1 j1]
      have h3 := mul_le_mul_of_nonneg_left (mul_le_mul_of_nonneg_left r2 (by norm_num : (0 : ℝ) ≤ 3 / 10 ^ 36))
        (by linarith : (0 : ℝ) ≤ (U (m + 1) - U m) / 2)
      have h4 := abs_add_le (_ - _) (_ - _) |>.trans (add_le_add i2 (j2.trans h3))
      calc _ = _ := by congr 1; ring
        _ ≤ _ := h4
        _ = _ := by ring
    · rw [hsum, Finset.filter_insert, if_neg heq.not_lt, ← heq]
      exact ⟨i1, i2⟩

/-- inside a span the derivatives of the B-splines are those of its polynomials -/
theorem iteratedDeriv_span {n : ℤ} {p : ℕ} {U : ℤ → ℝ} (hs : SortedOn U 0 (n + p + 1)) {k i : ℤ} (k1 : (p : ℤ) ≤ k)
    (k2 : k ≤ n) (i1 : 0 ≤ i) (i2 : i ≤ n) (l : ℕ) {x : ℝ} (x1 : U k < x) (x2 : x < U (k + 1)) :
    iteratedDeriv l (bsplineD n U p i) x = (derivative^[l] (pieceP U k p i)).eval x := by
  have h : bsplineD n U p i =ᶠ[nhds x] fun y => (pieceP U k p i).eval y := by
    filter_upwards [Ioo_mem_nhds x1 x2] with y hy
    exact bsplineD_on_span hs k1 k2 i1 i2 y hy.1.le hy.2
  rw [h.iteratedDeriv_eq]
  have : ∀ P : ℝ[X], iteratedDeriv l (fun y => P.eval y) = fun y => (derivative^[l] P).eval y := by
    intro P
    induction l generalizing P with
    | zero => simp
    | succ l ih =>
      rw [iteratedDeriv_succ']
      have : deriv (fun y => P.eval y) = fun y => (derivative P).eval y := funext fun y => P.deriv
      rw [this, ih]
      rfl
  rw [this]

/-- the terms of an element: only the local numbers of `i` and `j` remain -/
theorem sum_local {K : Type} [Field K] {p : ℕ} {o i : ℤ} (F : ℤ → K) (h : i < o ∨ o + p < i → F i = 0) :
    (∑ a ∈ Finset.range (p + 1), if o + (a : ℤ) = i then F (o + a) else 0) = F i := by
  by_cases hi : o ≤ i ∧ i ≤ o + p
  · rw [Finset.sum_eq_single (i - o).toNat]
    · rw [if_pos (by omega)]; congr 1; omega
    · intro b _ hb; rw [if_neg (by omega)]
    · intro hb; exact absurd (Finset.mem_range.2 (by omega)) hb
  · rw [h (by omega)]
    exact Finset.sum_eq_zero fun a ha => by rw [if_neg (by have := Finset.mem_range.1 ha; omega)]

end Igakit
