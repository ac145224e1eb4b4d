import Verif.Proofs.AssembleN
import Verif.Props.Data
import Mathlib.LinearAlgebra.Matrix.Determinant.Basic

/-!
# Property C92: quadrature and assembly over surfaces and volumes
-/

set_option linter.unusedSectionVars false

namespace Igakit
open Spec MeasureTheory

variable {d : ℕ}

/-- C92: every axis with valid knots has quadrature data, for every contents of the unset memory -/
theorem C92_data {K : Type} [Field K] [LinearOrder K] [IsStrictOrderedRing K] {eps : K} (heps : 0 ≤ eps) (jo : ℤ → ℤ)
    (jk : ℤ → K) (j2 ja jd : ℤ → ℤ → K) {n : ℤ} {p : ℕ} {U : ℤ → K} (hv : ValidKnots n p U)
    (hsep : ∀ k, (p : ℤ) ≤ k → k ≤ n → U k < U (k + 1) → eps < U (k + 1) - U k)
    {d q : Option ℤ} {D Q : ℕ} (hd : d.getD p = D) (hDp : D ≤ p) (hq : q.getD (p + 1) = Q) (hq1 : 1 ≤ Q) (hq2 : Q ≤ 10) :
    ∃ B : QuadData K, BasisData eps jo jk j2 ja jd p (n + p + 1) U d q = .ok B ∧ IsQuad eps n p U D Q B := by
  obtain ⟨l, B, hB, _⟩ := basisData_raw heps jo jk j2 ja jd hv hsep hd hDp hq hq1 hq2
  exact ⟨B, hB, hv, hsep, hDp, hq1, hq2, jo, jk, j2, ja, jd, d, q, hd, hq, hB⟩

/-- C92: the quadrature of a function over a patch of `d` directions.  The function is a polynomial inside every box of
nonempty spans; in the coordinates of the box (-1 at the left, 1 at the right ends) its degree in each variable is less
than twice the number of points of the axis and the absolute values of its coefficients add up to at most `M`.  Then the
weighted sum over all points of all elements is the integral over the domain up to `M * ((1 + 1.5e-36)^d - 1)` times the
size of the domain. -/
theorem C92_integral {eps : ℝ} (heps : 0 ≤ eps) {n : Fin d → ℤ} {p D Q : Fin d → ℕ} {U : Fin d → ℤ → ℝ}
    {B : Fin d → QuadData ℝ} (hB : ∀ a, IsQuad eps (n a) (p a) (U a) (D a) (Q a) (B a)) {f : (Fin d → ℝ) → ℝ} {M : ℝ}
    (hf : ∀ k : Fin d → ℤ, (∀ a, (p a : ℤ) ≤ k a ∧ k a ≤ n a ∧ U a (k a) < U a (k a + 1)) →
      ∃ E : Fin d → ℕ, (∀ a, E a < 2 * Q a) ∧ CellPoly U k E M f) :
    IntegrableOn f (Set.univ.pi fun a => Set.Icc (U a (p a)) (U a (n a + 1))) ∧
    |patchSumN B Q f - ∫ x in Set.univ.pi fun a => Set.Icc (U a (p a)) (U a (n a + 1)), f x| ≤
      M * ((1 + 3 / 2 / 10 ^ 36) ^ d - 1) * ∏ a, (U a (n a + 1) - U a (p a)) := by
  choose l hl hm hr hW hE using fun a => (hB a).raw heps
  replace hl : ∀ a, (l a).Nodup := fun a => (hl a).imp ne_of_lt
  have hv := fun a => (hB a).valid
  have key := boxes_error (fun a => (hB a).one_le) (fun a => (hB a).le_ten) (U := U) (lo := fun a => (p a : ℤ))
    (hi := fun a => n a + 1) (f := f) (M := M) (fun a => by have := (hv a).le; omega)
    (fun a i j h1 h2 h3 => (hv a).sorted i j (by omega) h2 (by have := (hv a).one_le; omega))
    (fun k hk => by
      obtain ⟨E, e1, R, r1, r2, r3⟩ := hf k fun a => ⟨(hk a).1, by have := (hk a).2.1; omega, (hk a).2.2⟩
      exact ⟨R, fun a => lt_of_le_of_lt (r1 a) (e1 a), r2, r3⟩)
  refine ⟨key.1, ?_⟩
  have e : patchSumN B Q f =
      ∑ k ∈ Fintype.piFinset fun a => (Finset.Ico (p a : ℤ) (n a + 1)).filter fun k => U a k < U a (k + 1),
        ∑ g ∈ Fintype.piFinset fun a => Finset.range (Q a),
          (∏ a, (U a (k a + 1) - U a (k a)) / 2 * (((legW (Q a)).getD (g a) 0 : ℚ) : ℝ)) *
          f (fun a => ((((legX (Q a)).getD (g a) 0 : ℚ) : ℝ) + 1) * ((U a (k a + 1) - U a (k a)) / 2) + U a (k a)) := by
    unfold patchSumN
    have hfin : ∀ a, (Finset.Ico (p a : ℤ) (n a + 1)).filter (fun k => U a k < U a (k + 1)) = (l a).toFinset := by
      intro a
      ext k
      rw [Finset.mem_filter, Finset.mem_Ico, List.mem_toFinset, hm]
      constructor
      · rintro ⟨⟨a, b⟩, c⟩; exact ⟨a, by omega, c⟩
      · rintro ⟨a, b, c⟩; exact ⟨⟨a, by omega⟩, c⟩
    have hr' : ∀ a, (B a).r.toNat = (l a).length := fun a => by rw [hr, Int.toNat_natCast]
    simp only [hfin, hr']
    refine sum_pi_getElem l hl _ _ fun e he => ?_
    refine Finset.sum_congr rfl fun g _ => ?_
    congr 1
    · exact Finset.prod_congr rfl fun a _ => by rw [(hE a (e a) (he a)).2.1, hW]
    · congr 1
      funext a
      rw [(hE a (e a) (he a)).2.2.1, (hE a (e a) (he a)).2.1]
  rw [e]
  refine key.2.trans (le_of_eq ?_)
  rw [Fintype.card_fin]

/-- C92: the matrices.  For all numbers of derivatives in each direction and all functions `i, j` of the patch the
assembled entry is the integral of the product of the derivatives over the domain; `δ a` bounds the lengths of the
nonempty spans of axis `a` from below. -/
theorem C92_matrix {eps : ℝ} (heps : 0 ≤ eps) {n : Fin d → ℤ} {p D Q : Fin d → ℕ} {U : Fin d → ℤ → ℝ}
    {B : Fin d → QuadData ℝ} (hB : ∀ a, IsQuad eps (n a) (p a) (U a) (D a) (Q a) (B a)) {δ : Fin d → ℝ}
    (h0 : ∀ a, 0 < δ a) (hδ : ∀ a k, (p a : ℤ) ≤ k → k ≤ n a → U a k < U a (k + 1) → δ a ≤ U a (k + 1) - U a k)
    {i j : Fin d → ℤ} {l1 l2 : Fin d → ℕ} (hi : ∀ a, 0 ≤ i a ∧ i a ≤ n a) (hj : ∀ a, 0 ≤ j a ∧ j a ≤ n a)
    (d1 : ∀ a, l1 a ≤ D a) (d2 : ∀ a, l2 a ≤ D a) (hdeg : ∀ a, 2 * p a < 2 * Q a + l1 a + l2 a) :
    |assembledN B Q p l1 l2 i j - ∫ x in Set.univ.pi fun a => Set.Icc (U a (p a)) (U a (n a + 1)),
        (∏ a, iteratedDeriv (l1 a) (bsplineD (n a) (U a) (p a) (i a)) (x a)) *
          ∏ a, iteratedDeriv (l2 a) (bsplineD (n a) (U a) (p a) (j a)) (x a)| ≤
      (∏ a, (4 ^ p a * (2 * p a / δ a) ^ (l1 a + l2 a))) * ((1 + 3 / 2 / 10 ^ 36) ^ d - 1) *
        ∏ a, (U a (n a + 1) - U a (p a)) := by
  have hv := fun a => (hB a).valid
  set F : Fin d → ℝ → ℝ := fun a x => iteratedDeriv (l1 a) (bsplineD (n a) (U a) (p a) (i a)) x *
    iteratedDeriv (l2 a) (bsplineD (n a) (U a) (p a) (j a)) x with hF
  have e1 : assembledN B Q p l1 l2 i j = patchSumN B Q (fun x => ∏ a, F a (x a)) := by
    rw [assembledN_prod, patchSumN_prod]
    refine Finset.prod_congr rfl fun a _ => ?_
    rw [assembled_glob]
    unfold patchSum
    refine Finset.sum_congr rfl fun e he => Finset.sum_congr rfl fun g hg => ?_
    rw [(hB a).glob_eq heps (Finset.mem_range.1 he) (Finset.mem_range.1 hg) (d1 a) (hi a).1 (hi a).2,
      (hB a).glob_eq heps (Finset.mem_range.1 he) (Finset.mem_range.1 hg) (d2 a) (hj a).1 (hj a).2]
  have e2 : (fun x : Fin d → ℝ => (∏ a, iteratedDeriv (l1 a) (bsplineD (n a) (U a) (p a) (i a)) (x a)) *
      ∏ a, iteratedDeriv (l2 a) (bsplineD (n a) (U a) (p a) (j a)) (x a)) = fun x => ∏ a, F a (x a) := by
    funext x; rw [hF, Finset.prod_mul_distrib]
  rw [e1, e2]
  refine (C92_integral heps hB fun k hk => ?_).2
  have hs : ∀ a, SortedOn (U a) (k a - p a) (k a + p a + 1) := fun a b c c1 c2 c3 =>
    (hv a).sorted b c (by have := hk a; omega) c2 (by have := hk a; omega)
  have hloc : ∀ a, (loc (U a) (k a)).natDegree ≤ 1 := by
    intro a; unfold loc; rw [add_comm]; exact Polynomial.natDegree_linear_le
  have hdg : ∀ a (i : ℤ) (l : ℕ), ((Polynomial.derivative^[l] (pieceP (U a) (k a) (p a) i)).comp (loc (U a) (k a))).natDegree ≤ p a - l := by
    intro a i l
    refine Polynomial.natDegree_comp_le.trans ((Nat.mul_le_mul (Polynomial.natDegree_iterate_derivative _ _) (hloc a)).trans ?_)
    have := natDegree_pieceP (U a) (k a) (p a) i
    omega
  refine ⟨fun a => (p a - l1 a) + (p a - l2 a), fun a => by
    have := hdeg a; have := (hB a).ders; have := d1 a; have := d2 a; dsimp only; omega, ?_⟩
  refine CellPoly.prod (P := fun a => (Polynomial.derivative^[l1 a] (pieceP (U a) (k a) (p a) (i a))).comp (loc (U a) (k a)) *
    (Polynomial.derivative^[l2 a] (pieceP (U a) (k a) (p a) (j a))).comp (loc (U a) (k a))) (fun a => ?_) (fun a => ?_)
    (fun a t t1 t2 => ?_)
  · exact Polynomial.natDegree_mul_le.trans (add_le_add (hdg _ _ _) (hdg _ _ _))
  · have hδ' := hδ a (k a) (hk a).1 (hk a).2.1 (hk a).2.2
    have := h0 a
    refine (l1n_mul _ _).trans ((mul_le_mul (l1n_pieceP_deriv (hk a).2.2 (hs a) (i a) (h0 a) hδ' (l1 a))
      (l1n_pieceP_deriv (hk a).2.2 (hs a) (j a) (h0 a) hδ' (l2 a)) (l1n_nonneg _) (by positivity)).trans (le_of_eq ?_))
    rw [pow_add, show (4 : ℝ) = 2 * 2 by norm_num, mul_pow]
    ring
  · have k3 := (hk a).2.2
    have y1 : U a (k a) < U a (k a) + (t + 1) * ((U a (k a + 1) - U a (k a)) / 2) := by nlinarith
    have y2 : U a (k a) + (t + 1) * ((U a (k a + 1) - U a (k a)) / 2) < U a (k a + 1) := by nlinarith
    rw [hF]
    dsimp only
    rw [iteratedDeriv_span (hv a).sorted (hk a).1 (hk a).2.1 (hi a).1 (hi a).2 (l1 a) y1 y2,
      iteratedDeriv_span (hv a).sorted (hk a).1 (hk a).2.1 (hj a).1 (hj a).2 (l2 a) y1 y2, Polynomial.eval_mul,
      Polynomial.eval_comp, Polynomial.eval_comp]
    have : (loc (U a) (k a)).eval t = U a (k a) + (t + 1) * ((U a (k a + 1) - U a (k a)) / 2) := by simp [loc]; ring
    rw [this]

/-- C92: with at least `p + 1` points on each axis the assembled mass matrix is symmetric, banded and positive definite
(exactly, over every ordered field), when the multiplicities of the knots inside the domain are at most `p + 1`. -/
theorem C92_mass {K : Type} [Field K] [LinearOrder K] [IsStrictOrderedRing K] {eps : K} (heps : 0 ≤ eps) {n : Fin d → ℤ}
    {p D Q : Fin d → ℕ} {U : Fin d → ℤ → K} {B : Fin d → QuadData K}
    (hB : ∀ a, IsQuad eps (n a) (p a) (U a) (D a) (Q a) (B a)) :
    (∀ i j, assembledN B Q p (fun _ => 0) (fun _ => 0) i j = assembledN B Q p (fun _ => 0) (fun _ => 0) j i) ∧
    (∀ i j : Fin d → ℤ, (∃ a, (p a : ℤ) < |i a - j a|) → assembledN B Q p (fun _ => 0) (fun _ => 0) i j = 0) ∧
    ((∀ a, p a < Q a) → (∀ a x, U a (p a) < x → x < U a (n a + 1) → mult (U a) 0 (n a + p a + 1) x ≤ p a + 1) →
      ∀ c : (Fin d → ℤ) → K, (∃ i, (∀ a, 0 ≤ i a ∧ i a ≤ n a) ∧ c i ≠ 0) →
        0 < ∑ i ∈ Fintype.piFinset fun a => Finset.Icc 0 (n a), ∑ j ∈ Fintype.piFinset fun a => Finset.Icc 0 (n a),
          c i * c j * assembledN B Q p (fun _ => 0) (fun _ => 0) i j) := by
  have ax : ∀ a, (∀ i j, assembled (B a) (Q a) (p a) 0 0 i j = assembled (B a) (Q a) (p a) 0 0 j i) ∧
      ∀ i j : ℤ, (p a : ℤ) < |i - j| → assembled (B a) (Q a) (p a) 0 0 i j = 0 := by
    intro a
    obtain ⟨jo, jk, j2, ja, jd, d, q, hd, hq, hBa⟩ := (hB a).data
    obtain ⟨B', hB', s1, s2, _⟩ := C68_mass heps jo jk j2 ja jd (hB a).valid (hB a).sep hd (hB a).ders hq (hB a).one_le (hB a).le_ten
    obtain rfl : B' = B a := by rw [hBa] at hB'; exact (Except.ok.inj hB').symm
    exact ⟨s1, s2⟩
  refine ⟨fun i j => ?_, fun i j hij => ?_, fun hpQ hmult c hc => ?_⟩
  · rw [assembledN_prod, assembledN_prod]
    exact Finset.prod_congr rfl fun a _ => (ax a).1 _ _
  · obtain ⟨a, ha⟩ := hij
    rw [assembledN_prod]
    exact Finset.prod_eq_zero (Finset.mem_univ a) ((ax a).2 _ _ ha)
  · have hA : ∀ i j, assembledN B Q p (fun _ => 0) (fun _ => 0) i j =
        ∑ e ∈ Fintype.piFinset fun a => Finset.range (B a).r.toNat, ∑ g ∈ Fintype.piFinset fun a => Finset.range (Q a),
          (∏ a, (B a).J (e a) * (B a).W (g a)) *
            ((∏ a, glob (B a) (p a) 0 (e a) (g a) (i a)) * ∏ a, glob (B a) (p a) 0 (e a) (g a) (j a)) := by
      intro i j
      rw [assembledN_prod]
      simp only [assembled_glob]
      rw [Finset.prod_univ_sum]
      refine Finset.sum_congr rfl fun e _ => ?_
      rw [Finset.prod_univ_sum]
      refine Finset.sum_congr rfl fun g _ => ?_
      simp only [Finset.prod_mul_distrib]
    have hform : ∑ i ∈ Fintype.piFinset fun a => Finset.Icc 0 (n a), ∑ j ∈ Fintype.piFinset fun a => Finset.Icc 0 (n a),
          c i * c j * assembledN B Q p (fun _ => 0) (fun _ => 0) i j =
        ∑ e ∈ Fintype.piFinset fun a => Finset.range (B a).r.toNat, ∑ g ∈ Fintype.piFinset fun a => Finset.range (Q a),
          (∏ a, (B a).J (e a) * (B a).W (g a)) *
            (∑ i ∈ Fintype.piFinset fun a => Finset.Icc 0 (n a), c i * ∏ a, glob (B a) (p a) 0 (e a) (g a) (i a)) ^ 2 := by
      simp only [hA, Finset.mul_sum]
      rw [Finset.sum_congr rfl fun i _ => Finset.sum_comm, Finset.sum_comm]
      refine Finset.sum_congr rfl fun e he => ?_
      rw [Finset.sum_congr rfl fun i _ => Finset.sum_comm, Finset.sum_comm]
      refine Finset.sum_congr rfl fun g hg => ?_
      rw [sq, Finset.sum_mul_sum, Finset.mul_sum]
      refine Finset.sum_congr rfl fun i _ => ?_
      rw [Finset.mul_sum]
      exact Finset.sum_congr rfl fun j _ => by ring
    rw [hform]
    have hw : ∀ e ∈ Fintype.piFinset (fun a => Finset.range (B a).r.toNat), ∀ g ∈ Fintype.piFinset (fun a => Finset.range (Q a)),
        0 < ∏ a, (B a).J (e a) * (B a).W (g a) := by
      intro e he g hg
      refine Finset.prod_pos fun a _ => ?_
      obtain ⟨k, _, _, _, _, j1, j2, _⟩ := (hB a).inside heps (Finset.mem_range.1 (Fintype.mem_piFinset.1 he a))
        (Finset.mem_range.1 (Fintype.mem_piFinset.1 hg a))
      exact mul_pos j1 j2
    have hnn : ∀ e ∈ Fintype.piFinset (fun a => Finset.range (B a).r.toNat),
        0 ≤ ∑ g ∈ Fintype.piFinset fun a => Finset.range (Q a), (∏ a, (B a).J (e a) * (B a).W (g a)) *
            (∑ i ∈ Fintype.piFinset fun a => Finset.Icc 0 (n a), c i * ∏ a, glob (B a) (p a) 0 (e a) (g a) (i a)) ^ 2 :=
      fun e he => Finset.sum_nonneg fun g hg => mul_nonneg (hw e he g hg).le (sq_nonneg _)
    refine lt_of_le_of_ne (Finset.sum_nonneg hnn) fun hz => ?_
    have hz1 := (Finset.sum_eq_zero_iff_of_nonneg hnn).1 hz.symm
    obtain ⟨i, hi, hci⟩ := hc
    refine hci (tensor_inj (σ := ℕ × ℕ) (T := fun a s => s.1 < (B a).r.toNat ∧ s.2 < Q a)
      (b := fun a s i => glob (B a) (p a) 0 s.1 s.2 i) (fun a c' h' => (hB a).inj heps (hpQ a) (hmult a) c'
        fun e he g hg => h' (e, g) ⟨he, hg⟩) c (fun s hs => ?_) i hi)
    have he : (fun a => (s a).1) ∈ Fintype.piFinset (fun a => Finset.range (B a).r.toNat) :=
      Fintype.mem_piFinset.2 fun a => Finset.mem_range.2 (hs a).1
    have hg : (fun a => (s a).2) ∈ Fintype.piFinset (fun a => Finset.range (Q a)) :=
      Fintype.mem_piFinset.2 fun a => Finset.mem_range.2 (hs a).2
    have := (Finset.sum_eq_zero_iff_of_nonneg fun g hg => mul_nonneg (hw _ he g hg).le (sq_nonneg _)).1 (hz1 _ he) _ hg
    rcases mul_eq_zero.1 this with h | h
    · exact absurd h (hw _ he _ hg).ne'
    · exact pow_eq_zero_iff two_ne_zero |>.1 h

/-- C92: at the quadrature points the sums over the local functions are the partial derivatives of the components of the
object, in all directions up to the number of derivatives asked for -/
theorem C92_partials {eps : ℝ} (heps : 0 ≤ eps) {N : Nrb ℝ d} {D Q : Fin d → ℕ} {B : Fin d → QuadData ℝ}
    (hB : ∀ a, IsQuad eps (N.n a) (N.degree a).toNat (N.U a) (D a) (Q a) (B a)) (dirs : List (Fin d))
    (hl : ∀ a, dirs.count a ≤ D a) (c : ℕ) {e g : Fin d → ℕ} (he : ∀ a, e a < (B a).r.toNat) (hg : ∀ a, g a < Q a) :
    localSum B (fun a => (N.degree a).toNat) (fun a => dirs.count a) (fun idx => N.P idx c) e g =
      pdo dirs (fun y => N.eval y c) fun a => (B a).X (e a) (g a) := by
  rw [localSum_eq heps hB hl _ he hg]
  have e1 : (fun y => N.eval y c) = tensor N.n (fun a => (N.degree a).toNat) N.U fun idx => N.P idx c := by
    funext y; unfold Nrb.eval; exact tensor_apply _ _ _
  choose k hk using fun a => (hB a).inside heps (he a) (hg a)
  rw [e1, pdo_tensor (fun a => (hB a).valid) _ (k := k) (fun a => ⟨(hk a).1, (hk a).2.1⟩) dirs _
    fun a => ⟨(hk a).2.2.2.2.2.2.1, (hk a).2.2.2.2.2.2.2.1⟩]

/-- maps which agree on a box have the same first derivatives inside -/
theorem pdo_congr_box {lo hi : Fin d → ℝ} {f f' : (Fin d → ℝ) → ℝ} (h : ∀ x, (∀ a, lo a ≤ x a ∧ x a ≤ hi a) → f x = f' x)
    (j : Fin d) {x : Fin d → ℝ} (hx : ∀ a, lo a < x a ∧ x a < hi a) : pdo [j] f x = pdo [j] f' x := by
  simp only [pdo]
  refine Filter.EventuallyEq.deriv_eq ?_
  filter_upwards [Ioo_mem_nhds (hx j).1 (hx j).2] with t ht
  refine h _ fun a => ?_
  by_cases ha : a = j
  · subst ha; rw [Function.update_self]; exact ⟨ht.1.le, ht.2.le⟩
  · rw [Function.update_of_ne ha]; exact ⟨(hx a).1.le, (hx a).2.le⟩

/-- C92: the volume (`d = 3`), area (`d = 2`), length (`d = 1`) of an object in space of the same dimension, whose points are
its homogeneous coordinates divided by constant weights 1: with enough points per element the weighted sum of the
determinants of the derivatives at the quadrature points is the integral of the determinant over the domain.  `m` bounds the
control points, `δ a` the lengths of the nonempty spans of axis `a` from below. -/
theorem C92_volume {eps : ℝ} (heps : 0 ≤ eps) {N : Nrb ℝ d} (hN : N.Valid) (hw : ∀ idx, N.InNet idx → N.P idx 3 = 1)
    {D Q : Fin d → ℕ} {B : Fin d → QuadData ℝ}
    (hB : ∀ a, IsQuad eps (N.n a) (N.degree a).toNat (N.U a) (D a) (Q a) (B a)) (hD : ∀ a, 1 ≤ D a)
    (hQ : ∀ a, d * (N.degree a).toNat ≤ 2 * Q a) {δ : Fin d → ℝ} (h0 : ∀ a, 0 < δ a)
    (hδ : ∀ a k, N.degree a ≤ k → k ≤ N.n a → N.U a k < N.U a (k + 1) → δ a ≤ N.U a (k + 1) - N.U a k) {m : ℝ}
    (hm : ∀ idx, N.InNet idx → ∀ i : Fin d, |N.P idx i| ≤ m) :
    |volumeSum B Q (fun a => (N.degree a).toNat) N.P -
        ∫ x in N.box, (Matrix.of fun i j : Fin d => pdo [j] (fun y => N.proj y i) x).det| ≤
      (d.factorial * ∏ j : Fin d, (m * ∏ a, (((N.degree a).toNat + 1) * (2 ^ (N.degree a).toNat *
        (2 * (N.degree a).toNat / δ a) ^ (if a = j then 1 else 0))))) * ((1 + 3 / 2 / 10 ^ 36) ^ d - 1) *
        ∏ a, (N.hi a - N.lo a) := by
  have hdeg : ∀ a, ((N.degree a).toNat : ℤ) = N.degree a := fun a => Int.toNat_of_nonneg (by have := (hN a).one_le; omega)
  have hnet : ∀ idx : Fin d → ℤ, (∀ a, 0 ≤ idx a ∧ idx a ≤ N.n a) → N.InNet idx := by
    intro idx h a
    have := h a
    unfold Nrb.n at this
    omega
  have hhi : ∀ a, N.hi a = N.U a (N.n a + 1) := N.hi_eq
  have hcnt : ∀ j : Fin d, (fun a => [j].count a) = fun a : Fin d => if a = j then 1 else 0 := by
    intro j; funext a; rw [List.count_singleton]
    by_cases h : a = j
    · rw [if_pos h, if_pos (by simp [h])]
    · rw [if_neg h, if_neg (by simpa using fun h' => h h'.symm)]
  have hone : ∀ x, N.InDom x → N.eval x 3 = 1 := by
    intro x hx
    rw [Nrb.eval_apply, ← Nrb.wt_sum hN hx]
    refine Finset.sum_congr rfl fun idx h => ?_
    rw [hw idx (hnet idx fun a => Finset.mem_Icc.1 (Fintype.mem_piFinset.1 h a)), mul_one]
  set f : (Fin d → ℝ) → ℝ := fun x => (Matrix.of fun i j : Fin d => pdo [j] (fun y => N.eval y i) x).det with hf
  have e1 : volumeSum B Q (fun a => (N.degree a).toNat) N.P = patchSumN B Q f := by
    unfold volumeSum patchSumN
    refine Finset.sum_congr rfl fun e he => Finset.sum_congr rfl fun g hg => ?_
    congr 1
    rw [hf]
    dsimp only
    congr 1
    ext i j
    simp only [Matrix.of_apply]
    rw [← C92_partials heps hB [j] (fun a => by have := hD a; rw [congrFun (hcnt j) a]; split_ifs <;> omega) i
      (fun a => Finset.mem_range.1 (Fintype.mem_piFinset.1 he a)) (fun a => Finset.mem_range.1 (Fintype.mem_piFinset.1 hg a)), hcnt]
  have hbox : N.box = Set.univ.pi fun a => Set.Icc (N.U a ((N.degree a).toNat)) (N.U a (N.n a + 1)) := by
    unfold Nrb.box
    simp only [hdeg, hhi]
    rfl
  have e2 : ∫ x in N.box, (Matrix.of fun i j : Fin d => pdo [j] (fun y => N.proj y i) x).det = ∫ x in N.box, f x := by
    have hae : (Set.univ.pi fun a => Set.Ioo (N.lo a) (N.hi a)) =ᵐ[volume] N.box := by
      unfold Nrb.box
      rw [volume_pi]
      exact Measure.pi_Ioo_ae_eq_pi_Icc
    rw [← setIntegral_congr_set hae, ← setIntegral_congr_set hae]
    refine setIntegral_congr_fun (MeasurableSet.univ_pi fun _ => measurableSet_Ioo) fun x hx => ?_
    rw [hf]
    dsimp only
    congr 1
    ext i j
    simp only [Matrix.of_apply]
    refine pdo_congr_box (lo := N.lo) (hi := N.hi) (fun y hy => ?_) j fun a => hx a (Set.mem_univ a)
    unfold Nrb.proj
    rw [hone y hy, div_one]
  rw [e1, e2, hbox]
  have e3 : ∏ a, (N.hi a - N.lo a) = ∏ a, (N.U a (N.n a + 1) - N.U a ((N.degree a).toNat)) := by
    simp only [hdeg, hhi]
    rfl
  rw [e3]
  refine (C92_integral heps hB fun k hk => ?_).2
  have hc : ∀ i j : Fin d, CellPoly N.U k (fun a => (N.degree a).toNat - if a = j then 1 else 0)
      (m * ∏ a, (((N.degree a).toNat + 1) * (2 ^ (N.degree a).toNat *
        (2 * (N.degree a).toNat / δ a) ^ (if a = j then 1 else 0)))) (fun x => pdo [j] (fun y => N.eval y i) x) := by
    intro i j
    have := tensorD_cell (fun a => (hB a).valid) h0 hk (fun a => hδ a (k a) (by have := hdeg a; have := (hk a).1; omega) (hk a).2.1 (hk a).2.2)
      (fun a => if a = j then 1 else 0) (P := fun idx => N.P idx i) (m := m) (fun idx h => hm idx (hnet idx h) i)
    refine this.congr (fun a => (hk a).2.2) fun x hx => ?_
    have e1 : (fun y => N.eval y i) = tensor N.n (fun a => (N.degree a).toNat) N.U fun idx => N.P idx i := by
      funext y; unfold Nrb.eval; exact tensor_apply _ _ _
    rw [e1, pdo_tensor (fun a => (hB a).valid) _ (k := k) (fun a => ⟨(hk a).1, (hk a).2.1⟩) [j] _ hx, hcnt]
  refine ⟨fun a => ∑ j : Fin d, ((N.degree a).toNat - if a = j then 1 else 0), fun a => ?_, ?_⟩
  · have h1 := hQ a
    have h2 : 1 ≤ (N.degree a).toNat := by have := (hB a).valid.one_le; omega
    refine lt_of_lt_of_le ?_ h1
    calc ∑ j : Fin d, ((N.degree a).toNat - if a = j then 1 else 0) < ∑ j : Fin d, (N.degree a).toNat := by
          refine Finset.sum_lt_sum (fun j _ => Nat.sub_le _ _) ⟨a, Finset.mem_univ a, ?_⟩
          rw [if_pos rfl]; omega
      _ = d * (N.degree a).toNat := by simp
  · have : CellPoly N.U k (fun a => ∑ j : Fin d, ((N.degree a).toNat - if a = j then 1 else 0))
        (∑ σ : Equiv.Perm (Fin d), ∏ j : Fin d, (m * ∏ a, (((N.degree a).toNat + 1) * (2 ^ (N.degree a).toNat *
          (2 * (N.degree a).toNat / δ a) ^ (if a = j then 1 else 0)))))
        (fun x => ∑ σ : Equiv.Perm (Fin d), ((Equiv.Perm.sign σ : ℤ) : ℝ) * ∏ j : Fin d, pdo [j] (fun y => N.eval y (σ j)) x) := by
      refine CellPoly.sum _ fun σ _ => ?_
      have h1 := (CellPoly.const N.U k ((Equiv.Perm.sign σ : ℤ) : ℝ)).mul
        (CellPoly.finprod Finset.univ fun j _ => hc (σ j) j)
      refine h1.mono (fun a => by simp) ?_
      have : |((Equiv.Perm.sign σ : ℤ) : ℝ)| = 1 := by
        rcases Int.units_eq_one_or (Equiv.Perm.sign σ) with h | h <;> rw [h] <;> simp
      rw [this, one_mul]
    rw [Finset.sum_const, Finset.card_univ, Fintype.card_perm, Fintype.card_fin, nsmul_eq_mul] at this
    have e : f = fun x => ∑ σ : Equiv.Perm (Fin d), ((Equiv.Perm.sign σ : ℤ) : ℝ) * ∏ j : Fin d, pdo [j] (fun y => N.eval y (σ j)) x := by
      funext x
      rw [hf]
      dsimp only
      rw [Matrix.det_apply']
      rfl
    rw [e]
    exact this

/-- C92: the bound of `C92_volume` -/
noncomputable def Nrb.volErr (N : Nrb ℝ d) (δ : Fin d → ℝ) (m : ℝ) : ℝ :=
  (d.factorial * ∏ j : Fin d, (m * ∏ a, (((N.degree a).toNat + 1) * (2 ^ (N.degree a).toNat *
    (2 * (N.degree a).toNat / δ a) ^ (if a = j then 1 else 0))))) * ((1 + 3 / 2 / 10 ^ 36) ^ d - 1) * ∏ a, (N.hi a - N.lo a)

/-- C92: the volume does not depend on the description.  Two objects with the same domain and the same map (before and after
insertion, refinement, elevation, clamping, …) get the same volume up to the two errors, with any numbers of points that
suffice for each. -/
theorem C92_volume_same {eps : ℝ} (heps : 0 ≤ eps) {N N' : Nrb ℝ d} (hN : N.Valid) (hN' : N'.Valid)
    (hw : ∀ idx, N.InNet idx → N.P idx 3 = 1) (hw' : ∀ idx, N'.InNet idx → N'.P idx 3 = 1)
    (hlo : ∀ a, N'.lo a = N.lo a) (hhi : ∀ a, N'.hi a = N.hi a) (hmap : ∀ x, N.InDom x → N'.eval x = N.eval x)
    {D Q D' Q' : Fin d → ℕ} {B B' : Fin d → QuadData ℝ}
    (hB : ∀ a, IsQuad eps (N.n a) (N.degree a).toNat (N.U a) (D a) (Q a) (B a))
    (hB' : ∀ a, IsQuad eps (N'.n a) (N'.degree a).toNat (N'.U a) (D' a) (Q' a) (B' a))
    (hD : ∀ a, 1 ≤ D a) (hD' : ∀ a, 1 ≤ D' a)
    (hQ : ∀ a, d * (N.degree a).toNat ≤ 2 * Q a) (hQ' : ∀ a, d * (N'.degree a).toNat ≤ 2 * Q' a)
    {δ δ' : Fin d → ℝ} (h0 : ∀ a, 0 < δ a) (h0' : ∀ a, 0 < δ' a)
    (hδ : ∀ a k, N.degree a ≤ k → k ≤ N.n a → N.U a k < N.U a (k + 1) → δ a ≤ N.U a (k + 1) - N.U a k)
    (hδ' : ∀ a k, N'.degree a ≤ k → k ≤ N'.n a → N'.U a k < N'.U a (k + 1) → δ' a ≤ N'.U a (k + 1) - N'.U a k)
    {m m' : ℝ} (hm : ∀ idx, N.InNet idx → ∀ i : Fin d, |N.P idx i| ≤ m)
    (hm' : ∀ idx, N'.InNet idx → ∀ i : Fin d, |N'.P idx i| ≤ m') :
    |volumeSum B' Q' (fun a => (N'.degree a).toNat) N'.P - volumeSum B Q (fun a => (N.degree a).toNat) N.P| ≤
      N.volErr δ m + N'.volErr δ' m' := by
  have k1 := C92_volume heps hN hw hB hD hQ h0 hδ hm
  have k2 := C92_volume heps hN' hw' hB' hD' hQ' h0' hδ' hm'
  have hbox : N'.box = N.box := by
    unfold Nrb.box
    simp only [hlo, hhi]
  have e : ∫ x in N'.box, (Matrix.of fun i j : Fin d => pdo [j] (fun y => N'.proj y i) x).det =
      ∫ x in N.box, (Matrix.of fun i j : Fin d => pdo [j] (fun y => N.proj y i) x).det := by
    rw [hbox]
    have hae : (Set.univ.pi fun a => Set.Ioo (N.lo a) (N.hi a)) =ᵐ[volume] N.box := by
      unfold Nrb.box
      rw [volume_pi]
      exact Measure.pi_Ioo_ae_eq_pi_Icc
    rw [← setIntegral_congr_set hae, ← setIntegral_congr_set hae]
    refine setIntegral_congr_fun (MeasurableSet.univ_pi fun _ => measurableSet_Ioo) fun x hx => ?_
    congr 1
    ext i j
    simp only [Matrix.of_apply]
    refine pdo_congr_box (lo := N.lo) (hi := N.hi) (fun y hy => ?_) j fun a => hx a (Set.mem_univ a)
    unfold Nrb.proj
    rw [hmap y hy]
  rw [e] at k2
  change _ ≤ N.volErr δ m at k1
  change _ ≤ N'.volErr δ' m' at k2
  have := abs_sub_le (volumeSum B' Q' (fun a => (N'.degree a).toNat) N'.P)
    (∫ x in N.box, (Matrix.of fun i j : Fin d => pdo [j] (fun y => N.proj y i) x).det)
    (volumeSum B Q (fun a => (N.degree a).toNat) N.P)
  rw [abs_sub_comm (∫ x in N.box, _)] at this
  linarith

end Igakit
