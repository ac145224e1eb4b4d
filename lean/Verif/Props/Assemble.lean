import Verif.Proofs.Assemble
import Verif.Proofs.Unique
import Verif.Proofs.Ends

/-!
# Property C68: assembly over the elements of a patch
-/

set_option linter.unusedSectionVars false

namespace Igakit
open Spec Polynomial

variable {K : Type} [Field K] [LinearOrder K] [IsStrictOrderedRing K]

/-- C68: the quadrature of a function over the patch.  The function is a polynomial inside every nonempty span; in
the coordinate of the span (-1 at the left, 1 at the right end) it has degree less than `2Q` and coefficients whose
absolute values add up to at most `M`.  Then the weighted sum over all points of all elements is the integral over
the domain up to `3e-36 * M` times half the length of the domain. -/
theorem C68_integral {eps : ℝ} (heps : 0 ≤ eps) (jo : ℤ → ℤ) (jk : ℤ → ℝ) (j2 ja jd : ℤ → ℤ → ℝ)
    {n : ℤ} {p : ℕ} {U : ℤ → ℝ} (hv : ValidKnots n p U)
    (hsep : ∀ k, (p : ℤ) ≤ k → k ≤ n → U k < U (k + 1) → eps < U (k + 1) - U k)
    {d q : Option ℤ} {D Q : ℕ} (hd : d.getD p = D) (hDp : D ≤ p) (hq : q.getD (p + 1) = Q) (hq1 : 1 ≤ Q) (hq2 : Q ≤ 10) :
    ∃ B : QuadData ℝ, BasisData eps jo jk j2 ja jd p (n + p + 1) U d q = .ok B ∧
      ∀ (f : ℝ → ℝ) (M : ℝ),
        (∀ k, (p : ℤ) ≤ k → k ≤ n → U k < U (k + 1) → ∃ R : ℝ[X], R.natDegree < 2 * Q ∧
          ∑ c ∈ Finset.range (2 * Q), |R.coeff c| ≤ M ∧
          ∀ t, -1 < t → t < 1 → f (U k + (t + 1) * ((U (k + 1) - U k) / 2)) = R.eval t) →
        |patchSum B Q f - ∫ x in (U p)..(U (n + 1)), f x| ≤ 3 / 10 ^ 36 * M * ((U (n + 1) - U p) / 2) := by
  obtain ⟨l, B, hB, hl, hm, hr, hW, hE⟩ := basisData_raw heps jo jk j2 ja jd hv hsep hd hDp hq hq1 hq2
  replace hl : l.Nodup := hl.imp ne_of_lt
  refine ⟨B, hB, fun f M hf => ?_⟩
  have h1 := hv.one_le
  have h2 := hv.le
  have key := (spans_error hq1 hq2 (U := U) (lo := p) (f := f) (M := M) (n + 1) (by omega)
    (fun k a b => hv.sorted k (k + 1) (by omega) (by omega) (by omega)) (fun k a b => hf k a (by omega))).2
  have e : patchSum B Q f = ∑ k ∈ Finset.Ico (p : ℤ) (n + 1) with U k < U (k + 1), ∑ g ∈ Finset.range Q,
        (U (k + 1) - U k) / 2 * (((legW Q).getD g 0 : ℚ) : ℝ) *
        f (((((legX Q).getD g 0 : ℚ) : ℝ) + 1) * ((U (k + 1) - U k) / 2) + U k) := by
    unfold patchSum
    rw [hr, Int.toNat_natCast]
    have hfin : (Finset.Ico (p : ℤ) (n + 1)).filter (fun k => U k < U (k + 1)) = l.toFinset := by
      ext k
      rw [Finset.mem_filter, Finset.mem_Ico, List.mem_toFinset, hm]
      constructor
      · rintro ⟨⟨a, b⟩, c⟩; exact ⟨a, by omega, c⟩
      · rintro ⟨a, b, c⟩; exact ⟨⟨a, by omega⟩, c⟩
    rw [hfin]
    refine sum_getElem_eq l hl _ _ fun e he => ?_
    obtain ⟨_, hJ, hX, _⟩ := hE e he
    refine Finset.sum_congr rfl fun g _ => ?_
    rw [hX, hW, hJ]
  rw [e]
  refine key.trans (le_of_eq (by ring))

/-- C68: the matrices.  For all numbers of derivatives `l1, l2` and all functions `i, j` of the patch the assembled
entry is the integral of the product of the derivatives over the domain; `δ` bounds the lengths of the nonempty spans
from below.  (The derivatives of a B-spline at a knot are irrelevant for the integral.) -/
theorem C68_matrix {eps : ℝ} (heps : 0 ≤ eps) (jo : ℤ → ℤ) (jk : ℤ → ℝ) (j2 ja jd : ℤ → ℤ → ℝ)
    {n : ℤ} {p : ℕ} {U : ℤ → ℝ} (hv : ValidKnots n p U)
    (hsep : ∀ k, (p : ℤ) ≤ k → k ≤ n → U k < U (k + 1) → eps < U (k + 1) - U k)
    {d q : Option ℤ} {D Q : ℕ} (hd : d.getD p = D) (hDp : D ≤ p) (hq : q.getD (p + 1) = Q) (hq1 : 1 ≤ Q) (hq2 : Q ≤ 10)
    {δ : ℝ} (h0 : 0 < δ) (hδ : ∀ k, (p : ℤ) ≤ k → k ≤ n → U k < U (k + 1) → δ ≤ U (k + 1) - U k) :
    ∃ B : QuadData ℝ, BasisData eps jo jk j2 ja jd p (n + p + 1) U d q = .ok B ∧
      ∀ (i j : ℤ) (l1 l2 : ℕ), 0 ≤ i → i ≤ n → 0 ≤ j → j ≤ n → l1 ≤ D → l2 ≤ D → 2 * p < 2 * Q + l1 + l2 →
        |assembled B Q p l1 l2 i j - ∫ x in (U p)..(U (n + 1)),
            iteratedDeriv l1 (bsplineD n U p i) x * iteratedDeriv l2 (bsplineD n U p j) x| ≤
          3 / 10 ^ 36 * (4 ^ p * (2 * p / δ) ^ (l1 + l2)) * ((U (n + 1) - U p) / 2) := by
  have h1 := hv.one_le
  have h2 := hv.le
  obtain ⟨l, B, hB, hl, hm, hr, hW, hE⟩ := basisData_raw heps jo jk j2 ja jd hv hsep hd hDp hq hq1 hq2
  replace hl : l.Nodup := hl.imp ne_of_lt
  obtain ⟨B', hB', hmain⟩ := C68_integral heps jo jk j2 ja jd hv hsep hd hDp hq hq1 hq2
  obtain rfl : B' = B := by rw [hB] at hB'; exact (Except.ok.inj hB').symm
  refine ⟨B', hB, fun i j l1 l2 i1 i2 j1 j2 d1 d2 hdeg => ?_⟩
  obtain ⟨t1, t2, t3, t4, t5, t6, t7, t8⟩ := leg_table Q (List.mem_range'_1.mpr ⟨by omega, by omega⟩)
  set f : ℝ → ℝ := fun x => iteratedDeriv l1 (bsplineD n U p i) x * iteratedDeriv l2 (bsplineD n U p j) x with hf
  have e : assembled B' Q p l1 l2 i j = patchSum B' Q f := by
    unfold assembled patchSum
    refine Finset.sum_congr rfl fun e he => Finset.sum_congr rfl fun g hg => ?_
    have he' : e < l.length := by have := Finset.mem_range.1 he; omega
    have hg' := Finset.mem_range.1 hg
    obtain ⟨hO, hJ, hX, hN⟩ := hE e he'
    obtain ⟨k1, k2, k3⟩ := (hm _).1 (List.getElem_mem he')
    generalize l[e] = k at *
    have hgl : g < (legX Q).length := by rw [t1]; exact hg'
    obtain ⟨x1, x2⟩ := t4 _ (List.getElem_mem hgl)
    have x1' : (-1 : ℝ) < (((legX Q)[g] : ℚ) : ℝ) := by exact_mod_cast x1
    have x2' : (((legX Q)[g] : ℚ) : ℝ) < 1 := by exact_mod_cast x2
    have hXg := hX g
    rw [List.getD_eq_getElem _ _ hgl, hJ] at hXg
    have y1 : U k < B'.X e g := by rw [hXg]; nlinarith
    have y2 : B'.X e g < U (k + 1) := by rw [hXg]; nlinarith
    rw [hf]
    dsimp only
    rw [iteratedDeriv_span hv.sorted k1 k2 i1 i2 l1 y1 y2, iteratedDeriv_span hv.sorted k1 k2 j1 j2 l2 y1 y2]
    have z : ∀ (i : ℤ) (l : ℕ), i < k - p ∨ k - p + p < i → (derivative^[l] (pieceP U k p i)).eval (B'.X e g) = 0 := by
      intro i l h
      have : pieceP U k p i = 0 := by
        rcases h with h | h
        · exact pieceP_zero_of_lt _ _ _ _ (by omega)
        · exact pieceP_zero_of_gt _ _ _ _ (by omega)
      rw [this, iterate_derivative_zero, eval_zero]
    have s1 := sum_local (p := p) (o := k - p) (i := i) (fun i => (derivative^[l1] (pieceP U k p i)).eval (B'.X e g)) (z i l1)
    have s2 := sum_local (p := p) (o := k - p) (i := j) (fun i => (derivative^[l2] (pieceP U k p i)).eval (B'.X e g)) (z j l2)
    rw [← s1, ← s2, Finset.sum_mul_sum, Finset.mul_sum]
    refine Finset.sum_congr rfl fun a ha => ?_
    rw [Finset.mul_sum]
    refine Finset.sum_congr rfl fun b hb => ?_
    have ha' := Finset.mem_range.1 ha
    have hb' := Finset.mem_range.1 hb
    rw [hN g a l1 (by omega) d1, hN g b l2 (by omega) d2, hO]
    split_ifs <;> first | rfl | (exfalso; tauto) | simp
  rw [e]
  refine (hmain f _ fun k k1 k2 k3 => ?_).trans (le_of_eq rfl)
  have hs : SortedOn U (k - p) (k + p + 1) := fun a b c1 c2 c3 => hv.sorted a b (by omega) c2 (by omega)
  have hloc : (loc U k).natDegree ≤ 1 := by unfold loc; rw [add_comm]; exact natDegree_linear_le
  have hdg : ∀ (i : ℤ) (l : ℕ), ((derivative^[l] (pieceP U k p i)).comp (loc U k)).natDegree ≤ p - l := by
    intro i l
    refine natDegree_comp_le.trans ((Nat.mul_le_mul (natDegree_iterate_derivative _ _) hloc).trans ?_)
    have := natDegree_pieceP U k p i
    omega
  refine ⟨(derivative^[l1] (pieceP U k p i)).comp (loc U k) * (derivative^[l2] (pieceP U k p j)).comp (loc U k), ?_, ?_, ?_⟩
  · refine lt_of_le_of_lt natDegree_mul_le ?_
    have := hdg i l1
    have := hdg j l2
    omega
  · rw [← l1n_eq]
    · refine (l1n_mul _ _).trans ((mul_le_mul (l1n_pieceP_deriv k3 hs i h0 (hδ k k1 k2 k3) l1)
        (l1n_pieceP_deriv k3 hs j h0 (hδ k k1 k2 k3) l2) (l1n_nonneg _) (by positivity)).trans (le_of_eq ?_))
      rw [pow_add, show (4 : ℝ) = 2 * 2 by norm_num, mul_pow]
      ring
    · refine lt_of_le_of_lt natDegree_mul_le ?_
      have := hdg i l1
      have := hdg j l2
      omega
  · intro t ht1 ht2
    have y1 : U k < U k + (t + 1) * ((U (k + 1) - U k) / 2) := by nlinarith
    have y2 : U k + (t + 1) * ((U (k + 1) - U k) / 2) < U (k + 1) := by nlinarith
    rw [hf]
    dsimp only
    rw [iteratedDeriv_span hv.sorted k1 k2 i1 i2 l1 y1 y2, iteratedDeriv_span hv.sorted k1 k2 j1 j2 l2 y1 y2, eval_mul,
      eval_comp, eval_comp]
    have : (loc U k).eval t = U k + (t + 1) * ((U (k + 1) - U k) / 2) := by simp [loc]; ring
    rw [this]

/-- C68: the load vector of a function which is a polynomial inside every nonempty span (a polynomial, a field of the
patch, another B-spline), of degree `r` with `p + r < 2Q` and coefficients as in `C68_integral` -/
theorem C68_load {eps : ℝ} (heps : 0 ≤ eps) (jo : ℤ → ℤ) (jk : ℤ → ℝ) (j2 ja jd : ℤ → ℤ → ℝ)
    {n : ℤ} {p : ℕ} {U : ℤ → ℝ} (hv : ValidKnots n p U)
    (hsep : ∀ k, (p : ℤ) ≤ k → k ≤ n → U k < U (k + 1) → eps < U (k + 1) - U k)
    {d q : Option ℤ} {D Q : ℕ} (hd : d.getD p = D) (hDp : D ≤ p) (hq : q.getD (p + 1) = Q) (hq1 : 1 ≤ Q) (hq2 : Q ≤ 10) :
    ∃ B : QuadData ℝ, BasisData eps jo jk j2 ja jd p (n + p + 1) U d q = .ok B ∧
      ∀ (f : ℝ → ℝ) (M : ℝ) (i : ℤ), 0 ≤ i → i ≤ n →
        (∀ k, (p : ℤ) ≤ k → k ≤ n → U k < U (k + 1) → ∃ R : ℝ[X], p + R.natDegree < 2 * Q ∧
          ∑ c ∈ Finset.range (2 * Q), |R.coeff c| ≤ M ∧
          ∀ t, -1 < t → t < 1 → f (U k + (t + 1) * ((U (k + 1) - U k) / 2)) = R.eval t) →
        |assembledLoad B Q p f i - ∫ x in (U p)..(U (n + 1)), bsplineD n U p i x * f x| ≤
          3 / 10 ^ 36 * (2 ^ p * M) * ((U (n + 1) - U p) / 2) := by
  have h1 := hv.one_le
  have h2 := hv.le
  obtain ⟨l, B, hB, hl, hm, hr, hW, hE⟩ := basisData_raw heps jo jk j2 ja jd hv hsep hd hDp hq hq1 hq2
  replace hl : l.Nodup := hl.imp ne_of_lt
  obtain ⟨B', hB', hmain⟩ := C68_integral heps jo jk j2 ja jd hv hsep hd hDp hq hq1 hq2
  obtain rfl : B' = B := by rw [hB] at hB'; exact (Except.ok.inj hB').symm
  refine ⟨B', hB, fun f M i i1 i2 hR => ?_⟩
  obtain ⟨t1, t2, t3, t4, t5, t6, t7, t8⟩ := leg_table Q (List.mem_range'_1.mpr ⟨by omega, by omega⟩)
  have e : assembledLoad B' Q p f i = patchSum B' Q (fun x => bsplineD n U p i x * f x) := by
    unfold assembledLoad patchSum
    refine Finset.sum_congr rfl fun e he => Finset.sum_congr rfl fun g hg => ?_
    have he' : e < l.length := by have := Finset.mem_range.1 he; omega
    have hg' := Finset.mem_range.1 hg
    obtain ⟨hO, hJ, hX, hN⟩ := hE e he'
    obtain ⟨k1, k2, k3⟩ := (hm _).1 (List.getElem_mem he')
    generalize l[e] = k at *
    have hgl : g < (legX Q).length := by rw [t1]; exact hg'
    obtain ⟨x1, x2⟩ := t4 _ (List.getElem_mem hgl)
    have x1' : (-1 : ℝ) < (((legX Q)[g] : ℚ) : ℝ) := by exact_mod_cast x1
    have x2' : (((legX Q)[g] : ℚ) : ℝ) < 1 := by exact_mod_cast x2
    have hXg := hX g
    rw [List.getD_eq_getElem _ _ hgl, hJ] at hXg
    have y1 : U k < B'.X e g := by rw [hXg]; nlinarith
    have y2 : B'.X e g < U (k + 1) := by rw [hXg]; nlinarith
    dsimp only
    rw [bsplineD_on_span hv.sorted k1 k2 i1 i2 _ y1.le y2]
    have s1 := sum_local (p := p) (o := k - p) (i := i) (fun i => (pieceP U k p i).eval (B'.X e g)) (fun h => by
      have : pieceP U k p i = 0 := by
        rcases h with h | h
        · exact pieceP_zero_of_lt _ _ _ _ (by omega)
        · exact pieceP_zero_of_gt _ _ _ _ (by omega)
      rw [this, eval_zero])
    rw [← s1, Finset.sum_mul, Finset.mul_sum]
    refine Finset.sum_congr rfl fun a ha => ?_
    have ha' := Finset.mem_range.1 ha
    have := hN g a 0 (by omega) (by omega)
    rw [Function.iterate_zero, id] at this
    rw [show ((0 : ℕ) : ℤ) = 0 from rfl] at this
    rw [this, hO]
    split_ifs <;> simp
  rw [e]
  refine hmain _ _ fun k k1 k2 k3 => ?_
  obtain ⟨R, r1, r2, r3⟩ := hR k k1 k2 k3
  have hs : SortedOn U (k - p) (k + p + 1) := fun a b c1 c2 c3 => hv.sorted a b (by omega) c2 (by omega)
  have hloc : (loc U k).natDegree ≤ 1 := by unfold loc; rw [add_comm]; exact natDegree_linear_le
  have hdg : (((pieceP U k p i)).comp (loc U k) * R).natDegree < 2 * Q := by
    refine lt_of_le_of_lt natDegree_mul_le ?_
    have := natDegree_comp_le (p := pieceP U k p i) (q := loc U k)
    have := Nat.mul_le_mul (natDegree_pieceP U k p i) hloc
    omega
  refine ⟨_, hdg, ?_, ?_⟩
  · rw [← l1n_eq hdg]
    refine (l1n_mul _ _).trans (mul_le_mul (l1n_pieceP k3 p hs i) ?_ (l1n_nonneg _) (by positivity))
    rw [l1n_eq (n := 2 * Q) (by omega)]
    exact r2
  · intro t ht1 ht2
    have y1 : U k < U k + (t + 1) * ((U (k + 1) - U k) / 2) := by nlinarith
    have y2 : U k + (t + 1) * ((U (k + 1) - U k) / 2) < U (k + 1) := by nlinarith
    rw [bsplineD_on_span hv.sorted k1 k2 i1 i2 _ y1.le y2, r3 t ht1 ht2, eval_mul, eval_comp]
    have : (loc U k).eval t = U k + (t + 1) * ((U (k + 1) - U k) / 2) := by simp [loc]; ring
    rw [this]

/-- C68: with at least `p + 1` points the assembled mass matrix is symmetric, banded and positive definite (exactly, over
every ordered field), when the multiplicities of the knots inside the domain are at most `p + 1`. -/
theorem C68_mass {eps : K} (heps : 0 ≤ eps) (jo : ℤ → ℤ) (jk : ℤ → K) (j2 ja jd : ℤ → ℤ → K)
    {n : ℤ} {p : ℕ} {U : ℤ → K} (hv : ValidKnots n p U)
    (hsep : ∀ k, (p : ℤ) ≤ k → k ≤ n → U k < U (k + 1) → eps < U (k + 1) - U k)
    {d q : Option ℤ} {D Q : ℕ} (hd : d.getD p = D) (hDp : D ≤ p) (hq : q.getD (p + 1) = Q) (hq1 : 1 ≤ Q) (hq2 : Q ≤ 10) :
    ∃ B : QuadData K, BasisData eps jo jk j2 ja jd p (n + p + 1) U d q = .ok B ∧
      (∀ i j, assembled B Q p 0 0 i j = assembled B Q p 0 0 j i) ∧
      (∀ i j : ℤ, (p : ℤ) < |i - j| → assembled B Q p 0 0 i j = 0) ∧
      (p < Q → (∀ x, U p < x → x < U (n + 1) → mult U 0 (n + p + 1) x ≤ p + 1) →
        ∀ c : ℤ → K, (∃ i, 0 ≤ i ∧ i ≤ n ∧ c i ≠ 0) →
          0 < ∑ i ∈ Finset.Icc 0 n, ∑ j ∈ Finset.Icc 0 n, c i * c j * assembled B Q p 0 0 i j) := by
  have h1 := hv.one_le
  have h2 := hv.le
  obtain ⟨l, B, hB, hl, hm, hr, hW, hE⟩ := basisData_raw heps jo jk j2 ja jd hv hsep hd hDp hq hq1 hq2
  replace hl : l.Nodup := hl.imp ne_of_lt
  obtain ⟨t1, t2, t3, t4, t5, t6, t7, t8⟩ := leg_table Q (List.mem_range'_1.mpr ⟨by omega, by omega⟩)
  refine ⟨B, hB, fun i j => ?_, fun i j hij => ?_, fun hpQ hmult c hc => ?_⟩
  · unfold assembled
    refine Finset.sum_congr rfl fun e _ => Finset.sum_congr rfl fun g _ => ?_
    rw [Finset.sum_comm]
    refine Finset.sum_congr rfl fun a _ => Finset.sum_congr rfl fun b _ => ?_
    rw [mul_comm (B.N e g b _)]
    simp only [and_comm]
  · unfold assembled
    refine Finset.sum_eq_zero fun e _ => Finset.sum_eq_zero fun g _ => Finset.sum_eq_zero fun a ha =>
      Finset.sum_eq_zero fun b hb => if_neg ?_
    have := Finset.mem_range.1 ha
    have := Finset.mem_range.1 hb
    rintro ⟨rfl, rfl⟩
    rcases abs_cases (B.O e + a - (B.O e + b)) with ⟨h, _⟩ | ⟨h, _⟩ <;> omega
  · -- the quadratic form
    have hform : ∑ i ∈ Finset.Icc 0 n, ∑ j ∈ Finset.Icc 0 n, c i * c j * assembled B Q p 0 0 i j =
        ∑ e ∈ Finset.range l.length, ∑ g ∈ Finset.range Q, B.J e * B.W g *
          (∑ a ∈ Finset.range (p + 1), c (B.O e + a) * B.N e g a 0) ^ 2 := by
      unfold assembled
      rw [hr, Int.toNat_natCast]
      simp only [Finset.mul_sum]
      rw [Finset.sum_congr rfl fun i _ => Finset.sum_comm, Finset.sum_comm]
      refine Finset.sum_congr rfl fun e he => ?_
      rw [Finset.sum_congr rfl fun i _ => Finset.sum_comm, Finset.sum_comm]
      refine Finset.sum_congr rfl fun g hg => ?_
      rw [Finset.sum_congr rfl fun i _ => Finset.sum_comm, Finset.sum_comm, sq, Finset.sum_mul_sum, Finset.mul_sum]
      refine Finset.sum_congr rfl fun a ha => ?_
      rw [Finset.sum_congr rfl fun i _ => Finset.sum_comm, Finset.sum_comm, Finset.mul_sum]
      refine Finset.sum_congr rfl fun b hb => ?_
      have he' : e < l.length := Finset.mem_range.1 he
      obtain ⟨hO, _⟩ := hE e he'
      obtain ⟨k1, k2, k3⟩ := (hm _).1 (List.getElem_mem he')
      have ha' := Finset.mem_range.1 ha
      have hb' := Finset.mem_range.1 hb
      rw [Finset.sum_eq_single (B.O e + a), Finset.sum_eq_single (B.O e + b), if_pos ⟨rfl, rfl⟩]
      · push_cast; ring
      · intro j _ hj; rw [if_neg (fun h => hj h.2.symm), mul_zero]
      · intro h; exact absurd (Finset.mem_Icc.2 ⟨by omega, by omega⟩) h
      · intro i _ hi
        exact Finset.sum_eq_zero fun j _ => by rw [if_neg (fun h => hi h.1.symm), mul_zero]
      · intro h; exact absurd (Finset.mem_Icc.2 ⟨by omega, by omega⟩) h
    rw [hform]
    have hJ0 : ∀ e ∈ Finset.range l.length, 0 < B.J e := by
      intro e he
      have he' := Finset.mem_range.1 he
      obtain ⟨_, hJ, _⟩ := hE e he'
      obtain ⟨_, _, k3⟩ := (hm _).1 (List.getElem_mem he')
      rw [hJ]; linarith
    have hW0 : ∀ g ∈ Finset.range Q, 0 < B.W g := by
      intro g hg
      have hg' : g < (legW Q).length := by rw [t2]; exact Finset.mem_range.1 hg
      have := t5 _ (List.getElem_mem hg')
      rw [hW, List.getD_eq_getElem _ _ hg']
      exact_mod_cast this
    have hnn : ∀ e ∈ Finset.range l.length, 0 ≤ ∑ g ∈ Finset.range Q, B.J e * B.W g *
        (∑ a ∈ Finset.range (p + 1), c (B.O e + a) * B.N e g a 0) ^ 2 := fun e he => Finset.sum_nonneg fun g hg =>
      mul_nonneg (mul_nonneg (hJ0 e he).le (hW0 g hg).le) (sq_nonneg _)
    refine lt_of_le_of_ne (Finset.sum_nonneg hnn) fun h0 => ?_
    have hz := (Finset.sum_eq_zero_iff_of_nonneg hnn).1 h0.symm
    -- the spline vanishes at all points
    have hz' : ∀ e ∈ Finset.range l.length, ∀ g ∈ Finset.range Q,
        ∑ a ∈ Finset.range (p + 1), c (B.O e + a) * B.N e g a 0 = 0 := by
      intro e he g hg
      have := (Finset.sum_eq_zero_iff_of_nonneg (fun g hg =>
        mul_nonneg (mul_nonneg (hJ0 e he).le (hW0 g hg).le) (sq_nonneg _))).1 (hz e he) g hg
      rcases mul_eq_zero.1 this with h | h
      · exact absurd h (mul_pos (hJ0 e he) (hW0 g hg)).ne'
      · exact pow_eq_zero_iff (two_ne_zero) |>.1 h
    have hpoly : ∀ k, (p : ℤ) ≤ k → k ≤ n → U k < U (k + 1) → spanPoly p U k c = 0 := by
      intro k k1 k2 k3
      obtain ⟨e, he, rfl⟩ := List.getElem_of_mem ((hm k).2 ⟨k1, k2, k3⟩)
      obtain ⟨hO, hJ, hX, hN⟩ := hE e he
      generalize l[e] = k at *
      have hdeg : (spanPoly p U k c).natDegree ≤ p := by
        unfold spanPoly
        refine natDegree_sum_le_of_forall_le _ _ fun r _ => ?_
        exact (natDegree_C_mul_le _ _).trans (natDegree_pieceP U k p _)
      have hinj : Set.InjOn (fun g : ℕ => B.X e g) (Finset.range Q) := by
        intro g hg g' hg' h
        rw [Finset.mem_coe, Finset.mem_range] at hg hg'
        have b1 : g < (legX Q).length := by omega
        have b2 : g' < (legX Q).length := by omega
        dsimp only at h
        rw [hX, hX, List.getD_eq_getElem _ _ b1, List.getD_eq_getElem _ _ b2] at h
        have hJe := hJ0 e (Finset.mem_range.2 he)
        have h' : (((legX Q)[g] : ℚ) : K) = (((legX Q)[g'] : ℚ) : K) := by
          have := mul_right_cancel₀ hJe.ne' (add_right_cancel h)
          linarith
        have h'' : (legX Q)[g] = (legX Q)[g'] := by exact_mod_cast h'
        rcases lt_trichotomy g g' with hlt | heq | hlt
        · exact absurd h'' (List.pairwise_iff_getElem.1 t3 _ _ b1 b2 hlt).ne
        · exact heq
        · exact absurd h'' (List.pairwise_iff_getElem.1 t3 _ _ b2 b1 hlt).ne'
      refine eq_zero_of_natDegree_lt_card_of_eval_eq_zero' _ ((Finset.range Q).image fun g : ℕ => B.X e g) ?_ ?_
      · intro x hx
        obtain ⟨g, hg, rfl⟩ := Finset.mem_image.1 hx
        rw [← hz' e (Finset.mem_range.2 he) g hg]
        unfold spanPoly
        rw [eval_finsetSum]
        refine Finset.sum_congr rfl fun a ha => ?_
        have := hN g a 0 (by have := Finset.mem_range.1 ha; omega) (by omega)
        rw [Function.iterate_zero, id, show ((0 : ℕ) : ℤ) = 0 from rfl] at this
        rw [eval_mul, eval_C, this, hO]
      · rw [Finset.card_image_of_injOn hinj, Finset.card_range]
        omega
    obtain ⟨i, i1, i2, hi⟩ := hc
    obtain ⟨k, k1, k2, k3, k4, k5⟩ := active_of_mult hv hmult i i1 i2
    refine hi (curve_eq_zero hv.sorted (fun u u1 u2 => ?_) k1 k2 k5 (by omega) k3)
    have hk' := SpanOf.of_findSpan hv u1 u2
    rw [spanPoly_eval hk' hv.sorted, hpoly _ hk'.lo hk'.hi hk'.ne, eval_zero]

/-- the knots 0 0 0 1 2 2 3 3 3 as real numbers -/
noncomputable def Ex.Ur (j : ℤ) : ℝ := ((Ex.U j : ℚ) : ℝ)

theorem Ex.Ur_valid : ValidKnots 5 2 Ex.Ur :=
  ⟨Ex.U_valid.one_le, Ex.U_valid.le, fun i j h1 h2 h3 => Rat.cast_le.2 (Ex.U_valid.sorted i j h1 h2 h3),
    Rat.cast_lt.2 Ex.U_valid.first, Rat.cast_lt.2 Ex.U_valid.last⟩

theorem Ex.Ur_long (k : ℤ) (h1 : ((2 : ℕ) : ℤ) ≤ k) (h2 : k ≤ 5) (h : Ex.Ur k < Ex.Ur (k + 1)) : 1 ≤ Ex.Ur (k + 1) - Ex.Ur k := by
  unfold Ex.Ur at *
  have h' := Rat.cast_lt.1 h
  have : (1 : ℚ) ≤ Ex.U (k + 1) - Ex.U k := by
    have : (k = 2 ∨ k = 3 ∨ k = 4 ∨ k = 5) := by omega
    rcases this with rfl | rfl | rfl | rfl <;> revert h' <;> decide +kernel
  exact_mod_cast this

/-- the stiffness and mass matrices of the knots 0 0 0 1 2 2 3 3 3, degree 2, three points per element -/
example (jo : ℤ → ℤ) (jk : ℤ → ℝ) (j2 ja jd : ℤ → ℤ → ℝ) :
    ∃ B : QuadData ℝ, BasisData (1 / 10 ^ 16) jo jk j2 ja jd (2 : ℕ) (5 + (2 : ℕ) + 1) Ex.Ur (some 1) none = .ok B ∧
      |assembled B 3 2 1 1 2 3 - ∫ x in (Ex.Ur 2)..(Ex.Ur 6),
        iteratedDeriv 1 (bsplineD 5 Ex.Ur 2 2) x * iteratedDeriv 1 (bsplineD 5 Ex.Ur 2 3) x| ≤ 1152 / 10 ^ 36 := by
  obtain ⟨B, h, h'⟩ := C68_matrix (eps := 1 / 10 ^ 16) (by norm_num) jo jk j2 ja jd Ex.Ur_valid
    (fun k h1 h2 h => lt_of_lt_of_le (by norm_num) (Ex.Ur_long k h1 h2 h)) (d := some 1) (q := none) (D := 1) (Q := 3) rfl
    (by norm_num) rfl (by norm_num) (by norm_num) one_pos Ex.Ur_long
  refine ⟨B, h, (h' 2 3 1 1 (by norm_num) (by norm_num) (by norm_num) (by norm_num) le_rfl le_rfl (by norm_num)).trans ?_⟩
  have e1 : Ex.Ur (5 + 1) = 3 := by unfold Ex.Ur; rw [show Ex.U (5 + 1) = 3 by decide +kernel]; norm_num
  have e2 : Ex.Ur ((2 : ℕ) : ℤ) = 0 := by unfold Ex.Ur; rw [show Ex.U ((2 : ℕ) : ℤ) = 0 by decide +kernel]; norm_num
  rw [e1, e2]
  norm_num

/-- the load vector of the function 1 -/
example (jo : ℤ → ℤ) (jk : ℤ → ℝ) (j2 ja jd : ℤ → ℤ → ℝ) :
    ∃ B : QuadData ℝ, BasisData (1 / 10 ^ 16) jo jk j2 ja jd (2 : ℕ) (5 + (2 : ℕ) + 1) Ex.Ur (some 1) none = .ok B ∧
      |assembledLoad B 3 2 (fun _ => 1) 4 - ∫ x in (Ex.Ur 2)..(Ex.Ur 6), bsplineD 5 Ex.Ur 2 4 x * 1| ≤ 18 / 10 ^ 36 := by
  obtain ⟨B, h, h'⟩ := C68_load (eps := 1 / 10 ^ 16) (by norm_num) jo jk j2 ja jd Ex.Ur_valid
    (fun k h1 h2 h => lt_of_lt_of_le (by norm_num) (Ex.Ur_long k h1 h2 h)) (d := some 1) (q := none) (D := 1) (Q := 3) rfl
    (by norm_num) rfl (by norm_num) (by norm_num)
  refine ⟨B, h, (h' (fun _ => 1) 1 4 (by norm_num) (by norm_num) fun k _ _ _ => ⟨1, by simp, ?_, by simp⟩).trans ?_⟩
  · rw [← l1n_eq (by simp), l1n_one]
  · have e1 : Ex.Ur (5 + 1) = 3 := by unfold Ex.Ur; rw [show Ex.U (5 + 1) = 3 by decide +kernel]; norm_num
    have e2 : Ex.Ur ((2 : ℕ) : ℤ) = 0 := by unfold Ex.Ur; rw [show Ex.U ((2 : ℕ) : ℤ) = 0 by decide +kernel]; norm_num
    rw [e1, e2]
    norm_num

/-- the mass matrix of the same knots is positive definite -/
example (jo : ℤ → ℤ) (jk : ℤ → ℚ) (j2 ja jd : ℤ → ℤ → ℚ) :
    ∃ B : QuadData ℚ, BasisData (1 / 10 ^ 16) jo jk j2 ja jd (2 : ℕ) (5 + (2 : ℕ) + 1) Ex.U none none = .ok B ∧
      0 < ∑ i ∈ Finset.Icc (0 : ℤ) 5, ∑ j ∈ Finset.Icc (0 : ℤ) 5,
        (if i = 3 then (1 : ℚ) else 0) * (if j = 3 then 1 else 0) * assembled B 3 2 0 0 i j := by
  obtain ⟨B, h, _, _, h'⟩ := C68_mass (eps := 1 / 10 ^ 16) (by norm_num) jo jk j2 ja jd Ex.U_valid
    (fun k h1 h2 _ => by
      have : (k = 2 ∨ k = 3 ∨ k = 4 ∨ k = 5) := by omega
      rcases this with rfl | rfl | rfl | rfl <;> revert ‹_ < _› <;> decide +kernel)
    (d := none) (q := none) (D := 2) (Q := 3) rfl le_rfl rfl (by norm_num) (by norm_num)
  refine ⟨B, h, h' (by norm_num) (fun x x1 x2 => ?_) (fun i => if i = 3 then 1 else 0) ⟨3, by norm_num, by norm_num, by simp⟩⟩
  have hsub : (Finset.Icc (0 : ℤ) (5 + (2 : ℕ) + 1)).filter (fun j => Ex.U j = x) ⊆ Finset.Icc 3 5 := by
    intro j hj
    rw [Finset.mem_filter, Finset.mem_Icc] at hj
    obtain ⟨⟨j1, j2⟩, rfl⟩ := hj
    push_cast at j2
    norm_num at j2
    interval_cases j <;> first | decide | (exfalso; revert x1; decide +kernel) | (exfalso; revert x2; decide +kernel)
  have := Finset.card_le_card hsub
  rw [Int.card_Icc] at this
  unfold mult
  exact this

end Igakit
