import Verif.Props.Gauss
import Verif.Props.Ders
import Verif.Props.Spans
import Verif.Proofs.Hull
import Mathlib.Data.List.GetD

/-!
# Property C31: quadrature data per element
-/

set_option linter.unusedSectionVars false

namespace Igakit
open Spec

variable {K : Type} [Field K] [LinearOrder K] [IsStrictOrderedRing K]

theorem sum_getD (l : List ℚ) : ∑ g ∈ Finset.range l.length, ((l.getD g 0 : ℚ) : K) = ((l.sum : ℚ) : K) := by
  induction l with
  | nil => simp
  | cons a l ih =>
    rw [List.length_cons, Finset.sum_range_succ']
    simp only [List.getD_cons_succ, List.getD_cons_zero, List.sum_cons]
    rw [ih]
    push_cast
    ring

theorem zipWith_pow_zero : ∀ (X W : List ℚ), X.length = W.length →
    (List.zipWith (fun x w => w * x ^ 0) X W).sum = W.sum := by
  intro X
  induction X with
  | nil => intro W h; rw [List.length_eq_zero_iff.mp h.symm]; rfl
  | cons x X ih =>
    intro W h
    cases W with
    | nil => simp at h
    | cons w W =>
      simp only [List.zipWith_cons_cons, List.sum_cons, pow_zero, mul_one]
      have := ih W (by simpa using h)
      simp only [pow_zero, mul_one] at this
      rw [this]

theorem basisDataO_eq {eps : K} (heps : 0 ≤ eps) {n p : ℤ} {U : ℤ → K} (hp : p ≤ n) (jo : ℤ → ℤ)
    (hsep : ∀ k, p ≤ k → k ≤ n → U k ≠ U (k + 1) → eps < |U k - U (k + 1)|) :
    ∀ (e : ℕ) (he : e < (spanList U p (n + 1)).length),
      (basisDataO eps p (n + p + 1) U jo).2 (1 + e) = (spanList U p (n + 1))[e] - p := by
  have key := forUp_inv (lo := p) (hi := n) (s := ((1, jo) : ℤ × (ℤ → ℤ)))
    (f := fun i s => if |U i - U (i + 1)| > eps then (s.1 + 1, upd s.2 s.1 (i - p)) else s)
    (I := fun i st => st.1 = (1 + (spanList U p i).length : ℤ) ∧
      ∀ (e : ℕ) (he : e < (spanList U p i).length), st.2 (1 + e) = (spanList U p i)[e] - p)
    (by omega) (by simp [spanList]) (by
      rintro i st h1 h2 ⟨hs, hI⟩
      simp only [spanList_succ h1]
      by_cases hne : U i = U (i + 1)
      · have e : (if U i ≠ U (i + 1) then [i] else []) = [] := if_neg (by simpa using hne)
        have : ¬ |U i - U (i + 1)| > eps := by rw [hne, sub_self, abs_zero]; exact not_lt.mpr heps
        rw [if_neg this]
        simp only [e, List.append_nil]
        exact ⟨hs, hI⟩
      · have e : (if U i ≠ U (i + 1) then [i] else []) = [i] := if_pos hne
        rw [if_pos (hsep i h1 h2 hne)]
        simp only [e]
        refine ⟨by simp [hs]; ring, fun j hj => ?_⟩
        rw [List.length_append, List.length_singleton] at hj
        by_cases hlt : j < (spanList U p i).length
        · rw [upd_ne _ _ (by omega), List.getElem_append_left hlt]
          exact hI j hlt
        · have ej : j = (spanList U p i).length := by omega
          rw [upd_eq _ _ (by omega)]
          simp [ej])
  unfold basisDataO
  rw [show n + p + 1 - (p + 1) = n by ring]
  exact key.2

/-- C31: on a knot vector whose nonempty spans are longer than `eps`, the elements of `iga.BasisData` are
the nonempty spans in increasing order.  For element `e` with span `k` and quadrature point `g`: the offset
is `k - p`, the Jacobian half the length of the span, the points lie inside the span in increasing order,
the weights times the Jacobian add up to the length of the span (up to `3e-36` times the Jacobian), entry `a, l` of
the basis data is the `l`-th derivative of the B-spline number `O e + a`, the values add up to one and
all other B-splines vanish on the span. -/
theorem C31_BasisData {eps : K} (heps : 0 ≤ eps) (jo : ℤ → ℤ) (jk : ℤ → K) (j2 ja jd : ℤ → ℤ → K)
    {n : ℤ} {p : ℕ} {U : ℤ → K} (hv : ValidKnots n p U)
    (hsep : ∀ k, (p : ℤ) ≤ k → k ≤ n → U k < U (k + 1) → eps < U (k + 1) - U k)
    {d : Option ℤ} {q : Option ℤ} {D : ℕ} {Q : ℤ} (hd : d.getD p = D) (hDp : D ≤ p)
    (hq : q.getD (p + 1) = Q) (hq1 : 1 ≤ Q) (hq2 : Q ≤ 10) :
    ∃ (l : List ℤ) (B : QuadData K), BasisData eps jo jk j2 ja jd p (n + p + 1) U d q = .ok B ∧
      l.Pairwise (· < ·) ∧ (∀ k, k ∈ l ↔ (p : ℤ) ≤ k ∧ k ≤ n ∧ U k < U (k + 1)) ∧ B.r = l.length ∧
      (∀ g, 0 ≤ g → g < Q → 0 < B.W g) ∧
      ∀ (e : ℕ) (he : e < l.length), B.O e = l[e] - p ∧ B.J e = (U (l[e] + 1) - U l[e]) / 2 ∧ 0 < B.J e ∧
        |(∑ g ∈ Finset.range Q.toNat, B.W g * B.J e) - (U (l[e] + 1) - U l[e])| ≤ 3 / 10 ^ 36 * B.J e ∧
        (∀ g, 0 ≤ g → g < Q → U l[e] < B.X e g ∧ B.X e g < U (l[e] + 1) ∧
          (∀ g', g < g' → g' < Q → B.X e g < B.X e g') ∧
          (∀ a : ℕ, a ≤ p → ∀ l' : ℕ, l' ≤ D →
            PolyDeriv (bsplineD n U p (B.O e + a)) (U l[e]) (U (l[e] + 1)) l' (B.X e g) (B.N e g a l')) ∧
          (∀ a : ℕ, a ≤ p → B.N e g a 0 = bsplineD n U p (B.O e + a) (B.X e g)) ∧
          ∑ a ∈ Finset.range (p + 1), B.N e g a 0 = 1) ∧
        (∀ i, 0 ≤ i → i ≤ n → i < B.O e ∨ B.O e + p < i → ∀ x, U l[e] ≤ x → x < U (l[e] + 1) →
          bsplineD n U p i x = 0) := by
  have h1 := hv.one_le
  have h2 := hv.le
  obtain ⟨qn, rfl⟩ : ∃ qn : ℕ, Q = qn := ⟨Q.toNat, by omega⟩
  obtain ⟨t1, t2, t3, t4, t5, t6, t7, t8⟩ := leg_table qn (List.mem_range'_1.mpr ⟨by omega, by omega⟩)
  have hlt : ∀ k, (p : ℤ) ≤ k → k ≤ n → (U k ≠ U (k + 1) ↔ U k < U (k + 1)) := by
    intro k a b
    exact ⟨fun h => lt_of_le_of_ne (hv.sorted k (k + 1) (by omega) (by omega) (by omega)) h, ne_of_lt⟩
  have hO := basisDataO_eq heps h2 jo (fun k a b c => by
    have h := (hlt k a b).mp c
    rw [abs_sub_comm, abs_of_pos (by linarith)]
    exact hsep k a b h)
  have hm : ∀ k, k ∈ spanList U p (n + 1) ↔ (p : ℤ) ≤ k ∧ k ≤ n ∧ U k < U (k + 1) := by
    intro k
    rw [mem_spanList]
    constructor
    · rintro ⟨a, b, c⟩; exact ⟨a, by omega, (hlt k a (by omega)).mp c⟩
    · rintro ⟨a, b, c⟩; exact ⟨a, by omega, c.ne⟩
  obtain ⟨B, hB, hr, hBO, hBJ, hBW, hBX, hBN⟩ : ∃ B : QuadData K,
      BasisData eps jo jk j2 ja jd p (n + p + 1) U d q = .ok B ∧ B.r = countSpans n p U ∧
      (∀ e, B.O e = (basisDataO eps p (n + p + 1) U jo).2 (e + 1)) ∧
      (∀ e, B.J e = (U (B.O e + p + 1) - U (B.O e + p)) / 2) ∧
      (∀ g : ℤ, B.W g = (((legW qn).getD g.toNat 0 : ℚ) : K)) ∧
      (∀ e g, B.X e g = ((((legX qn).getD g.toNat 0 : ℚ) : K) + 1) * B.J e + U (B.O e + p)) ∧
      ∀ e g a l, B.N e g a l = dersBasisFuns jk j2 ja jd (B.O e + p) (B.X e g) p D U a l := by
    unfold BasisData
    rw [hd, hq]
    dsimp only
    rw [if_pos ⟨by omega, by omega, by omega, by omega⟩]
    refine ⟨_, rfl, by dsimp only; congr 1; ring, fun e => rfl, fun e => rfl, fun g => ?_, fun e g => ?_,
      fun e g a l => rfl⟩
    · simp
    · simp
  refine ⟨spanList U p (n + 1), B, hB, spanList_pairwise U p (n + 1), hm, ?_, ?_, ?_⟩
  · rw [hr, C32_countSpans, if_neg (fun h => hv.last.ne h.2), spanList_length]
    simp
  · intro g g1 g2
    rw [hBW]
    have hg : g.toNat < (legW qn).length := by omega
    have := t5 _ (List.getElem_mem hg)
    rw [List.getD_eq_getElem _ _ hg]
    exact_mod_cast this
  · intro e he
    have hk := (hm _).mp (List.getElem_mem he)
    have hOe : B.O e = (spanList U p (n + 1))[e] - p := by
      rw [hBO, add_comm (e : ℤ) 1]; exact hO e he
    generalize (spanList U p (n + 1))[e] = k at *
    obtain ⟨k1, k2, k3⟩ := hk
    have hOk : B.O e + p = k := by omega
    have hJ : B.J e = (U (k + 1) - U k) / 2 := by rw [hBJ, hOk]
    have hJ0 : 0 < B.J e := by rw [hJ]; linarith
    have hin : ∀ g, 0 ≤ g → g < (qn : ℤ) → U k < B.X e g ∧ B.X e g < U (k + 1) := by
      intro g g1 g2
      have hg : g.toNat < (legX qn).length := by omega
      obtain ⟨x1, x2⟩ := t4 _ (List.getElem_mem hg)
      have x1' : (-1 : K) < (((legX qn)[g.toNat] : ℚ) : K) := by exact_mod_cast x1
      have x2' : (((legX qn)[g.toNat] : ℚ) : K) < 1 := by exact_mod_cast x2
      rw [hBX, hOk, List.getD_eq_getElem _ _ hg]
      have e2 : U (k + 1) = 2 * B.J e + U k := by rw [hJ]; ring
      constructor
      · nlinarith
      · rw [e2]; nlinarith
    have hval : ∀ g (a : ℕ), a ≤ p → B.N e g a 0 = piece U k p (k - p + a) (B.X e g) := by
      intro g a ha
      have := dersBasisFuns_spec jk j2 ja jd k (B.X e g) p D U
        (Win.of_sorted hv.sorted k3 (by omega) (by omega)) a (by omega) (by omega) 0 (by omega)
      rw [hBN, hOk]
      rw [Function.iterate_zero, id, eval_pieceP] at this
      exact this
    refine ⟨hOe, hJ, hJ0, ?_, ?_, ?_⟩
    · have hsum : ∑ g ∈ Finset.range qn, B.W g = (((legW qn).sum : ℚ) : K) := by
        rw [← sum_getD, t2]
        exact Finset.sum_congr rfl fun g _ => by rw [hBW, Int.toNat_natCast]
      have h0 := t8 0 (List.mem_range.mpr (by omega))
      unfold momErr at h0
      rw [zipWith_pow_zero _ _ (t1.trans t2.symm)] at h0
      have h0' : |(legW qn).sum - 2| ≤ 3 / 10 ^ 36 := by simpa using h0
      have h0'' : |(((legW qn).sum : ℚ) : K) - 2| ≤ 3 / 10 ^ 36 := by
        generalize (legW qn).sum = z at h0'
        have := (Rat.cast_le (K := K)).mpr h0'
        push_cast at this
        exact this
      rw [Int.toNat_natCast, ← Finset.sum_mul, hsum,
        show U (k + 1) - U k = 2 * B.J e by rw [hJ]; ring, ← sub_mul, abs_mul, abs_of_pos hJ0]
      exact mul_le_mul_of_nonneg_right h0'' hJ0.le
    · intro g g1 g2
      refine ⟨(hin g g1 g2).1, (hin g g1 g2).2, ?_, ?_, ?_, ?_⟩
      · intro g' g3 g4
        have hg : g.toNat < (legX qn).length := by omega
        have hg' : g'.toNat < (legX qn).length := by omega
        have hlt : (legX qn)[g.toNat] < (legX qn)[g'.toNat] :=
          List.pairwise_iff_getElem.mp t3 _ _ hg hg' (by omega)
        have hlt' : (((legX qn)[g.toNat] : ℚ) : K) < (((legX qn)[g'.toNat] : ℚ) : K) := by exact_mod_cast hlt
        rw [hBX, hBX, List.getD_eq_getElem _ _ hg, List.getD_eq_getElem _ _ hg']
        nlinarith
      · intro a ha l' hl'
        rw [hBN, hOe, show k - (p : ℤ) + p = k by ring]
        exact dersBasisFuns_polyDeriv jk j2 ja jd hv.sorted k1 k2 k3 _ D l' hl' a (by omega) (by omega)
      · intro a ha
        rw [hval g a ha, hOe, bsplineD_on_span hv.sorted k1 k2 (by omega) (by omega) _ (hin g g1 g2).1.le
          (hin g g1 g2).2, eval_pieceP]
      · rw [← piece_sum_one (Win.of_sorted hv.sorted k3 (by omega) (by omega) : Win U k p) (B.X e g)]
        exact Finset.sum_congr rfl fun a ha => hval g a (by have := Finset.mem_range.mp ha; omega)
    · intro i i1 i2 c x y1 y2
      rw [bsplineD_on_span hv.sorted k1 k2 i1 i2 x y1 y2]
      rcases c with c | c
      · rw [pieceP_zero_of_lt _ _ _ _ (by omega), Polynomial.eval_zero]
      · rw [pieceP_zero_of_gt _ _ _ _ (by omega), Polynomial.eval_zero]

/-- C31: what `iga.BasisData` rejects -/
theorem C31_rejects (eps : K) (jo : ℤ → ℤ) (jk : ℤ → K) (j2 ja jd : ℤ → ℤ → K) (p m : ℤ) (U : ℤ → K)
    (d q : Option ℤ) (h : p < 1 ∨ m < 2 * p + 1 ∨ d.getD p < 0 ∨ p < d.getD p ∨ q.getD (p + 1) < 1 ∨
      10 < q.getD (p + 1)) : BasisData eps jo jk j2 ja jd p m U d q = .error .f2py := by
  unfold BasisData
  dsimp only
  rw [if_neg (by omega)]

/-- C31: in particular the default number of points is rejected from degree 10 on -/
theorem C31_default_rejected (eps : K) (jo : ℤ → ℤ) (jk : ℤ → K) (j2 ja jd : ℤ → ℤ → K) (p m : ℤ) (U : ℤ → K)
    (d : Option ℤ) (h : 10 ≤ p) : BasisData eps jo jk j2 ja jd p m U d none = .error .f2py :=
  C31_rejects _ _ _ _ _ _ _ _ _ _ _ (Or.inr (Or.inr (Or.inr (Or.inr (Or.inr (by simp; omega))))))

/-- C31: `iga.BasisDataCol` at given points of the domain: the offset is the number of the first B-spline
that does not vanish identically near the point, the entries the derivatives of the B-splines `O e + a`. -/
theorem C31_BasisDataCol (jk : ℤ → K) (j2 ja jd : ℤ → ℤ → K) {n : ℤ} {p : ℕ} {U : ℤ → K}
    (hv : ValidKnots n p U) {r : ℤ} (hr : 1 ≤ r) {X : ℤ → K}
    (hX : ∀ e, 0 ≤ e → e < r → U p ≤ X e ∧ X e ≤ U (n + 1))
    {d : Option ℤ} {D : ℕ} (hd : d.getD p = D) (hDp : D ≤ p) :
    ∃ (O : ℤ → ℤ) (B : ℤ → ℤ → ℤ → K), BasisDataCol jk j2 ja jd p (n + p + 1) U r X d = .ok (O, B) ∧
      ∀ e, 0 ≤ e → e < r → 0 ≤ O e ∧ O e ≤ n - p ∧ InSpan U (O e + p) (X e) ∧
        (∀ a : ℕ, a ≤ p → ∀ l : ℕ, l ≤ D →
          PolyDeriv (bsplineD n U p (O e + a)) (U (O e + p)) (U (O e + p + 1)) l (X e) (B e a l)) ∧
        (∀ a : ℕ, a ≤ p → B e a 0 = bsplineD n U p (O e + a) (X e)) ∧
        ∑ a ∈ Finset.range (p + 1), B e a 0 = 1 ∧
        (∀ i, 0 ≤ i → i ≤ n → i < O e ∨ O e + p < i → bsplineD n U p i (X e) = 0) := by
  have h1 := hv.one_le
  have h2 := hv.le
  refine ⟨fun e => findSpan n p (X e) U - p,
    fun e a l => dersBasisFuns jk j2 ja jd (findSpan n p (X e) U) (X e) p D U a l, ?_, ?_⟩
  · unfold BasisDataCol
    rw [hd]
    dsimp only
    rw [if_pos ⟨by omega, by omega, by omega, by omega, by omega⟩, show n + (p : ℤ) + 1 - (p + 1) = n by ring]
  · intro e e1 e2
    have hsp := SpanOf.of_findSpan hv (hX e e1 e2).1 (hX e e1 e2).2
    dsimp only
    generalize findSpan n p (X e) U = k at *
    have k1 := hsp.lo
    have k2 := hsp.hi
    rw [show k - (p : ℤ) + p = k by ring]
    have hval : ∀ (a : ℕ), a ≤ p → dersBasisFuns jk j2 ja jd k (X e) p D U a 0 =
        piece U k p (k - p + a) (X e) := by
      intro a ha
      have := dersBasisFuns_spec jk j2 ja jd k (X e) p D U (hsp.win hv.sorted) a (by omega) (by omega) 0
        (by omega)
      rw [Function.iterate_zero, id, eval_pieceP] at this
      exact this
    refine ⟨by omega, by omega, ⟨hsp.left, hsp.right, hsp.ne⟩, ?_, ?_, ?_, ?_⟩
    · intro a ha l hl
      exact dersBasisFuns_polyDeriv jk j2 ja jd hv.sorted k1 k2 hsp.ne _ D l hl a (by omega) (by omega)
    · intro a ha
      rw [hval a ha, hsp.basis hv.sorted (by omega) (by omega)]
    · rw [← piece_sum_one (hsp.win hv.sorted) (X e)]
      exact Finset.sum_congr rfl fun a ha => hval a (by have := Finset.mem_range.mp ha; omega)
    · intro i i1 i2 c
      rw [hsp.basis hv.sorted i1 i2, ← eval_pieceP]
      rcases c with c | c
      · rw [pieceP_zero_of_lt _ _ _ _ (by omega), Polynomial.eval_zero]
      · rw [pieceP_zero_of_gt _ _ _ _ (by omega), Polynomial.eval_zero]

/-- the knot vector 0 0 0 1 1 2 3 3 3 … of `Ex.U` with every nonempty span of length at least 1/10^6 -/
example (jo : ℤ → ℤ) (jk : ℤ → ℚ) (j2 ja jd : ℤ → ℤ → ℚ) :=
  C31_BasisData (eps := 1 / 10 ^ 16) (by norm_num) jo jk j2 ja jd Ex.U_valid
    (fun k h1 h2 _ => by
      have : (k = 2 ∨ k = 3 ∨ k = 4 ∨ k = 5) := by omega
      rcases this with rfl | rfl | rfl | rfl <;> revert ‹_ < _› <;> decide +kernel)
    (d := some 1) (q := none) (D := 1) (Q := 3) rfl (by norm_num) rfl (by norm_num) (by norm_num)

end Igakit
