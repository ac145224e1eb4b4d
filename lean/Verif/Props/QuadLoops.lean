import Verif.Proofs.QuadLoops
import Verif.Props.BoundsEx

set_option linter.unusedSectionVars false

/-!
# C79: `iga.BasisData` and `iga.BasisDataCol` stay inside their arrays and fill them

The loops with their arrays compute what the model without bounds computes, whatever the memory held before; the array
`basis` is used again for every point.  If a nonempty span is not longer than the machine epsilon, `BasisData` uses an
element of `O` that was never assigned.
-/

namespace Igakit
open Spec

variable {K : Type} [Field K] [LinearOrder K] [IsStrictOrderedRing K]

/-- the derivatives of the basis functions of a nonempty span do not depend on the memory before -/
theorem dersBasisFuns_fresh {n i : ℤ} {p D : ℕ} {U : ℤ → K} (hv : ValidKnots n p U) (h1 : (p : ℤ) ≤ i) (h2 : i ≤ n)
    (h3 : U i < U (i + 1)) (jk jk' : ℤ → K) (j2 j2' ja ja' jd jd' : ℤ → ℤ → K) (u : K) {a l : ℤ} (a1 : 0 ≤ a) (a2 : a ≤ p) (l1 : 0 ≤ l)
    (l2 : l ≤ D) : dersBasisFuns jk j2 ja jd i u p D U a l = dersBasisFuns jk' j2' ja' jd' i u p D U a l := by
  obtain ⟨l, rfl⟩ := Int.eq_ofNat_of_zero_le l1
  have hw : Win U i p := Win.of_sorted hv.sorted h3 (by omega) (by omega)
  have e1 := dersBasisFuns_spec jk j2 ja jd i u p D U hw a a1 a2 l (by exact_mod_cast l2)
  have e2 := dersBasisFuns_spec jk' j2' ja' jd' i u p D U hw a a1 a2 l (by exact_mod_cast l2)
  exact e1.trans e2.symm

/-- the arrays of `BasisData` hold the data `B` of `r` elements with `q` points each and `d` derivatives of `p + 1` functions -/
structure Spec.QuadStored (p d q : ℤ) (A : QuadArr K) (B : QuadData K) : Prop where
  O : ∀ e, 0 ≤ e → e < B.r → A.O.get (e + 1) = .ok (B.O e)
  J : ∀ e, 0 ≤ e → e < B.r → A.J.get (e + 1) = .ok (B.J e)
  W : ∀ g, 0 ≤ g → g < q → A.W.get (g + 1) = .ok (B.W g)
  X : ∀ e g, 0 ≤ e → e < B.r → 0 ≤ g → g < q → A.X.get (g + 1) (e + 1) = .ok (B.X e g)
  N : ∀ e g, 0 ≤ e → e < B.r → 0 ≤ g → g < q → ∃ M, A.N.get (g + 1) (e + 1) = .ok M ∧
    ∀ a l, 0 ≤ a → a ≤ p → 0 ≤ l → l ≤ d → M.get l a = .ok (B.N e g a l)

/-- `BasisData` on a valid knot vector whose nonempty spans are longer than `eps` -/
theorem C79_BasisData {eps : K} (heps : 0 ≤ eps) (jo : ℤ → ℤ) (jk jk' : ℤ → K) (j2 j2' ja ja' jd : ℤ → ℤ → K) (s : QuadArr K) {n : ℤ}
    {p : ℕ} {U : ℤ → K} (hv : ValidKnots n p U) (hsep : ∀ k, (p : ℤ) ≤ k → k ≤ n → U k < U (k + 1) → eps < U (k + 1) - U k)
    (d q : Option ℤ) :
    (BasisData eps jo jk j2 ja jd p (n + p + 1) U d q = .error .f2py ∧
      BasisDataC eps jk' j2' ja' s p (n + p + 1) U d q = .error (.exc .f2py)) ∨
    ∃ A B, BasisData eps jo jk j2 ja jd p (n + p + 1) U d q = .ok B ∧ BasisDataC eps jk' j2' ja' s p (n + p + 1) U d q = .ok A ∧
      QuadStored p (d.getD p) (q.getD (p + 1)) A B := by
  have h1 := hv.one_le
  have h2 := hv.le
  unfold BasisDataC BasisData
  dsimp only
  generalize d.getD p = d
  generalize q.getD (p + 1) = q
  by_cases hc : ((p : ℤ) ≥ 1 ∧ n + p + 1 ≥ 2 * p + 1 ∧ (d ≥ 0 ∧ d ≤ p) ∧ (q ≥ 1 ∧ q ≤ 10))
  swap
  · rw [if_neg hc, if_neg hc]
    exact Or.inl ⟨rfl, rfl⟩
  rw [if_pos hc, if_pos hc]
  right
  obtain ⟨-, -, ⟨d0, d1⟩, q1, q2⟩ := hc
  obtain ⟨D, rfl⟩ := Int.eq_ofNat_of_zero_le d0
  obtain ⟨t1, t2, -⟩ := leg_table q.toNat (List.mem_range'_1.mpr ⟨by omega, by omega⟩)
  have hlt : ∀ k, (p : ℤ) ≤ k → k ≤ n → (U k ≠ U (k + 1) ↔ U k < U (k + 1)) := by
    intro k a b
    exact ⟨fun h => lt_of_le_of_ne (hv.sorted k (k + 1) (by omega) (by omega) (by omega)) h, ne_of_lt⟩
  have hO := fun jo => basisDataO_eq heps h2 jo (fun k a b c => by
    have h := (hlt k a b).mp c
    rw [abs_sub_comm, abs_of_pos (by linarith)]
    exact hsep k a b h)
  have hr : countSpans n p U = (spanList U p (n + 1)).length := by
    rw [C32_countSpans, if_neg (fun h => hv.last.ne h.2), spanList_length]; simp
  rw [show n + (p : ℤ) + 1 - p - 1 = n by ring, countSpansC_ok (by omega) (by omega), ok_bind,
    basisDataOC_ok heps (by omega) rfl h2 U _ (by rw [hr]), ok_bind]
  have hg : gaussC (K := K) q = .ok (⟨1, q, fun i => (((legX q.toNat).getD (i - 1).toNat 0 : ℚ) : K)⟩,
      ⟨1, q, fun i => (((legW q.toNat).getD (i - 1).toNat 0 : ℚ) : K)⟩) := by
    unfold gaussC
    rw [t1, t2, if_pos (by omega)]
  rw [hg, ok_bind]
  dsimp only
  have key : ∀ ir, 1 ≤ ir → ir ≤ countSpans n p U → ∃ k, (p : ℤ) ≤ k ∧ k ≤ n ∧ U k < U (k + 1) ∧
      ∀ jo, (basisDataO eps p (n + p + 1) U jo).2 ir = k - p := by
    intro ir a b
    have he : (ir - 1).toNat < (spanList U p (n + 1)).length := by omega
    have hm := mem_spanList.mp (List.getElem_mem he)
    refine ⟨_, hm.1, by omega, (hlt _ hm.1 (by omega)).mp hm.2.2, fun jo => ?_⟩
    have := hO jo _ he
    rwa [show 1 + ((ir - 1).toNat : ℤ) = ir by omega] at this
  have keyO : ∀ ir, 1 ≤ ir → ir ≤ countSpans n p U →
      (basisDataO eps p (n + p + 1) U s.O.val).2 ir = (basisDataO eps p (n + p + 1) U jo).2 ir := by
    intro ir a b
    obtain ⟨k, -, -, -, h⟩ := key ir a b
    rw [h, h]
  obtain ⟨A, e1, ⟨e2, e3, e4⟩, e5⟩ := basisDataElemsC_ok (p := p) (m := n + p + 1) (d := D) (q := q) (r := countSpans n p U)
    (by omega) d0 jk' j2' ja' U (fun i => (((legX q.toNat).getD (i - 1).toNat 0 : ℚ) : K))
    (V := fun ir iq a l => dersBasisFuns jk j2 ja jd ((basisDataO eps p (n + p + 1) U jo).2 ir + p)
      (((((legX q.toNat).getD (iq - 1).toNat 0 : ℚ) : K) + 1) * ((U ((basisDataO eps p (n + p + 1) U jo).2 ir + p + 1) -
        U ((basisDataO eps p (n + p + 1) U jo).2 ir + p)) / 2) + U ((basisDataO eps p (n + p + 1) U jo).2 ir + p)) p D U a l)
    (s := ⟨⟨1, countSpans n p U, (basisDataO eps p (n + p + 1) U s.O.val).2⟩, ⟨1, countSpans n p U, s.J.val⟩,
      ⟨1, q, fun i => (((legW q.toNat).getD (i - 1).toNat 0 : ℚ) : K)⟩, ⟨1, q, 1, countSpans n p U, s.X.val⟩,
      ⟨1, q, 1, countSpans n p U, fun i j => ⟨0, D, 0, p, (s.N.val i j).val⟩⟩, ⟨0, p, 0, D, s.basis.val⟩⟩)
    ⟨rfl, rfl, ⟨rfl, rfl, rfl, rfl⟩, ⟨rfl, rfl, rfl, rfl⟩, fun _ _ => ⟨rfl, rfl, rfl, rfl⟩, ⟨rfl, rfl, rfl, rfl⟩⟩ rfl rfl
    (by
      intro ir a b
      obtain ⟨k, k1, k2, -, h⟩ := key ir a b
      dsimp only
      rw [h]
      omega)
    (by
      intro ir a b iq c c' jd' x y x1 x2 y1 y2
      obtain ⟨k, k1, k2, k3, h⟩ := key ir a b
      dsimp only
      rw [h, h, sub_add_cancel]
      exact dersBasisFuns_fresh hv k1 k2 k3 _ _ _ _ _ _ _ _ _ x1 x2 y1 y2)
  rw [e1]
  refine ⟨A, _, rfl, rfl, ⟨?_, ?_, ?_, ?_, ?_⟩⟩
  · intro e a b
    dsimp only at b ⊢
    rw [e3, Arr.get_ok (by omega) (by omega), keyO _ (by omega) (by omega)]
  · intro e a b
    dsimp only at b ⊢
    rw [Arr.get_in (by rw [e2.J1, e2.J2]; omega), (e5 (e + 1) (by omega) (by omega)).1]
    dsimp only
    rw [keyO _ (by omega) (by omega)]
  · intro g a b
    rw [e4, Arr.get_ok (by omega) (by omega)]
  · intro e g a b x y
    dsimp only at b ⊢
    rw [Arr2.get_in (e2.X.inside (by omega) (by omega) (by omega) (by omega)),
      ((e5 (e + 1) (by omega) (by omega)).2 (g + 1) (by omega) (by omega)).1]
    dsimp only
    rw [keyO _ (by omega) (by omega)]
  · intro e g a b x y
    dsimp only at b ⊢
    refine ⟨_, Arr2.get_in (e2.N.inside (by omega) (by omega) (by omega) (by omega)), fun a' l' a1 a2 l1 l2 => ?_⟩
    rw [Arr2.get_in ((e2.NN _ _).inside l1 l2 a1 a2),
      ((e5 (e + 1) (by omega) (by omega)).2 (g + 1) (by omega) (by omega)).2 a' l' a1 a2 l1 l2]

/-- `BasisDataCol` stays inside its arrays for every call -/
theorem C79_BasisDataCol_no_fault (jk : ℤ → K) (j2 ja jd : ℤ → ℤ → K) (jo : ℤ → ℤ) (jn : ℤ → ℤ → ℤ → K) (p m : ℤ) (U : ℤ → K) (r : ℤ)
    (X : ℤ → K) (d : Option ℤ) (f : Fault) : BasisDataColC jk j2 ja jd jo jn p m U r X d ≠ .error (.fault f) := by
  unfold BasisDataColC
  dsimp only
  generalize d.getD p = d
  split
  swap
  · intro h; cases h
  rename_i hc
  obtain ⟨c1, c2, c3, d0, d1⟩ := hc
  obtain ⟨s', h1, -⟩ := forUpC_indep (fun s : Arr ℤ × Arr (Arr2 K) × Arr2 K => (s.1.lo = 1 ∧ s.1.hi = r) ∧
      (s.2.1.lo = 1 ∧ s.2.1.hi = r ∧ ∀ i, (s.2.1.val i).Has 0 d 0 p) ∧ s.2.2.Has 0 p 0 d) (fun _ _ => True) (fun _ _ => True)
    (lo := 1) (hi := r) (f := fun ir (s : Arr ℤ × Arr (Arr2 K) × Arr2 K) => do
      let uu ← (⟨1, r, fun i => X (i - 1)⟩ : Arr K).get ir
      let ii ← findSpanC (m - (p + 1)) p uu ⟨0, m, U⟩
      let basis ← dersBasisFunsC jk j2 ja ii uu p d ⟨0, m, U⟩ s.2.2
      let O ← s.1.set ir (ii - p)
      let B ← s.2.1.get ir
      let B ← transposeC B basis
      let N ← s.2.1.set ir B
      .ok (O, N, basis)) (s := (⟨1, r, jo⟩, ⟨1, r, fun ir => ⟨0, d, 0, p, jn ir⟩⟩, ⟨0, p, 0, d, jd⟩))
    ⟨⟨rfl, rfl⟩, ⟨rfl, rfl, fun _ => ⟨rfl, rfl, rfl, rfl⟩⟩, ⟨rfl, rfl, rfl, rfl⟩⟩ (fun _ _ _ => trivial)
    (by
      rintro ir ⟨O, N, bas⟩ a b ⟨⟨f1, f2⟩, ⟨f3, f4, f5⟩, f6⟩ _
      dsimp only at f1 f2 f3 f4 f5 f6 ⊢
      obtain ⟨s1, s2⟩ := findSpan_range (n := m - (p + 1)) (p := p) (U := U) (X (ir - 1)) (by omega) (by omega)
      rw [Arr.get_ok a b, ok_bind, findSpanC_ok (by omega) (by omega) (by omega), ok_bind, f6.eq,
        dersBasisFunsC_ok (by omega) s1 (by omega) d0, ok_bind, Arr.set_in (by rw [f1, f2]; exact ⟨a, b⟩), ok_bind,
        Arr.get_in (by rw [f3, f4]; exact ⟨a, b⟩), ok_bind, transposeC_ok (f5 ir) ⟨rfl, rfl, rfl, rfl⟩, ok_bind,
        Arr.set_in (by rw [f3, f4]; exact ⟨a, b⟩), ok_bind]
      refine ⟨_, rfl, ⟨⟨f1, f2⟩, ⟨f3, f4, ?_⟩, ⟨rfl, rfl, rfl, rfl⟩⟩, trivial, fun _ _ _ _ => ⟨id, id⟩⟩
      intro i
      dsimp only
      by_cases hi : i = ir
      · rw [hi, upd_same]; exact ⟨rfl, rfl, rfl, rfl⟩
      · rw [upd_ne _ _ hi]; exact f5 i)
  rw [h1]
  intro h
  cases h

/-- `BasisDataCol` on a valid knot vector at points of the domain -/
theorem C79_BasisDataCol (jk jk' : ℤ → K) (j2 j2' ja ja' jd jd' : ℤ → ℤ → K) (jo : ℤ → ℤ) (jn : ℤ → ℤ → ℤ → K) {n : ℤ} {p : ℕ} {U : ℤ → K}
    (hv : ValidKnots n p U) {r : ℤ} {X : ℤ → K} (hX : ∀ e, 0 ≤ e → e < r → U p ≤ X e ∧ X e ≤ U (n + 1)) (d : Option ℤ) :
    (BasisDataCol jk j2 ja jd p (n + p + 1) U r X d = .error .f2py ∧
      BasisDataColC jk' j2' ja' jd' jo jn p (n + p + 1) U r X d = .error (.exc .f2py)) ∨
    ∃ A B, BasisDataCol jk j2 ja jd p (n + p + 1) U r X d = .ok B ∧
      BasisDataColC jk' j2' ja' jd' jo jn p (n + p + 1) U r X d = .ok A ∧ ∀ e, 0 ≤ e → e < r → A.1.get (e + 1) = .ok (B.1 e) ∧
        ∃ M, A.2.get (e + 1) = .ok M ∧ ∀ a l : ℤ, 0 ≤ a → a ≤ p → 0 ≤ l → l ≤ d.getD p → M.get l a = .ok (B.2 e a l) := by
  have h1 := hv.one_le
  have h2 := hv.le
  unfold BasisDataColC BasisDataCol
  dsimp only
  generalize d.getD p = d
  by_cases hc : (p : ℤ) ≥ 1 ∧ n + p + 1 ≥ 2 * p + 1 ∧ r ≥ 1 ∧ (d ≥ 0 ∧ d ≤ p)
  swap
  · rw [if_neg hc, if_neg hc]
    exact Or.inl ⟨rfl, rfl⟩
  rw [if_pos hc, if_pos hc]
  right
  obtain ⟨c1, c2, c3, d0, d1⟩ := hc
  obtain ⟨D, rfl⟩ := Int.eq_ofNat_of_zero_le d0
  rw [show n + (p : ℤ) + 1 - (p + 1) = n by ring]
  obtain ⟨s', z1, ⟨⟨z2, z3⟩, ⟨z4, z5, z6⟩, -⟩, z7⟩ := forUpC_indep
    (fun s : Arr ℤ × Arr (Arr2 K) × Arr2 K => (s.1.lo = 1 ∧ s.1.hi = r) ∧
      (s.2.1.lo = 1 ∧ s.2.1.hi = r ∧ ∀ i, (s.2.1.val i).Has 0 D 0 p) ∧ s.2.2.Has 0 p 0 D) (fun _ _ => True)
    (fun ir s => s.1.val ir = findSpan n p (X (ir - 1)) U - p ∧ ∀ a l, 0 ≤ a → a ≤ (p : ℤ) → 0 ≤ l → l ≤ (D : ℤ) →
      (s.2.1.val ir).val l a = dersBasisFuns jk j2 ja jd (findSpan n p (X (ir - 1)) U) (X (ir - 1)) p D U a l)
    (lo := 1) (hi := r) (f := fun ir (s : Arr ℤ × Arr (Arr2 K) × Arr2 K) => do
      let uu ← (⟨1, r, fun i => X (i - 1)⟩ : Arr K).get ir
      let ii ← findSpanC n p uu ⟨0, n + p + 1, U⟩
      let basis ← dersBasisFunsC jk' j2' ja' ii uu p D ⟨0, n + p + 1, U⟩ s.2.2
      let O ← s.1.set ir (ii - p)
      let B ← s.2.1.get ir
      let B ← transposeC B basis
      let N ← s.2.1.set ir B
      .ok (O, N, basis)) (s := (⟨1, r, jo⟩, ⟨1, r, fun ir => ⟨0, D, 0, p, jn ir⟩⟩, ⟨0, p, 0, D, jd'⟩))
    ⟨⟨rfl, rfl⟩, ⟨rfl, rfl, fun _ => ⟨rfl, rfl, rfl, rfl⟩⟩, ⟨rfl, rfl, rfl, rfl⟩⟩ (fun _ _ _ => trivial)
    (by
      rintro ir ⟨O, N, bas⟩ a b ⟨⟨f1, f2⟩, ⟨f3, f4, f5⟩, f6⟩ _
      dsimp only at f1 f2 f3 f4 f5 f6 ⊢
      obtain ⟨s1, s2⟩ := findSpan_range (n := n) (p := p) (U := U) (X (ir - 1)) (by omega) (by omega)
      rw [Arr.get_ok a b, ok_bind, findSpanC_ok (by omega) (by omega) (by omega), ok_bind, f6.eq,
        dersBasisFunsC_ok (by omega) s1 (by omega) d0, ok_bind, Arr.set_in (by rw [f1, f2]; exact ⟨a, b⟩), ok_bind,
        Arr.get_in (by rw [f3, f4]; exact ⟨a, b⟩), ok_bind, transposeC_ok (f5 ir) ⟨rfl, rfl, rfl, rfl⟩, ok_bind,
        Arr.set_in (by rw [f3, f4]; exact ⟨a, b⟩), ok_bind]
      refine ⟨_, rfl, ⟨⟨f1, f2⟩, ⟨f3, f4, ?_⟩, ⟨rfl, rfl, rfl, rfl⟩⟩, ⟨?_, ?_⟩, ?_⟩
      · intro i
        dsimp only
        by_cases hi : i = ir
        · rw [hi, upd_same]; exact ⟨rfl, rfl, rfl, rfl⟩
        · rw [upd_ne _ _ hi]; exact f5 i
      · dsimp only; rw [upd_same]
      · intro a' l' a1 a2 l1 l2
        dsimp only
        rw [upd_same]
        have hx := hX (ir - 1) (by omega) (by omega)
        have hsp := SpanOf.of_findSpan hv hx.1 hx.2
        exact dersBasisFuns_fresh hv s1 s2 hsp.ne _ _ _ _ _ _ _ _ _ a1 a2 l1 l2
      · intro j _ _ hj
        dsimp only
        rw [upd_ne _ _ hj, upd_ne _ _ hj]
        exact ⟨fun _ => trivial, id⟩)
  rw [z1]
  refine ⟨(s'.1, s'.2.1), _, rfl, rfl, fun e a b => ?_⟩
  obtain ⟨y1, y2⟩ := z7 (e + 1) (by omega) (by omega)
  rw [add_sub_cancel_right] at y1 y2
  refine ⟨?_, _, Arr.get_in (by dsimp only; rw [z4, z5]; omega), fun a' l' a1 a2 l1 l2 => ?_⟩
  · dsimp only
    rw [Arr.get_in (by rw [z2, z3]; omega), y1]
  · dsimp only
    rw [Arr2.get_in ((z6 _).inside l1 l2 a1 a2), y2 a' l' a1 a2 l1 l2]

/-! ## examples -/

/-- knots `0 0 0 1 2 2 3 3 3`, data for all elements -/
example (s : QuadArr ℚ) (jk : ℤ → ℚ) (j2 ja : ℤ → ℤ → ℚ) :=
  C79_BasisData (eps := 1 / 1000) (by norm_num) (fun _ => 100) (fun _ => 7) jk (fun _ _ => 7) j2 (fun _ _ => 8) ja (fun _ _ => 9) s
    Ex.U_valid (fun k h1 h2 _ => by
      have : (k = 2 ∨ k = 3 ∨ k = 4 ∨ k = 5) := by omega
      rcases this with rfl | rfl | rfl | rfl <;> revert ‹_ < _› <;> decide +kernel) none none

/-- the same knots, two points -/
example (jk : ℤ → ℚ) (j2 ja jd : ℤ → ℤ → ℚ) (jo : ℤ → ℤ) (jn : ℤ → ℤ → ℤ → ℚ) :=
  C79_BasisDataCol (fun _ => 7) jk (fun _ _ => 7) j2 (fun _ _ => 8) ja (fun _ _ => 9) jd jo jn Ex.U_valid (r := 2) (X := fun e => e + 1 / 2)
    (fun e h1 h2 => by
      have : e = 0 ∨ e = 1 := by omega
      rcases this with rfl | rfl <;> decide +kernel) (some 1)

/-- the memory before the call: offsets 100, numbers 0 -/
def Ex.oldQuad : QuadArr ℚ :=
  ⟨⟨1, 0, fun _ => 100⟩, ⟨1, 0, fun _ => 0⟩, ⟨1, 0, fun _ => 0⟩, ⟨1, 0, 1, 0, fun _ _ => 0⟩,
    ⟨1, 0, 1, 0, fun _ _ => ⟨1, 0, 1, 0, fun _ _ => 0⟩⟩, ⟨1, 0, 1, 0, fun _ _ => 0⟩⟩

/-- with a nonempty span of half the machine epsilon `BasisData` uses an element of `O` that is not assigned, and an index
outside the knots -/
theorem C79_tiny_span : BasisDataC (1 / 2 ^ 52 : ℚ) (fun _ => 0) (fun _ _ => 0) (fun _ _ => 0) Ex.oldQuad 1 4
    (Ex.knotsOf [0, 0, 1 / 2 ^ 53, 1, 1]) none none = .error (.fault .oob) := C77_oob.mp (by decide +kernel)

end Igakit
