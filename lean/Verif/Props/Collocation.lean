import Verif.Proofs.CollocationInv
import Verif.Spec.Colloc
import Verif.Props.Greville
import Verif.Props.Quad

/-!
# C80: interpolation with B-splines is uniquely solvable
-/

set_option linter.unusedSectionVars false

namespace Igakit
open Spec

section
variable {K : Type} [Field K] [LinearOrder K] [IsStrictOrderedRing K]
variable {E : Type*} [AddCommGroup E] [Module K E]

/-- C80: choose increasing points `x` of the domain and as many B-splines, numbered increasingly. The matrix of
their values has a determinant that is never negative, and it is zero exactly if one of the B-splines vanishes at
the point with the same position. -/
theorem C80_minors {n : ℤ} {p : ℕ} {U : ℤ → K} (hv : ValidKnots n p U) {m : ℕ} {x : Fin m → K} (hx : StrictMono x)
    (hd : ∀ j, U p ≤ x j ∧ x j ≤ U (n + 1)) {i : Fin m → ℤ} (hi : StrictMono i) (hr : ∀ l, 0 ≤ i l ∧ i l ≤ n) :
    0 ≤ (Matrix.of fun j l => bsplineD n U p (i l) (x j)).det ∧
    ((Matrix.of fun j l => bsplineD n U p (i l) (x j)).det ≠ 0 ↔ ∀ l, bsplineD n U p (i l) (x l) ≠ 0) :=
  (KT.of_valid hv).minors hx hd hi hr

section
variable {n : ℤ} {p : ℕ} {U X : ℤ → K}

theorem colloc_det (hv : ValidKnots n p U) (hX : ∀ e, 0 ≤ e → e < n → X e < X (e + 1))
    (hd : ∀ e, 0 ≤ e → e ≤ n → U p ≤ X e ∧ X e ≤ U (n + 1)) {c : ℕ} (hc : n = c) :
    (Matrix.of fun j l : Fin (c + 1) => bsplineD n U p ((l : ℕ) : ℤ) (X ((j : ℕ) : ℤ))).det ≠ 0 ↔
      ∀ e, 0 ≤ e → e ≤ n → bsplineD n U p e (X e) ≠ 0 := by
  have hmono : StrictMono (fun j : Fin (c + 1) => X ((j : ℕ) : ℤ)) := by
    rw [Fin.strictMono_iff_lt_succ]
    intro j
    have := hX ((j : ℕ) : ℤ) (by omega) (by have := j.isLt; omega)
    simpa using this
  have := (C80_minors hv hmono (fun j => hd _ (by omega) (by have := j.isLt; omega)) (i := fun l => ((l : ℕ) : ℤ))
    (fun l l' h => by have : (l : ℕ) < (l' : ℕ) := h
                      dsimp only; omega) (fun l => ⟨by omega, by have := l.isLt; omega⟩)).2
  rw [this]
  constructor
  · intro h e e0 e1
    obtain ⟨e, rfl⟩ := Int.eq_ofNat_of_zero_le e0
    exact h ⟨e, by omega⟩
  · intro h l
    exact h _ (by omega) (by have := l.isLt; omega)

theorem colloc_inv (hv : ValidKnots n p U) (hX : ∀ e, 0 ≤ e → e < n → X e < X (e + 1))
    (hd : ∀ e, 0 ≤ e → e ≤ n → U p ≤ X e ∧ X e ≤ U (n + 1)) (h : ∀ e, 0 ≤ e → e ≤ n → bsplineD n U p e (X e) ≠ 0) :
    ∃ G, InvOn n (fun e i => bsplineD n U p i (X e)) G := by
  have h1 := hv.one_le
  have h2 := hv.le
  obtain ⟨c, hc⟩ := Int.eq_ofNat_of_zero_le (by omega : 0 ≤ n)
  have := (colloc_det hv hX hd hc).2 h
  rw [hc] at this ⊢
  exact InvOn.of_det (M := fun e i => bsplineD (c : ℤ) U p i (X e)) this

/-- C80: values at increasing points of the domain, as many as there are control points, are taken by exactly one
spline if B-spline number `e` does not vanish at point number `e`. -/
theorem C80_interpolation (hv : ValidKnots n p U) (hX : ∀ e, 0 ≤ e → e < n → X e < X (e + 1))
    (hd : ∀ e, 0 ≤ e → e ≤ n → U p ≤ X e ∧ X e ≤ U (n + 1)) (h : ∀ e, 0 ≤ e → e ≤ n → bsplineD n U p e (X e) ≠ 0) :
    UniqueInterp E n p U X := by
  obtain ⟨G, hG⟩ := colloc_inv hv hX hd h
  intro V
  have conv : ∀ (P : (Fin 1 → ℤ) → E) (e : ℤ),
      ∑ k ∈ Fintype.piFinset (fun _ : Fin 1 => Finset.Icc 0 n), (∏ a, bsplineD n U p (k a) (X e)) • P k =
        curve n p U (fun i => P (fun _ => i)) (X e) := by
    intro P e
    unfold curve
    symm
    refine Finset.sum_nbij' (fun i => (fun _ => i : Fin 1 → ℤ)) (fun idx => idx 0) ?_ ?_ ?_ ?_ ?_
    · intro i hi
      rw [Fintype.mem_piFinset]
      intro a
      exact hi
    · intro idx h
      exact Fintype.mem_piFinset.1 h 0
    · intro i _; rfl
    · intro idx _
      funext a
      rw [Subsingleton.elim a 0]
    · intro i _
      simp
  obtain ⟨P, h1, h2⟩ := tensor_solve (n := fun _ : Fin 1 => n) (M := fun _ => fun e i => bsplineD n U p i (X e))
    (G := fun _ => G) (fun _ => hG) (fun e => V (e 0))
  refine ⟨fun i => P (fun _ => i), fun e e0 e1 => ?_, fun Q hQ i i0 i1 => ?_⟩
  · rw [← conv]
    exact h1 (fun _ => e) (fun _ => ⟨e0, e1⟩)
  · refine h2 (fun k => Q (k 0)) (fun e he => ?_) (fun _ => i) (fun _ => ⟨i0, i1⟩)
    have := conv (fun k => Q (k 0)) (e 0)
    rw [hQ _ (he 0).1 (he 0).2] at this
    rw [← this]
    refine Finset.sum_congr rfl (fun k _ => ?_)
    simp

/-- C80: the condition is needed: already for real values, if B-spline number `e` vanishes at point number `e` for
some `e`, then some values cannot be interpolated or not uniquely. -/
theorem C80_interpolation_iff (hv : ValidKnots n p U) (hX : ∀ e, 0 ≤ e → e < n → X e < X (e + 1))
    (hd : ∀ e, 0 ≤ e → e ≤ n → U p ≤ X e ∧ X e ≤ U (n + 1)) :
    UniqueInterp K n p U X ↔ ∀ e, 0 ≤ e → e ≤ n → bsplineD n U p e (X e) ≠ 0 := by
  refine ⟨fun h => ?_, C80_interpolation hv hX hd⟩
  have h1 := hv.one_le
  have h2 := hv.le
  obtain ⟨c, hc⟩ := Int.eq_ofNat_of_zero_le (by omega : 0 ≤ n)
  rw [← colloc_det hv hX hd hc]
  intro hdet
  obtain ⟨v, v0, hv0⟩ := Matrix.exists_mulVec_eq_zero_iff.2 hdet
  obtain ⟨P, -, hP⟩ := h (fun _ => 0)
  have hz := hP (fun _ => 0) (fun e _ _ => by unfold curve; simp)
  have hq := hP (fun i => v (Fin.ofNat (c + 1) i.toNat)) (fun e e0 e1 => by
    obtain ⟨e, rfl⟩ := Int.eq_ofNat_of_zero_le e0
    have := congrFun hv0 ⟨e, by omega⟩
    rw [Matrix.mulVec, dotProduct] at this
    unfold curve
    have e2 := sum_Icc_fin c (fun i => bsplineD n U p i (X e) • v (Fin.ofNat (c + 1) i.toNat))
    rw [← hc] at e2
    rw [e2, ← Pi.zero_apply (M := fun _ => K), ← this]
    refine Finset.sum_congr rfl (fun l _ => ?_)
    simp)
  refine v0 (funext (fun l => ?_))
  have := hq ((l : ℕ) : ℤ) (by omega) (by have := l.isLt; omega)
  rw [← hz ((l : ℕ) : ℤ) (by omega) (by have := l.isLt; omega)] at this
  simpa using this

/-- C80: the same for the arrays of `iga.BasisDataCol`: the collocation matrix given by the offsets `O` and the
values `B(e,:,0)` maps control points to values of the spline, has no negative minors, and is invertible exactly if
its diagonal has no zero. -/
theorem C80_BasisDataCol (jk : ℤ → K) (j2 ja jd : ℤ → ℤ → K) (hv : ValidKnots n p U)
    (hX : ∀ e, 0 ≤ e → e < n → X e < X (e + 1)) (hd : ∀ e, 0 ≤ e → e ≤ n → U p ≤ X e ∧ X e ≤ U (n + 1))
    {c : ℕ} (hc : n = c) {d : Option ℤ} {D : ℕ} (hdD : d.getD p = D) (hDp : D ≤ p) :
    ∃ (O : ℤ → ℤ) (B : ℤ → ℤ → ℤ → K), BasisDataCol jk j2 ja jd p (n + p + 1) U (n + 1) X d = .ok (O, B) ∧
      (∀ (P : ℤ → E) e, 0 ≤ e → e ≤ n →
        ∑ i ∈ Finset.Icc 0 n, scatter p O (fun e a => B e a 0) e i • P i = curve n p U P (X e)) ∧
      (∀ (m : ℕ) (r s : Fin m → ℤ), StrictMono r → StrictMono s → (∀ l, 0 ≤ r l ∧ r l ≤ n) → (∀ l, 0 ≤ s l ∧ s l ≤ n) →
        0 ≤ (Matrix.of fun j l => scatter p O (fun e a => B e a 0) (r j) (s l)).det) ∧
      (IsUnit (Matrix.of fun j l : Fin (c + 1) => scatter p O (fun e a => B e a 0) ((j : ℕ) : ℤ) ((l : ℕ) : ℤ)) ↔
        ∀ e, 0 ≤ e → e ≤ n → scatter p O (fun e a => B e a 0) e e ≠ 0) := by
  have h1 := hv.one_le
  have h2 := hv.le
  obtain ⟨O, B, hok, hB⟩ := C31_BasisDataCol jk j2 ja jd hv (r := n + 1) (by omega)
    (fun e e0 e1 => hd e e0 (by omega)) hdD hDp
  have hsc : ∀ e i, 0 ≤ e → e ≤ n → 0 ≤ i → i ≤ n → scatter p O (fun e a => B e a 0) e i = bsplineD n U p i (X e) := by
    intro e i e0 e1 i0 i1
    obtain ⟨-, -, -, -, b5, -, b7⟩ := hB e e0 (by omega)
    unfold scatter
    by_cases hi : O e ≤ i ∧ i ≤ O e + p
    · rw [if_pos hi]
      have := b5 (i - O e).toNat (by omega)
      rw [show (((i - O e).toNat : ℕ) : ℤ) = i - O e by omega, show O e + (i - O e) = i by ring] at this
      exact this
    · rw [if_neg hi, b7 i i0 i1 (by omega)]
  have hXm : ∀ e e', 0 ≤ e → e < e' → e' ≤ n → X e < X e' := by
    intro e e' e0 he e1
    obtain ⟨k, rfl⟩ := Int.le.dest (Int.add_one_le_of_lt he)
    clear he
    induction k with
    | zero => simpa using hX e e0 (by push_cast at e1; omega)
    | succ k ih =>
      refine (ih (by push_cast at e1; omega)).trans ?_
      have := hX (e + 1 + k) (by omega) (by push_cast at e1; omega)
      rwa [add_assoc (e + 1)] at this
  refine ⟨O, B, hok, ?_, ?_, ?_⟩
  · intro P e e0 e1
    unfold curve
    refine Finset.sum_congr rfl (fun i hi => ?_)
    have := Finset.mem_Icc.1 hi
    rw [hsc e i e0 e1 this.1 this.2]
  · intro m r s hr hs r1 s1
    have e : (Matrix.of fun j l => scatter p O (fun e a => B e a 0) (r j) (s l)) =
        Matrix.of fun j l => bsplineD n U p (s l) (X (r j)) := by
      funext j l
      exact hsc _ _ (r1 j).1 (r1 j).2 (s1 l).1 (s1 l).2
    rw [e]
    exact (C80_minors hv (x := fun j => X (r j)) (fun j j' hj => hXm _ _ (r1 j).1 (hr hj) (r1 j').2)
      (fun j => hd _ (r1 j).1 (r1 j).2) hs s1).1
  · have e : (Matrix.of fun j l : Fin (c + 1) => scatter p O (fun e a => B e a 0) ((j : ℕ) : ℤ) ((l : ℕ) : ℤ)) =
        Matrix.of fun j l : Fin (c + 1) => bsplineD n U p ((l : ℕ) : ℤ) (X ((j : ℕ) : ℤ)) := by
      funext j l
      exact hsc _ _ (by omega) (by have := j.isLt; omega) (by omega) (by have := l.isLt; omega)
    rw [e, Matrix.isUnit_iff_isUnit_det, isUnit_iff_ne_zero, colloc_det hv hX hd hc]
    refine forall_congr' (fun e => forall_congr' (fun e0 => forall_congr' (fun e1 => ?_)))
    rw [hsc e e e0 e1 e0 e1]

/-! ## Greville abscissae -/

theorem standard_lt (hv : ValidKnots n p U) (hst : Standard n p U) {i : ℤ} (i0 : 0 ≤ i) (i1 : i < n) :
    U (i + 1) < U (i + p + 1) := by
  have h1 := hv.one_le
  have h2 := hv.le
  refine lt_of_le_of_ne (hv.sorted _ _ (by omega) (by omega) (by omega)) (fun e => ?_)
  have hall : ∀ j, i + 1 ≤ j → j ≤ i + p + 1 → U j = U (i + 1) := fun j a b =>
    le_antisymm (e ▸ hv.sorted j (i + p + 1) (by omega) b (by omega)) (hv.sorted (i + 1) j (by omega) a (by omega))
  have b1 : U p < U (i + 1) := by
    by_contra hc
    have := hv.sorted (p + 1) (i + p + 1) (by omega) (by omega) (by omega)
    rw [← e] at this
    exact absurd (this.trans (not_lt.1 hc)) (not_le.2 hv.first)
  have b2 : U (i + 1) < U (n + 1) := by
    rw [e]
    by_contra hc
    have := hv.sorted (i + 1) n (by omega) (by omega) (by omega)
    rw [e] at this
    exact absurd ((not_lt.1 hc).trans this) (not_le.2 hv.last)
  have hm := hst.mult (U (i + 1)) b1 b2
  have hsub : Finset.Icc (i + 1) (i + p + 1) ⊆ (Finset.Icc 0 (n + p + 1)).filter (fun j => U j = U (i + 1)) := by
    intro j hj
    have := Finset.mem_Icc.1 hj
    exact Finset.mem_filter.2 ⟨Finset.mem_Icc.2 ⟨by omega, by omega⟩, hall j this.1 this.2⟩
  have := Finset.card_le_card hsub
  unfold mult at hm
  rw [Int.card_Icc] at this
  omega

theorem greville_lt (hv : ValidKnots n p U) (hst : Standard n p U) {i : ℤ} (i0 : 0 ≤ i) (i1 : i < n) :
    greville (p : ℤ) U i < greville (p : ℤ) U (i + 1) := by
  have h1 := hv.one_le
  have h2 := hv.le
  have hp : (0 : K) < p := by exact_mod_cast (by omega : 0 < p)
  rw [← mul_lt_mul_iff_left₀ hp, greville_mul U i (by omega), greville_mul U (i + 1) (by omega)]
  obtain ⟨q, hq⟩ : ∃ q, p = q + 1 := ⟨p - 1, by omega⟩
  rw [hq, Finset.sum_range_succ', Finset.sum_range_succ]
  have e : ∀ j ∈ Finset.range q, U (i + 1 + ((j + 1 : ℕ) : ℤ)) = U (i + 1 + 1 + (j : ℤ)) := by
    intro j _
    congr 1; push_cast; ring
  rw [Finset.sum_congr rfl e]
  have := standard_lt hv hst i0 i1
  rw [hq] at this
  push_cast at this
  rw [show i + 1 + ((0 : ℕ) : ℤ) = i + 1 by simp, show i + 1 + 1 + (q : ℤ) = i + (q + 1) + 1 by ring]
  linarith

theorem greville_strict (hv : ValidKnots n p U) {i : ℤ} (i0 : 0 ≤ i) (i1 : i ≤ n) (hlt : U (i + 1) < U (i + p)) :
    U (i + 1) < greville (p : ℤ) U i ∧ greville (p : ℤ) U i < U (i + p) := by
  have h1 := hv.one_le
  have h2 := hv.le
  have hp : (0 : K) < p := by exact_mod_cast (by omega : 0 < p)
  constructor
  · rw [← mul_lt_mul_iff_left₀ hp, greville_mul U i (by omega)]
    calc U (i + 1) * p = ∑ j ∈ Finset.range p, U (i + 1) := by simp [mul_comm]
      _ < _ := Finset.sum_lt_sum (fun j hj => hv.sorted _ _ (by omega) (by omega)
          (by have := Finset.mem_range.mp hj; omega)) ⟨p - 1, Finset.mem_range.2 (by omega), by
          rw [show i + 1 + ((p - 1 : ℕ) : ℤ) = i + p by omega]; exact hlt⟩
  · rw [← mul_lt_mul_iff_left₀ hp, greville_mul U i (by omega)]
    calc _ < ∑ j ∈ Finset.range p, U (i + p) := Finset.sum_lt_sum (fun j hj => hv.sorted _ _ (by omega)
            (by have := Finset.mem_range.mp hj; omega) (by omega)) ⟨0, Finset.mem_range.2 (by omega), by
          rw [show i + 1 + ((0 : ℕ) : ℤ) = i + 1 by simp]; exact hlt⟩
      _ = U (i + p) * p := by simp [mul_comm]

theorem greville_dom (hv : ValidKnots n p U) (hst : Standard n p U) {i : ℤ} (i0 : 0 ≤ i) (i1 : i ≤ n) :
    U p ≤ greville (p : ℤ) U i ∧ greville (p : ℤ) U i ≤ U (n + 1) := by
  obtain ⟨X, e, -, hm, -, hl, hr⟩ := C24_Greville hv
  have h1 := hv.one_le
  have h2 := hv.le
  unfold BSp.Greville at e
  rw [if_pos ⟨by omega, by omega⟩] at e
  injection e with e
  subst e
  exact ⟨hl hst.left ▸ hm 0 i le_rfl i0 i1, hr hst.right ▸ hm i n i0 i1 le_rfl⟩

theorem greville_diag (hv : ValidKnots n p U) (hst : Standard n p U) {i : ℤ} (i0 : 0 ≤ i) (i1 : i ≤ n) :
    bsplineD n U p i (greville (p : ℤ) U i) ≠ 0 := by
  have h1 := hv.one_le
  have h2 := hv.le
  have h := KT.of_valid hv
  obtain ⟨d1, d2⟩ := greville_dom hv hst i0 i1
  have m1 : U i ≤ U (i + 1) := hv.sorted _ _ i0 (by omega) (by omega)
  have m2 : U (i + p) ≤ U (i + p + 1) := hv.sorted _ _ (by omega) (by omega) (by omega)
  have m3 : U (i + 1) ≤ U (i + p) := hv.sorted _ _ (by omega) (by omega) (by omega)
  rcases m3.eq_or_lt with e | hlt
  · -- all knots inside the support coincide
    have hall : ∀ j : ℤ, 1 ≤ j → j ≤ p → U (i + j) = U (i + 1) := fun j a b =>
      le_antisymm (e ▸ hv.sorted (i + j) (i + p) (by omega) (by omega) (by omega))
        (hv.sorted (i + 1) (i + j) (by omega) (by omega) (by omega))
    have hg : greville (p : ℤ) U i = U (i + 1) := by
      rw [greville_sum, kn_const hall, Multiset.sum_replicate, nsmul_eq_mul,
        mul_div_cancel_left₀ _ (by exact_mod_cast (by omega : p ≠ 0))]
    have hm : p ≤ mult U 0 (n + p + 1) (greville (p : ℤ) U i) := by
      have hsub : Finset.Icc (i + 1) (i + p) ⊆ (Finset.Icc 0 (n + p + 1)).filter (fun j => U j = greville (p : ℤ) U i) := by
        intro j hj
        have := Finset.mem_Icc.1 hj
        refine Finset.mem_filter.2 ⟨Finset.mem_Icc.2 ⟨by omega, by omega⟩, ?_⟩
        rw [hg, show j = i + (j - i) by ring]
        exact hall (j - i) (by omega) (by omega)
      have := Finset.card_le_card hsub
      unfold mult
      rw [Int.card_Icc] at this
      omega
    obtain ⟨y, y0, y1, hy, hd⟩ := h.delta d1 d2 hm
    have hcur := curve_greville hv d1 d2
    have : y = i := by
      have key : greville (p : ℤ) U y = greville (p : ℤ) U i := by
        have e2 := hcur
        unfold curve at e2
        have e3 : ∀ j ∈ Finset.Icc 0 n, bsplineD n U p j (greville (p : ℤ) U i) • greville (p : ℤ) U j =
            if j = y then greville (p : ℤ) U y else 0 := by
          intro j hj
          have := Finset.mem_Icc.1 hj
          rw [hd j this.1 this.2]
          by_cases c : j = y
          · rw [if_pos c, if_pos c, one_smul, c]
          · rw [if_neg c, if_neg c, zero_smul]
        rw [Finset.sum_congr rfl e3, Finset.sum_ite_eq', if_pos (Finset.mem_Icc.2 ⟨y0, y1⟩)] at e2
        exact e2
      have mono : ∀ k : ℕ, ∀ j : ℤ, 0 ≤ j → j + k + 1 ≤ n → greville (p : ℤ) U j < greville (p : ℤ) U (j + k + 1) := by
        intro k
        induction k with
        | zero => intro j j0 j1; simpa using greville_lt hv hst j0 (by push_cast at j1; omega)
        | succ k ih =>
          intro j j0 j1
          push_cast at j1 ⊢
          refine (ih j j0 (by omega)).trans ?_
          have := greville_lt hv hst (i := j + k + 1) (by omega) (by omega)
          rwa [show j + (k + 1 : ℤ) + 1 = j + k + 1 + 1 by ring]
      rcases lt_trichotomy y i with c | c | c
      · have := mono (i - y - 1).toNat y y0 (by omega)
        rw [show y + ((i - y - 1).toNat : ℤ) + 1 = i by omega, key] at this
        exact absurd this (lt_irrefl _)
      · exact c
      · have := mono (y - i - 1).toNat i i0 (by omega)
        rw [show i + ((y - i - 1).toNat : ℤ) + 1 = y by omega, key] at this
        exact absurd this (lt_irrefl _)
    rw [hd i i0 i1, if_pos this.symm]
    exact one_ne_zero
  · obtain ⟨g1, g2⟩ := greville_strict hv i0 i1 hlt
    exact ne_of_gt (h.pos d1 d2 i0 i1 (lt_of_le_of_lt m1 g1) (lt_of_lt_of_le g2 m2))

/-- C80: interpolation at the Greville abscissae returned by `bsp.Greville(p,U)` is uniquely solvable for knots that
are clamped at both ends and have interior multiplicities of at most the degree; -/
theorem C80_Greville (hv : ValidKnots n p U) (hst : Standard n p U) {X : ℤ → K}
    (hX : BSp.Greville p (n + p + 1) U = .ok X) : UniqueInterp E n p U X := by
  have h1 := hv.one_le
  have h2 := hv.le
  unfold BSp.Greville at hX
  rw [if_pos ⟨by omega, by omega⟩] at hX
  injection hX with hX
  subst hX
  exact C80_interpolation hv (fun e e0 e1 => greville_lt hv hst e0 e1) (fun e e0 e1 => greville_dom hv hst e0 e1)
    (fun e e0 e1 => greville_diag hv hst e0 e1)

/-- C80: … and an interior knot of higher multiplicity makes it unsolvable. -/
theorem C80_Greville_iff (hv : ValidKnots n p U) (hl : ClampedL p U) (hr : ClampedR n p U) {X : ℤ → K}
    (hX : BSp.Greville p (n + p + 1) U = .ok X) : UniqueInterp K n p U X ↔ MultLe n p U := by
  refine ⟨fun h => ?_, fun h => C80_Greville hv ⟨hl, hr, h⟩ hX⟩
  have h1 := hv.one_le
  have h2 := hv.le
  unfold BSp.Greville at hX
  rw [if_pos ⟨by omega, by omega⟩] at hX
  injection hX with hX
  subst hX
  intro x x1 x2
  by_contra hc
  push Not at hc
  -- a run of `p + 1` equal knots
  obtain ⟨s, s0, s1, hs⟩ : ∃ s : ℤ, 0 ≤ s ∧ s < n ∧ ∀ j : ℤ, s + 1 ≤ j → j ≤ s + p + 1 → U j = x := by
    let S := (Finset.Icc 0 (n + p + 1)).filter (fun j => U j = x)
    have hcard : p + 1 ≤ S.card := by
      have : S.card = mult U 0 (n + p + 1) x := rfl
      omega
    have hne : S.Nonempty := Finset.card_pos.1 (by omega)
    have hmin := Finset.min'_mem S hne
    have hmax := Finset.max'_mem S hne
    have hsub : S ⊆ Finset.Icc (S.min' hne) (S.max' hne) := fun j hj =>
      Finset.mem_Icc.2 ⟨Finset.min'_le _ _ hj, Finset.le_max' _ _ hj⟩
    have := Finset.card_le_card hsub
    rw [Int.card_Icc] at this
    obtain ⟨a1, a2⟩ := Finset.mem_filter.1 hmin
    obtain ⟨b1, b2⟩ := Finset.mem_filter.1 hmax
    have a1 := Finset.mem_Icc.1 a1
    have b1 := Finset.mem_Icc.1 b1
    generalize S.min' hne = lo at *
    generalize S.max' hne = hi at *
    refine ⟨lo - 1, ?_, ?_, ?_⟩
    · by_contra hcc
      have := hv.sorted lo p (by omega) (by omega) (by omega)
      rw [a2] at this
      exact absurd this (not_le.2 x1)
    · by_contra hcc
      have := hv.sorted (n + 1) hi (by omega) (by omega) (by omega)
      rw [b2] at this
      exact absurd this (not_le.2 x2)
    · intro j j1 j2
      exact le_antisymm (b2 ▸ hv.sorted j hi (by omega) (by omega) (by omega))
        (a2 ▸ hv.sorted lo j (by omega) (by omega) (by omega))
  -- two Greville abscissae coincide
  have hg : greville (p : ℤ) U s = greville (p : ℤ) U (s + 1) := by
    rw [greville_sum, greville_sum, kn_const (x := x) (fun l a b => hs _ (by omega) (by omega)),
      kn_const (x := x) (fun l a b => hs _ (by omega) (by omega))]
  obtain ⟨P, hP, -⟩ := h (fun e => if e = s then 1 else 0)
  have e1 := hP s s0 (by omega)
  have e2 := hP (s + 1) (by omega) (by omega)
  rw [if_pos rfl] at e1
  rw [if_neg (by omega)] at e2
  dsimp only at e1 e2
  rw [← hg, e1] at e2
  exact one_ne_zero e2

end
end

/-! ## objects -/

variable {K : Type} [Field K] [LinearOrder K] [IsStrictOrderedRing K] {d : ℕ}

/-- C80: for an object whose axes are clamped with interior multiplicities of at most the degree, any data on the
grid of the Greville abscissae returned by `greville(axis)` are the values of exactly one control net. -/
theorem C80_net {N : Nrb K d} (hv : N.Valid) (hst : ∀ a, Standard (N.n a) (N.degree a) (N.U a))
    {X : Fin d → ℤ → K} (hX : ∀ a : Fin d, N.greville ((a : ℕ) : ℤ) = .ok (N.shape a, X a))
    (V : (Fin d → ℤ) → ℕ → K) :
    ∃ P : (Fin d → ℤ) → ℕ → K,
      (∀ e, (∀ a, 0 ≤ e a ∧ e a < N.shape a) → Nrb.eval { N with P := P } (fun a => X a (e a)) = V e) ∧
      ∀ Q : (Fin d → ℤ) → ℕ → K,
        (∀ e, (∀ a, 0 ≤ e a ∧ e a < N.shape a) → Nrb.eval { N with P := Q } (fun a => X a (e a)) = V e) →
        ∀ i, (∀ a, 0 ≤ i a ∧ i a < N.shape a) → Q i = P i := by
  have hshape : ∀ a, N.shape a = N.n a + 1 := fun a => by unfold Nrb.n; ring
  have key : ∀ a, ∃ G, InvOn (N.n a) (fun e i => bsplineD (N.n a) (N.U a) (N.degree a).toNat i (X a e)) G := by
    intro a
    obtain ⟨p, hp, hk, e⟩ := deg_nat hv a
    have hs := hst a
    have h1 := hk.one_le
    have h2 := hk.le
    have hg := hX a
    unfold Nrb.greville at hg
    have ha : normAxis d ((a : ℕ) : ℤ) = .ok a := normAxis_self a
    rw [ha] at hg
    simp only [bind, Except.bind, pure, Except.pure] at hg
    unfold BSp.Greville at hg
    rw [hp, e, if_pos ⟨by omega, by omega⟩] at hg
    simp only [Except.ok.injEq, Prod.mk.injEq] at hg
    rw [← hg.2, hp, Int.toNat_natCast]
    rw [hp] at hs
    exact colloc_inv hk (fun e e0 e1 => greville_lt hk hs e0 e1) (fun e e0 e1 => greville_dom hk hs e0 e1)
      (fun e e0 e1 => greville_diag hk hs e0 e1)
  choose G hG using key
  obtain ⟨P, h1, h2⟩ := tensor_solve hG V
  refine ⟨P, fun e he => h1 e (fun a => ⟨(he a).1, by have := (he a).2; have := hshape a; omega⟩), fun Q hQ i hi => ?_⟩
  exact h2 Q (fun e he => hQ e (fun a => ⟨(he a).1, by have := (he a).2; have := hshape a; omega⟩)) i
    (fun a => ⟨(hi a).1, by have := (hi a).2; have := hshape a; omega⟩)

theorem eval_congr_comp {N : Nrb K d} {Q Q' : (Fin d → ℤ) → ℕ → K} {x : Fin d → K} {c : ℕ}
    (h : ∀ i, (∀ a, 0 ≤ i a ∧ i a < N.shape a) → Q i c = Q' i c) :
    Nrb.eval { N with P := Q } x c = Nrb.eval { N with P := Q' } x c := by
  rw [Nrb.eval_apply, Nrb.eval_apply]
  refine Finset.sum_congr rfl (fun i hi => ?_)
  have := fun a => Finset.mem_Icc.1 (Fintype.mem_piFinset.1 hi a)
  dsimp only
  rw [h i (fun a => ⟨(this a).1, by have := (this a).2; unfold Nrb.n at this; dsimp only at this; omega⟩)]
  rfl

/-- C80: calling the object at the Greville abscissae of its axes determines the control points and fields: two
objects with the same knots and the same positive weights that return the same points and fields there have the
same control net. -/
theorem C80_call (jk : ℤ → K) (je : ℤ → ℕ → K) (hd : d ≤ 3) {N : Nrb K d} (hv : N.Valid)
    (hst : ∀ a, Standard (N.n a) (N.degree a) (N.U a))
    {X : Fin d → ℤ → K} (hX : ∀ a : Fin d, N.greville ((a : ℕ) : ℤ) = .ok (N.shape a, X a))
    {Q : (Fin d → ℤ) → ℕ → K} (hw : ∀ i, (∀ a, 0 ≤ i a ∧ i a < N.shape a) → 0 < N.P i 3 ∧ Q i 3 = N.P i 3) :
    ∃ C C', N.call jk je (fun a => N.shape a - 1) X = .ok C ∧
      Nrb.call jk je { N with P := Q } (fun a => N.shape a - 1) X = .ok C' ∧
      ((∀ e, (∀ a, 0 ≤ e a ∧ e a < N.shape a) →
        (∀ c, c < 3 → (C' e).1 c = (C e).1 c) ∧ (∀ c, 4 + c < N.nc → (C' e).2 c = (C e).2 c)) →
      ∀ i, (∀ a, 0 ≤ i a ∧ i a < N.shape a) → ∀ c, c < 4 ∨ c < N.nc → Q i c = N.P i c) := by
  have hdom : ∀ a e, 0 ≤ e → e ≤ N.shape a - 1 → N.lo a ≤ X a e ∧ X a e ≤ N.hi a := by
    intro a e e0 e1
    obtain ⟨p, hp, hk, e2⟩ := deg_nat hv a
    have hs := hst a
    have h1 := hk.one_le
    have h2 := hk.le
    have hg := hX a
    unfold Nrb.greville at hg
    rw [normAxis_self a] at hg
    simp only [bind, Except.bind, pure, Except.pure] at hg
    unfold BSp.Greville at hg
    rw [hp, e2, if_pos ⟨by omega, by omega⟩] at hg
    simp only [Except.ok.injEq, Prod.mk.injEq] at hg
    rw [hp] at hs
    rw [← hg.2, Nrb.hi_eq, Nrb.lo_eq, hp]
    exact greville_dom hk hs e0 (by unfold Nrb.n; omega)
  have hpos : ∀ a, 0 ≤ N.shape a - 1 := fun a => by
    have h1 := (hv a).one_le
    have h2 := (hv a).le
    unfold Nrb.n at h2
    omega
  obtain ⟨C, hC, hC1⟩ := C05_call jk je hd hv (r := fun a => N.shape a - 1) (X := X) hpos hdom
  obtain ⟨C', hC', hC1'⟩ := C05_call jk je hd (N := { N with P := Q }) (fun a => hv a) (r := fun a => N.shape a - 1) (X := X)
    hpos hdom
  refine ⟨C, C', hC, hC', fun h i hi c hc => ?_⟩
  obtain ⟨P, hP, hP1⟩ := C80_net hv hst hX (fun e => N.eval (fun a => X a (e a)))
  have eN := hP1 N.P (fun e _ => rfl) i hi
  -- keep the components beyond the fields
  let R : (Fin d → ℤ) → ℕ → K := fun i c => if c < 4 ∨ c < N.nc then Q i c else N.P i c
  have eR := hP1 R (fun e he => by
    funext c
    by_cases hc : c < 4 ∨ c < N.nc
    · have e1 : Nrb.eval { N with P := R } (fun a => X a (e a)) c = Nrb.eval { N with P := Q } (fun a => X a (e a)) c :=
        eval_congr_comp (fun i _ => if_pos hc)
      rw [e1]
      have he' : ∀ a, 0 ≤ e a ∧ e a ≤ N.shape a - 1 := fun a => ⟨(he a).1, by have := (he a).2; omega⟩
      have e3 : Nrb.eval { N with P := Q } (fun a => X a (e a)) 3 = N.eval (fun a => X a (e a)) 3 :=
        eval_congr_comp (Q' := N.P) (fun i hi => (hw i hi).2)
      by_cases c3 : c = 3
      · rw [c3, e3]
      have p3 : N.eval (fun a => X a (e a)) 3 ≠ 0 := ne_of_gt (Nrb.eval_pos hv (fun a => hdom a _ (he' a).1 (he' a).2)
        (fun i hi => (hw i (fun a => ⟨(hi a).1, by have := (hi a).2; unfold Nrb.n at this; omega⟩)).1))
      have hproj : Nrb.proj { N with P := Q } (fun a => X a (e a)) c = N.proj (fun a => X a (e a)) c := by
        rcases Nat.lt_or_ge c 3 with hlt | hge
        · rw [← (hC1 e he' c).1, ← (hC1' e he' c).1]
          exact (h e he).1 c hlt
        · obtain ⟨f, rfl⟩ : ∃ f, c = 4 + f := ⟨c - 4, by omega⟩
          rw [← (hC1 e he' f).2, ← (hC1' e he' f).2]
          exact (h e he).2 f (by omega)
      unfold Nrb.proj at hproj
      rw [e3] at hproj
      exact (div_left_inj' p3).1 hproj
    · exact eval_congr_comp (Q' := N.P) (fun i _ => if_neg hc)) i hi
  have : R i c = N.P i c := by rw [eR, eN]
  rwa [show R i c = Q i c from if_pos hc] at this

/-! ## concrete cases -/

theorem Ex.U_standard : Standard 5 ((2 : ℕ) : ℤ) Ex.U := by
  refine ⟨?_, ?_, ?_⟩
  · intro j h1 h2
    have h2 : j ≤ 2 := by simpa using h2
    interval_cases j <;> decide +kernel
  · intro j h1 h2
    have h2 : j ≤ 8 := by simpa using h2
    interval_cases j <;> decide +kernel
  · intro x h1 h2
    have h1 : (0 : ℚ) < x := h1
    have h2 : x < 3 := h2
    have hsub : (Finset.Icc 0 (5 + ((2 : ℕ) : ℤ) + 1)).filter (fun i => Ex.U i = x) ⊆
        if x = 1 then {3} else if x = 2 then {4, 5} else ∅ := by
      intro i hi
      obtain ⟨hi, e⟩ := Finset.mem_filter.1 hi
      obtain ⟨i1, i2⟩ := Finset.mem_Icc.1 hi
      have i2 : i ≤ 8 := by simpa using i2
      subst e
      interval_cases i <;> first | decide +kernel | (exfalso; revert h1; decide +kernel) | (exfalso; revert h2; decide +kernel)
    have := Finset.card_le_card hsub
    unfold mult
    have h3 : (if x = 1 then ({3} : Finset ℤ) else if x = 2 then {4, 5} else ∅).card ≤ 2 := by
      split_ifs <;> decide
    exact_mod_cast this.trans h3

/-- any six points of the plane are interpolated by exactly one curve with the knots 0 0 0 1 2 2 3 3 3 -/
example : ∃ X, BSp.Greville (2 : ℕ) (5 + (2 : ℕ) + 1) Ex.U = .ok X ∧ UniqueInterp (Fin 2 → ℚ) 5 2 Ex.U X := by
  obtain ⟨X, h, -⟩ := C24_Greville Ex.U_valid
  exact ⟨X, h, C80_Greville Ex.U_valid Ex.U_standard h⟩

/-- a triple interior knot of degree two -/
def Ex.trip : ℤ → ℚ := vec [0, 0, 0, 1, 1, 1, 2, 2, 2]

theorem Ex.trip_valid : ValidKnots 5 ((2 : ℕ) : ℤ) Ex.trip := by
  refine ⟨by norm_num, by norm_num, Ex.sortedOn_of_steps ?_, by decide +kernel, by decide +kernel⟩
  intro i h1 h2
  have h2 : i < 8 := by simpa using h2
  interval_cases i <;> decide +kernel

/-- the triple knot makes interpolation at the Greville abscissae impossible -/
example : ∃ X, BSp.Greville (2 : ℕ) (5 + (2 : ℕ) + 1) Ex.trip = .ok X ∧ ¬ UniqueInterp ℚ 5 2 Ex.trip X := by
  obtain ⟨X, h, -⟩ := C24_Greville Ex.trip_valid
  refine ⟨X, h, fun hu => ?_⟩
  have := (C80_Greville_iff Ex.trip_valid
    (by intro j h1 h2
        have h2 : j ≤ 2 := by simpa using h2
        interval_cases j <;> decide +kernel)
    (by intro j h1 h2
        have h2 : j ≤ 8 := by simpa using h2
        interval_cases j <;> decide +kernel) h).1 hu 1 (by decide +kernel) (by decide +kernel)
  revert this
  decide +kernel

/-- the points 1/2, 1, 3/2 and the B-splines 1, 2, 3: a positive minor; with the B-splines 2, 3, 4 the second one
would have to be positive at 1, where it vanishes -/
example : 0 < (Matrix.of fun j l : Fin 3 => bsplineD 5 Ex.U 2 (![1, 2, 3] l) (![1 / 2, 1, 3 / 2] j)).det ∧
    (Matrix.of fun j l : Fin 3 => bsplineD 5 Ex.U 2 (![2, 3, 4] l) (![1 / 2, 1, 3 / 2] j)).det = 0 := by
  have hx : StrictMono (![1 / 2, 1, 3 / 2] : Fin 3 → ℚ) := by
    rw [Fin.strictMono_iff_lt_succ]
    decide +kernel
  have hd : ∀ j : Fin 3, Ex.U (2 : ℕ) ≤ (![1 / 2, 1, 3 / 2] : Fin 3 → ℚ) j ∧ (![1 / 2, 1, 3 / 2] : Fin 3 → ℚ) j ≤ Ex.U (5 + 1) := by
    decide +kernel
  have h1 := C80_minors Ex.U_valid hx hd (i := ![1, 2, 3]) (by rw [Fin.strictMono_iff_lt_succ]; decide) (by decide)
  have h2 := C80_minors Ex.U_valid hx hd (i := ![2, 3, 4]) (by rw [Fin.strictMono_iff_lt_succ]; decide) (by decide)
  refine ⟨lt_of_le_of_ne h1.1 (Ne.symm (h1.2.2 (by decide +kernel))), ?_⟩
  by_contra hne
  have := h2.2.1 hne 1
  revert this
  decide +kernel

/-- a surface with these knots on both axes, weights 1, 2, … -/
def Ex.UU : Nrb ℚ 2 where
  shape := ![6, 6]
  nc := 5
  len := ![9, 9]
  U := ![Ex.U, Ex.U]
  P := fun idx c => if c = 3 then 1 + idx 0 else idx 0 + idx 1 * c

theorem Ex.UU_valid : Ex.UU.Valid := by
  intro a
  fin_cases a <;> exact Ex.U_valid

theorem Ex.UU_standard (a : Fin 2) : Standard (Ex.UU.n a) (Ex.UU.degree a) (Ex.UU.U a) := by
  fin_cases a <;> exact Ex.U_standard

example (jk : ℤ → ℚ) (je : ℤ → ℕ → ℚ) (Q : (Fin 2 → ℤ) → ℕ → ℚ) (hQ : ∀ i, Q i 3 = Ex.UU.P i 3) :
    ∃ X : Fin 2 → ℤ → ℚ, ∃ C C', Ex.UU.call jk je (fun a => Ex.UU.shape a - 1) X = .ok C ∧
      Nrb.call jk je { Ex.UU with P := Q } (fun a => Ex.UU.shape a - 1) X = .ok C' ∧
      (C' = C → ∀ i, (∀ a, 0 ≤ i a ∧ i a < 6) → ∀ c < 5, Q i c = Ex.UU.P i c) := by
  have key : ∀ a : Fin 2, ∃ X, Ex.UU.greville ((a : ℕ) : ℤ) = .ok (Ex.UU.shape a, X) := fun a => by
    obtain ⟨X, h, -⟩ := C24_greville Ex.UU_valid (normAxis_self a)
    exact ⟨X, h⟩
  choose X hX using key
  obtain ⟨C, C', h1, h2, h3⟩ := C80_call jk je (by norm_num) Ex.UU_valid Ex.UU_standard hX (Q := Q) (fun i hi => by
    refine ⟨?_, hQ i⟩
    show (0 : ℚ) < 1 + (i 0 : ℚ)
    have := (hi 0).1
    have : (0 : ℚ) ≤ (i 0 : ℚ) := by exact_mod_cast this
    linarith)
  refine ⟨X, C, C', h1, h2, fun e i hi c hc => h3 (fun _ _ => by rw [e]; exact ⟨fun _ _ => rfl, fun _ _ => rfl⟩) i
    (fun a => ?_) c (Or.inr hc)⟩
  have := hi a
  fin_cases a <;> exact this

end Igakit
