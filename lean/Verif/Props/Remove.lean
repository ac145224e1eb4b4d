import Verif.Proofs.RemoveTop
import Verif.Props.Nurbs
import Verif.Props.Ctor
import Mathlib.Analysis.InnerProductSpace.PiL2

/-!
# C17: knot removal

`near a b` stands for `Distance(d,a,b) <= TOL`.  The rational field examples use `near` directly, the
theorems about `NURBS.remove` are over the real numbers with the distance of the code.
-/

set_option linter.unusedSectionVars false

namespace Igakit
open Spec

section bsp
variable {K : Type*} [Field K] [LinearOrder K] [IsStrictOrderedRing K]
variable {E : Type*} [AddCommGroup E] [Module K E]

theorem insertKnot_res {eps : K} (heps : 0 < eps) (jk : ℤ → K) (je : ℤ → E) {n : ℤ} {p : ℕ} {U : ℤ → K}
    (hv : ValidKnots n p U) (P : ℤ → E) {uu : K} (h1 : U p < uu) (h2 : uu < U (n + 1))
    (hsep : SepFrom eps uu U 0 (n + p + 1)) {R : ℕ} (hR : 1 ≤ R) (hm : R + mult U 0 (n + p + 1) uu ≤ p) :
    BSp.InsertKnot eps jk je n p U P uu R = .ok (insertKnotV jk n p U uu (findSpan n p uu U) R,
      insertKnotQ je n p U P uu (findSpan n p uu U) (mult U 0 (n + p + 1) uu) R) := by
  have hp := hv.one_le
  have hle := hv.le
  obtain ⟨b1, b2, b3, b4⟩ := findSpan_mid (by omega) hle h1 h2
  have hs := findMult_mid heps hv b1 b2 b3 b4 hsep (by omega)
  unfold BSp.InsertKnot
  rw [if_pos ⟨by omega, hp, ⟨h1.le, h2.le⟩, by omega, by omega⟩, if_neg (by omega)]
  dsimp only
  rw [hs]; rfl

/-- C17: `bsp.RemoveKnot` after `bsp.InsertKnot` with the same value and count gives the knots and the
control points back, whatever the tolerance, as long as equal points pass the test. -/
theorem C17_RemoveKnot_restores {eps : K} (heps : 0 < eps) (jk : ℤ → K) (je jt : ℤ → E) {near : E → E → Prop}
    (hnear : ∀ x, near x x) {n : ℤ} {p : ℕ} {U : ℤ → K} (hv : ValidKnots n p U) (P : ℤ → E) {uu : K}
    (h1 : U p < uu) (h2 : uu < U (n + 1)) (hsep : SepFrom eps uu U 0 (n + p + 1)) {R : ℕ} (hR : 1 ≤ R)
    (hm : R + mult U 0 (n + p + 1) uu ≤ p) :
    ∃ V Q V' Q', BSp.InsertKnot eps jk je n p U P uu R = .ok (V, Q) ∧
      BSp.RemoveKnot eps jt near (n + R) p V Q uu R = .ok ((R : ℤ), V', Q') ∧
      (∀ i, 0 ≤ i → i ≤ n + p + 1 → V' i = U i) ∧ ∀ i, 0 ≤ i → i ≤ n → Q' i = P i := by
  have hp := hv.one_le
  have hle := hv.le
  obtain ⟨b1, b2, b3, b4⟩ := findSpan_mid (by omega) hle h1 h2
  have hc := RemCtx.of_insert jk hv h1 h2 hR hm
  obtain ⟨V', Q', g1, g2, g3⟩ := removeKnot_insert jk je jt hnear hv P h1 h2 hR hm
  refine ⟨insertKnotV jk n p U uu (findSpan n p uu U) R,
    insertKnotQ je n p U P uu (findSpan n p uu U) (mult U 0 (n + p + 1) uu) R, V', Q', ?_, ?_, g2, g3⟩
  · exact insertKnot_res heps jk je hv P h1 h2 hsep hR hm
  · rw [removeKnot_res heps jt near _ hc ?_ (by omega) (by omega), g1]
    intro j a b
    rcases (by omega : j ≤ findSpan n p uu U ∨ (findSpan n p uu U < j ∧ j ≤ findSpan n p uu U + R) ∨
      findSpan n p uu U + R < j) with c | c | c
    · rw [insertKnotV_lo _ _ _ _ _ _ _ (by omega) _ a c]
      exact hsep j a (by omega)
    · exact Or.inl (insertKnotV_mid _ _ _ _ _ _ _ _ c.1 c.2)
    · rw [insertKnotV_hi _ _ _ _ _ _ _ _ c (by omega)]
      exact hsep _ (by omega) (by omega)

/-- degree 2, the simple knot 1 made double and back -/
example (P : ℤ → ℚ × ℚ) : ∃ V Q V' Q',
    BSp.InsertKnot (1 / 1000) (fun _ => 7) (fun _ => 7) 5 ((2 : ℕ) : ℤ) Ex.U P 1 (1 : ℕ) = .ok (V, Q) ∧
    BSp.RemoveKnot (1 / 1000) (fun _ => 9) (· = ·) (5 + (1 : ℕ)) ((2 : ℕ) : ℤ) V Q 1 (1 : ℕ) = .ok (((1 : ℕ) : ℤ), V', Q') ∧
    (∀ i, 0 ≤ i → i ≤ 5 + ((2 : ℕ) : ℤ) + 1 → V' i = Ex.U i) ∧ ∀ i, 0 ≤ i → i ≤ 5 → Q' i = P i :=
  C17_RemoveKnot_restores (by norm_num) _ _ _ (fun _ => rfl) Ex.U_valid P (by decide +kernel) (by decide +kernel)
    (Ex.U_sep 1 (by decide +kernel)) (by norm_num) (by decide +kernel)

/-- C17: at the ends of the domain, and for `r = 0`, `bsp.RemoveKnot` returns `t = 0` and the data
unchanged; outside the domain the wrapper rejects the call. -/
theorem C17_RemoveKnot_ends (eps : K) (jt : ℤ → E) (near : E → E → Prop) {n p : ℤ} (U : ℤ → K) (P : ℤ → E)
    (uu : K) {r : ℤ} (hn : 1 ≤ n) (hp : 1 ≤ p) (hr : 0 ≤ r) (hrp : r ≤ p) (hU : U p ≤ U (n + 1)) :
    (uu = U p ∨ uu = U (n + 1) ∨ (r = 0 ∧ U p ≤ uu ∧ uu ≤ U (n + 1)) →
      BSp.RemoveKnot eps jt near n p U P uu r = .ok (0, U, P)) ∧
    (uu < U p ∨ U (n + 1) < uu → BSp.RemoveKnot eps jt near n p U P uu r = .error .f2py) := by
  unfold BSp.RemoveKnot
  constructor
  · rintro (rfl | rfl | ⟨rfl, a, b⟩)
    · rw [if_pos ⟨hn, hp, ⟨le_rfl, hU⟩, hr, hrp⟩]
      split_ifs with c1 <;> first | rfl | (exact absurd le_rfl (by assumption))
    · rw [if_pos ⟨hn, hp, ⟨hU, le_rfl⟩, hr, hrp⟩]
      split_ifs with c1 c2 c3 <;> first | rfl | (exact absurd le_rfl (by assumption))
    · rw [if_pos ⟨hn, hp, ⟨a, b⟩, hr, hrp⟩, if_pos rfl]
  · rintro (a | a)
    · rw [if_neg]; rintro ⟨_, _, ⟨b, _⟩, _⟩; exact absurd a (not_lt.mpr b)
    · rw [if_neg]; rintro ⟨_, _, ⟨_, b⟩, _⟩; exact absurd a (not_lt.mpr b)

/-- all points equal to the test, nothing moves at the left end -/
example (P : ℤ → ℚ × ℚ) : BSp.RemoveKnot (1 / 1000) (fun _ => 9) (fun _ _ => True) 5 2 Ex.U P 0 1 =
    .ok (0, Ex.U, P) :=
  (C17_RemoveKnot_ends _ _ _ _ _ _ (by norm_num) (by norm_num) (by norm_num) (by norm_num) (by decide +kernel)).1
    (Or.inl (by decide +kernel))

end bsp

section real
variable {E : Type*} [AddCommGroup E] [Module ℝ E]

/-- C17: knots are removed only under the criterion.  If `t` copies of the value are removed then the knot
vector has lost exactly these, it is valid with the same domain, and the curve has moved by at most
`t * TOL` at every parameter, measured by the norm of the test; if none is removed the data is unchanged. -/
theorem C17_RemoveKnot_deviation {eps : ℝ} (heps : 0 < eps) (jt : ℤ → E) (ν : Seminorm ℝ E) (TOL : ℝ) {n : ℤ}
    {p : ℕ} {U : ℤ → ℝ} (hv : ValidKnots n p U) (P : ℤ → E) {uu : ℝ} (h1 : U p < uu) (h2 : uu < U (n + 1))
    (hsep : SepFrom eps uu U 0 (n + p + 1)) {r : ℕ} (hr : r ≤ mult U 0 (n + p + 1) uu)
    (hm : mult U 0 (n + p + 1) uu ≤ p) :
    ∃ (t : ℕ) (V : ℤ → ℝ) (Q : ℤ → E),
      BSp.RemoveKnot eps jt (fun a b => ν (a - b) ≤ TOL) n p U P uu r = .ok ((t : ℤ), V, Q) ∧ t ≤ r ∧
      ValidKnots (n - t) p V ∧ V p = U p ∧ V (n - t + 1) = U (n + 1) ∧
      knotMS U (n + p + 1) = knotMS V (n - t + p + 1) + Multiset.replicate t uu ∧
      (∀ x, U p ≤ x → x ≤ U (n + 1) → ν (curve (n - t) p V Q x - curve n p U P x) ≤ t * TOL) ∧
      (t = 0 → V = U ∧ Q = P) := by
  have hp := hv.one_le
  have hle := hv.le
  by_cases hr0 : r = 0
  · subst hr0
    refine ⟨0, U, P, ?_, le_rfl, ?_, rfl, ?_, ?_, ?_, fun _ => ⟨rfl, rfl⟩⟩
    · unfold BSp.RemoveKnot
      rw [if_pos ⟨by omega, hp, ⟨h1.le, h2.le⟩, by omega, by omega⟩, if_pos (by simp)]; simp
    · simpa using hv
    · simp
    · simp
    · intro x _ _; simp
  have h := RemCtx.of_valid hv h1 h2 (by omega) hm
  rw [removeKnot_res heps jt _ P h hsep (by omega) (by omega)]
  generalize findSpan n p uu U = k at *
  generalize mult U 0 (n + p + 1) uu = m at *
  have hrp := h.rp
  have hrn := h.rn
  set Good : ℕ → (ℤ → E) → Prop := fun t Q => ∀ x, U p ≤ x → x ≤ U (n + 1) →
    ν (curve (n - t) p (remKv U k t) Q x - curve n p U P x) ≤ t * TOL with hGood
  have hG0 : ∀ Q : ℤ → E, (∀ i, Q i = P i) → Good 0 Q := by
    intro Q hQ x _ _
    have e1 : remKv U k ((0 : ℕ) : ℤ) = U := by funext z; simp [remKv]
    have e2 : Q = P := funext hQ
    rw [e1, e2]; simp
  obtain ⟨t, Pw', a1, a2, a3, a4, a5, a6⟩ := remLoop_dev h ν TOL Good (by
    intro t Q C ht hQ hd x x1 x2
    have e1 := hQ x x1 x2
    have hvt := h.validKv (t := t) (by omega) (by omega)
    have e2 := curve_dev ν hvt hd (x := x) (by rw [h.lo (by omega)]; exact x1) (by rw [h.hi]; exact x2)
    rw [h.ins_curve (by omega) ht C x1 x2] at e2
    push_cast
    have e3 := map_add_le_add ν (curve (n - (t + 1)) p (remKv U k (t + 1)) C x - curve (n - t) p (remKv U k t) Q x)
      (curve (n - t) p (remKv U k t) Q x - curve n p U P x)
    rw [sub_add_sub_cancel, map_sub_rev ν (curve (n - (t + 1)) p (remKv U k (t + 1)) C x)
      (curve (n - t) p (remKv U k t) Q x)] at e3
    linarith) r 0 P jt (by omega) (hG0 _ fun i => by simp) (hG0 _ fun i => by simp)
  rw [Nat.cast_zero, sub_zero, add_zero] at a3
  unfold removeKnot
  dsimp only
  rw [Int.toNat_natCast, a3]
  by_cases ht0 : t = 0
  · subst ht0
    refine ⟨0, U, P, ?_, by omega, ?_, rfl, ?_, ?_, ?_, fun _ => ⟨rfl, rfl⟩⟩
    · rw [if_pos (by simp), a4 rfl]
    · simpa using hv
    · simp
    · simp
    · intro x _ _; simp
  · rw [if_neg (by dsimp only; omega)]
    dsimp only
    have hK : ∀ j, 0 ≤ j → j ≤ n - t + p + 1 →
        forUp (k + 1) (n + p + 1) (fun k U => upd U (k - t) (U k)) U j = remKv U k t j := fun j a b =>
      remKnots_eq U k (n + p + 1) t (by omega) (by omega) j (by omega)
    refine ⟨t, _, _, rfl, by omega, ?_, ?_, ?_, ?_, ?_, fun e => absurd e ht0⟩
    · exact validKnots_congr (h.validKv (by omega) (by omega)) hK
    · rw [hK _ (by omega) (by omega), h.lo (by omega)]
    · rw [hK _ (by omega) (by omega), h.hi]
    · rw [h.knotMS (t := t) (by omega), knotMS_congr hK]
    · intro x x1 x2
      rcases remShift_final (n := n) p k m t Pw' hrp hrn (by omega) (by omega) (by omega) with c | c
      · rw [curve_congr hK c]; exact a5 x x1 x2
      · rw [curve_congr hK c]; exact a6 x x1 x2

end real

/-! ## `NURBS.remove` -/

/-- the distance of the code as a norm -/
noncomputable def rowSem {d : ℕ} (sz : Fin d → ℤ) (nc : ℕ) : Seminorm ℝ ((Fin d → ℤ) → ℕ → ℝ) :=
  (normSeminorm ℝ (EuclideanSpace ℝ ↥(Fintype.piFinset (fun a => Finset.Ico 0 (sz a)) ×ˢ Finset.range nc))).comp
    (σ₁₂ := RingHom.id ℝ)
    { toFun := fun P => WithLp.toLp 2 (fun oc => P oc.1.1 oc.1.2)
      map_add' := fun _ _ => rfl
      map_smul' := fun _ _ => rfl }

theorem rowSem_sub {d : ℕ} (sz : Fin d → ℤ) (nc : ℕ) (P Q : (Fin d → ℤ) → ℕ → ℝ) :
    rowSem sz nc (P - Q) = rowDist sz nc P Q := by
  unfold rowSem rowDist
  rw [Seminorm.comp_apply, coe_normSeminorm, EuclideanSpace.norm_eq, ← Finset.sum_product']
  congr 1
  refine Eq.trans ?_ (Finset.sum_coe_sort (Fintype.piFinset (fun a => Finset.Ico 0 (sz a)) ×ˢ Finset.range nc)
    (fun oc => (P oc.1 oc.2 - Q oc.1 oc.2) * (P oc.1 oc.2 - Q oc.1 oc.2)))
  refine Finset.sum_congr rfl fun oc _ => ?_
  rw [Real.norm_eq_abs, sq_abs, sq]; rfl

theorem le_rowSem {d : ℕ} {sz : Fin d → ℤ} {nc : ℕ} (P : (Fin d → ℤ) → ℕ → ℝ) {o : Fin d → ℤ} {c : ℕ}
    (ho : ∀ a, 0 ≤ o a ∧ o a < sz a) (hc : c < nc) : |P o c| ≤ rowSem sz nc P := by
  have e := rowSem_sub sz nc P 0
  rw [sub_zero] at e
  rw [e]
  unfold rowDist
  rw [← Real.sqrt_sq_eq_abs]
  apply Real.sqrt_le_sqrt
  have hm : o ∈ Fintype.piFinset (fun a => Finset.Ico 0 (sz a)) := by
    rw [Fintype.mem_piFinset]; intro a; rw [Finset.mem_Ico]; exact ho a
  refine le_trans ?_ (Finset.single_le_sum (f := fun o => ∑ c ∈ Finset.range nc,
    (P o c - (0 : (Fin d → ℤ) → ℕ → ℝ) o c) * (P o c - (0 : (Fin d → ℤ) → ℕ → ℝ) o c))
    (fun o _ => Finset.sum_nonneg fun c _ => mul_self_nonneg _) hm)
  refine le_trans ?_ (Finset.single_le_sum (f := fun c =>
    (P o c - (0 : (Fin d → ℤ) → ℕ → ℝ) o c) * (P o c - (0 : (Fin d → ℤ) → ℕ → ℝ) o c))
    (fun c _ => mul_self_nonneg _) (Finset.mem_range.mpr hc))
  simp only [Pi.zero_apply, sub_zero]
  nlinarith

theorem minUpTo_nonneg {n : ℤ} {f : ℤ → ℝ} (hn : 0 ≤ n) (h : ∀ i, 0 ≤ i → i ≤ n → 0 ≤ f i) : 0 ≤ minUpTo n f := by
  unfold minUpTo
  refine forUp_inv (lo := 1) (hi := n) (s := f 0) (f := fun i m => min m (f i)) (I := fun _ m => 0 ≤ m)
    (by omega) (h 0 le_rfl hn) ?_
  intro i m a b g
  exact le_min g (h i (by omega) (by omega))

theorem minUpTo_le {n : ℤ} {f : ℤ → ℝ} (hn : 0 ≤ n) {i : ℤ} (h0 : 0 ≤ i) (hi : i ≤ n) : minUpTo n f ≤ f i := by
  unfold minUpTo
  refine forUp_inv (lo := 1) (hi := n) (s := f 0) (f := fun i m => min m (f i))
    (I := fun k m => ∀ i, 0 ≤ i → i < k → m ≤ f i) (by omega) ?_ ?_ i h0 (by omega)
  · intro i a b; rw [show i = 0 by omega]
  · intro k m a b g i c e
    by_cases hk : i = k
    · subst hk; exact min_le_right _ _
    · exact (min_le_left _ _).trans (g i c (by omega))

theorem maxUpTo_nonneg {n : ℤ} {f : ℤ → ℝ} (hn : 0 ≤ n) (h : 0 ≤ f 0) : 0 ≤ maxUpTo n f := by
  unfold maxUpTo
  refine forUp_inv (lo := 1) (hi := n) (s := f 0) (f := fun i m => max m (f i)) (I := fun _ m => 0 ≤ m)
    (by omega) h ?_
  intro i m a b g
  exact g.trans (le_max_left _ _)

variable {d : ℕ}

theorem removeTol_nonneg {N : Nrb ℝ (d + 1)} {a : Fin (d + 1)} (hn : 0 ≤ N.n a) {deviation : ℝ} (hd : 0 ≤ deviation)
    (hw : ∀ i, 0 ≤ i → i ≤ N.n a → 0 ≤ N.row a i (fun b => N.shape (a.succAbove b) - 1) (N.nc - 1)) :
    0 ≤ N.removeTol a deviation := by
  unfold Nrb.removeTol
  refine div_nonneg (mul_nonneg hd (minUpTo_nonneg hn hw)) ?_
  have := maxUpTo_nonneg (n := N.n a) (f := fun i => rowNorm (a.removeNth N.shape) N.nc (N.row a i)) hn (Real.sqrt_nonneg _)
  linarith

theorem removeTol_neg {N : Nrb ℝ (d + 1)} {a : Fin (d + 1)} {deviation : ℝ} (hd : 0 < deviation) {i : ℤ}
    (h0 : 0 ≤ i) (hi : i ≤ N.n a) (hw : N.row a i (fun b => N.shape (a.succAbove b) - 1) (N.nc - 1) < 0) :
    N.removeTol a deviation < 0 := by
  unfold Nrb.removeTol
  have := maxUpTo_nonneg (n := N.n a) (f := fun i => rowNorm (a.removeNth N.shape) N.nc (N.row a i)) (by omega) (Real.sqrt_nonneg _)
  refine div_neg_of_neg_of_pos (mul_neg_of_pos_of_neg hd ?_) (by linarith)
  exact lt_of_le_of_lt (minUpTo_le (by omega) h0 hi) hw

theorem setAxis_same (N : Nrb ℝ (d + 1)) (a : Fin (d + 1)) :
    N.setAxis a (N.shape a) (N.len a) (N.U a) (N.row a) = N := by
  unfold Nrb.setAxis Nrb.row
  obtain ⟨sh, nc, len, U, P⟩ := N
  congr 1
  · exact Function.update_eq_self _ _
  · exact Function.update_eq_self _ _
  · exact Function.update_eq_self _ _
  · funext idx; dsimp only; rw [Fin.insertNth_self_removeNth]

/-- moving all rows by at most `c` moves the map by at most `c` -/
theorem setAxis_dev {N : Nrb ℝ (d + 1)} (hv : N.Valid) {a : Fin (d + 1)} {s l : ℤ} {V : ℤ → ℝ}
    {Q : ℤ → (Fin d → ℤ) → ℕ → ℝ} {x : Fin (d + 1) → ℝ} (hx : N.InDom x) {C : ℝ}
    (h : rowSem (a.removeNth N.shape) N.nc (curve (s - 1) (l - s - 1).toNat V Q (x a) -
      curve (N.n a) (N.degree a).toNat (N.U a) (N.row a) (x a)) ≤ C) {c : ℕ} (hc : c < N.nc) :
    |(N.setAxis a s l V Q).eval x c - N.eval x c| ≤ C := by
  rw [Nrb.setAxis_eval, N.eval_split a]
  unfold tensor
  rw [Finset.sum_apply, Finset.sum_apply, ← Finset.sum_sub_distrib]
  set w : (Fin d → ℤ) → ℝ := fun o => ∏ b, bsplineD (a.removeNth N.n b) (a.removeNth N.U b)
    (a.removeNth (fun b => (N.degree b).toNat) b) (o b) (a.removeNth x b) with hw
  have hax : ∀ b : Fin d, ValidKnots (N.n (a.succAbove b)) (((N.degree (a.succAbove b)).toNat : ℕ) : ℤ)
      (N.U (a.succAbove b)) ∧ N.U (a.succAbove b) (((N.degree (a.succAbove b)).toNat : ℕ) : ℤ) ≤ x (a.succAbove b) ∧
      x (a.succAbove b) ≤ N.U (a.succAbove b) (N.n (a.succAbove b) + 1) := by
    intro b
    rw [hv.degNat, ← Nrb.hi_eq]
    exact ⟨hv _, hx _⟩
  have hw0 : ∀ o ∈ Fintype.piFinset (fun b => Finset.Icc 0 (a.removeNth N.n b)), 0 ≤ w o := by
    intro o ho
    rw [Fintype.mem_piFinset] at ho
    refine Finset.prod_nonneg fun b _ => ?_
    have hb := Finset.mem_Icc.mp (ho b)
    obtain ⟨k1, k2, k3⟩ := hax b
    exact bsplineD_nonneg k1 k2 k3 hb.1 hb.2
  have hw1 : ∑ o ∈ Fintype.piFinset (fun b => Finset.Icc 0 (a.removeNth N.n b)), w o = 1 := by
    rw [hw, ← Finset.prod_univ_sum (fun b => Finset.Icc 0 (a.removeNth N.n b))
      (fun b i => bsplineD (a.removeNth N.n b) (a.removeNth N.U b) (a.removeNth (fun b => (N.degree b).toNat) b) i
        (a.removeNth x b))]
    refine Finset.prod_eq_one fun b _ => ?_
    obtain ⟨k1, k2, k3⟩ := hax b
    exact bsplineD_sum_one k1 k2 k3
  refine (Finset.abs_sum_le_sum_abs _ _).trans ?_
  calc _ ≤ ∑ o ∈ Fintype.piFinset (fun b => Finset.Icc 0 (a.removeNth N.n b)), w o * C := by
        refine Finset.sum_le_sum fun o ho => ?_
        rw [Pi.smul_apply, Pi.smul_apply, ← smul_sub, smul_eq_mul, abs_mul, abs_of_nonneg (hw0 o ho)]
        refine mul_le_mul_of_nonneg_left (le_trans ?_ h) (hw0 o ho)
        rw [Fintype.mem_piFinset] at ho
        refine le_rowSem (sz := a.removeNth N.shape) (nc := N.nc) (_ - _) (o := o) (c := c) ?_ hc
        intro b
        have hb := Finset.mem_Icc.mp (ho b)
        have : a.removeNth N.n b = a.removeNth N.shape b - 1 := rfl
        omega
    _ = C := by rw [← Finset.sum_mul, hw1, one_mul]

/-- C17: `nrb.remove(axis,u,t)` inside the domain never fails; `k ≤ t` copies are removed, exactly these
disappear from the knots, degree, domain and other axes stay, and every homogeneous component of the map
moves by at most `k` times the tolerance of the code anywhere in the domain.  If nothing is removed the
object is unchanged. -/
theorem C17_remove_deviation {eps : ℝ} (heps : 0 < eps) (jt : ℤ → (Fin d → ℤ) → ℕ → ℝ) {N : Nrb ℝ (d + 1)}
    (hv : N.Valid) {axis : ℤ} {a : Fin (d + 1)} (ha : normAxis (d + 1) axis = .ok a) {u : ℝ} (h1 : N.lo a < u)
    (h2 : u < N.hi a) (hsep : N.Sep eps a u) (hm : (N.multOf a u : ℤ) ≤ N.degree a) (t : ℕ) (deviation : ℝ) :
    ∃ (N' : Nrb ℝ (d + 1)) (k : ℕ), N.remove eps jt axis u (some t) deviation = .ok N' ∧ k ≤ t ∧ k ≤ N.multOf a u ∧
      N'.Valid ∧ N'.nc = N.nc ∧ N'.shape = Function.update N.shape a (N.shape a - k) ∧
      N.knots a = N'.knots a + Multiset.replicate k u ∧ (∀ b, b ≠ a → N'.U b = N.U b) ∧
      (∀ b, N'.degree b = N.degree b ∧ N'.lo b = N.lo b ∧ N'.hi b = N.hi b) ∧
      (∀ x, N.InDom x → ∀ c, c < N.nc → |N'.eval x c - N.eval x c| ≤ k * N.removeTol a deviation) ∧
      (k = 0 → N' = N) := by
  obtain ⟨p, hp, hk, e⟩ := deg_nat hv a
  unfold Nrb.remove
  rw [ha, res_ok_bind]
  dsimp only
  rw [pyAssert_ok ⟨h1.le, h2.le⟩, res_ok_bind, findMult_res heps hv h1 h2 hsep hm, res_ok_bind,
    min_eq_left hm, Option.getD_some, pyAssert_ok (by omega), res_ok_bind]
  by_cases h0 : min (t : ℤ) (N.multOf a u) = 0
  · rw [if_pos h0]
    exact ⟨N, 0, rfl, by omega, by omega, hv, rfl, by simp, by simp, fun _ _ => rfl, fun _ => ⟨rfl, rfl, rfl⟩,
      fun x _ c _ => by simp, fun _ => rfl⟩
  rw [if_neg h0, if_neg (not_le.mpr h1), if_neg (not_le.mpr h2)]
  unfold Nrb.Sep at hsep
  have hmo : N.multOf a u = mult (N.U a) 0 (N.n a + p + 1) u := by unfold Nrb.multOf; rw [e]
  rw [e] at hsep
  obtain ⟨k, V, Q, g1, g2, g3, g4, g5, g6, g7, g8⟩ := C17_RemoveKnot_deviation heps jt
    (rowSem (a.removeNth N.shape) N.nc) (N.removeTol a deviation) hk (N.row a)
    (by rw [← hp]; exact h1) (by rw [← N.hi_eq]; exact h2) hsep (r := min t (N.multOf a u)) (by omega) (by omega)
  have hnear : (fun P1 P2 => rowDist (a.removeNth N.shape) N.nc P1 P2 ≤ N.removeTol a deviation) =
      (fun a_1 b => rowSem (a.removeNth N.shape) N.nc (a_1 - b) ≤ N.removeTol a deviation) := by
    funext P1 P2; rw [rowSem_sub]
  have hmin : min (t : ℤ) (N.multOf a u) = ((min t (N.multOf a u) : ℕ) : ℤ) := by simp
  have hpn : (N.degree a).toNat = p := by omega
  rw [← hp] at g1 g3 g4 g6
  rw [hnear, hmin, g1, res_ok_bind]
  dsimp only
  have es : N.shape a - k - 1 = N.n a - k := by unfold Nrb.n; ring
  have ed : N.len a - k - (N.shape a - k) - 1 = N.degree a := by unfold Nrb.degree; ring
  refine ⟨_, k, rfl, by omega, by omega, ?_, rfl, rfl, ?_, ?_, ?_, ?_, ?_⟩
  · apply Nrb.setAxis_valid _ _ _ _ _ _ (fun b _ => hv b)
    rw [es, ed]; exact g3
  · unfold Nrb.knots
    rw [Nrb.setAxis_U_self, Nrb.setAxis_len, Function.update_self,
      show N.len a - 1 = N.n a + N.degree a + 1 by rw [N.len_eq]; ring,
      show N.len a - k - 1 = N.n a - k + N.degree a + 1 by rw [N.len_eq]; ring, g6]
  · intro b hb; exact Nrb.setAxis_U_ne _ _ _ _ _ _ hb
  · intro b
    by_cases hb : b = a
    · subst hb
      refine ⟨by rw [Nrb.setAxis_degree_self, ed], ?_, ?_⟩
      · rw [Nrb.lo_eq, Nrb.setAxis_degree_self, ed, Nrb.setAxis_U_self, g4]; rfl
      · rw [Nrb.hi_eq, Nrb.setAxis_n_self, es, Nrb.setAxis_U_self, g5, Nrb.hi_eq]
    · exact ⟨Nrb.setAxis_degree_ne _ _ _ _ _ _ hb, Nrb.setAxis_lo_ne _ _ _ _ _ _ hb, Nrb.setAxis_hi_ne _ _ _ _ _ _ hb⟩
  · intro x hx c hc
    refine setAxis_dev hv hx ?_ hc
    rw [es, ed, hpn]
    exact g7 (x a) (by rw [← hp]; exact (hx a).1) (by rw [← N.hi_eq]; exact (hx a).2)
  · intro hk0
    obtain ⟨rfl, rfl⟩ := g8 hk0
    rw [hk0, Nat.cast_zero, sub_zero, sub_zero]
    exact setAxis_same N a

/-- C17: inserting `t` copies of a value by `nrb.insert` and removing them by `nrb.remove` with a
nonnegative deviation gives the shape, the knots and the control points back.  The sign hypothesis is on the
column the code takes for the weights (finding 12; with `nc = 4` it is the weights). -/
theorem C17_remove_restores {eps : ℝ} (heps : 0 < eps) (jk : ℤ → ℝ) (je jt : ℤ → (Fin d → ℤ) → ℕ → ℝ)
    {N : Nrb ℝ (d + 1)} (hv : N.Valid) {axis : ℤ} {a : Fin (d + 1)} (ha : normAxis (d + 1) axis = .ok a) {u : ℝ}
    (h1 : N.lo a < u) (h2 : u < N.hi a) (hsep : N.Sep eps a u) {t : ℕ} (ht1 : 1 ≤ t)
    (ht : ((t + N.multOf a u : ℕ) : ℤ) ≤ N.degree a) {N' : Nrb ℝ (d + 1)}
    (hins : N.insert eps jk je axis u (some t) = .ok N') {deviation : ℝ} (hd : 0 ≤ deviation)
    (hw : ∀ idx, (∀ b, 0 ≤ idx b ∧ idx b < N.shape b) → 0 ≤ N.P idx (N.nc - 1)) :
    ∃ N'', N'.remove eps jt axis u (some t) deviation = .ok N'' ∧ N''.shape = N.shape ∧ N''.len = N.len ∧
      N''.nc = N.nc ∧ (∀ b, b ≠ a → N''.U b = N.U b) ∧ (∀ b i, 0 ≤ i → i < N.len b → N''.U b i = N.U b i) ∧
      ∀ idx, (∀ b, 0 ≤ idx b ∧ idx b < N.shape b) → N''.P idx = N.P idx := by
  obtain ⟨p, hp, hk, e⟩ := deg_nat hv a
  have hmo : N.multOf a u = mult (N.U a) 0 (N.n a + p + 1) u := by unfold Nrb.multOf; rw [e]
  have hsep' : SepFrom eps u (N.U a) 0 (N.n a + p + 1) := by unfold Nrb.Sep at hsep; rwa [e] at hsep
  -- the result of the insertion
  have hN' : ∃ V Q, BSp.InsertKnot eps jk je (N.n a) (N.degree a) (N.U a) (N.row a) u t = .ok (V, Q) ∧
      N' = N.setAxis a (N.shape a + t) (N.len a + t) V Q := by
    unfold Nrb.insert at hins
    rw [ha, res_ok_bind] at hins
    dsimp only at hins
    rw [pyAssert_ok ⟨h1.le, h2.le⟩, res_ok_bind, findMult_res heps hv h1 h2 hsep (by omega), res_ok_bind,
      min_eq_left (by omega), Option.getD_some, pyAssert_ok (by omega), res_ok_bind, if_neg (by omega)] at hins
    obtain ⟨⟨V, Q⟩, g1, g2⟩ := res_bind_ok_iff.mp hins
    exact ⟨V, Q, g1, (Except.ok.inj g2).symm⟩
  obtain ⟨V, Q, g1, rfl⟩ := hN'
  have hrow : (N.setAxis a (N.shape a + t) (N.len a + t) V Q).row a = Q := Nrb.setAxis_row _ _ _ _ _ _
  obtain ⟨N1, c1, c2, c3, c4, c5, c6⟩ := C07_insert heps jk je hv ha h1 h2 hsep ht
  rw [hins] at c1
  obtain rfl := Except.ok.inj c1
  set N1 := N.setAxis a (N.shape a + t) (N.len a + t) V Q with hN1
  have hnn : N1.n a = N.n a + t := by rw [hN1, Nrb.setAxis_n_self]; unfold Nrb.n; ring
  have hlen1 : N1.len a = N.len a + t := by rw [hN1, Nrb.setAxis_len, Function.update_self]
  have hmult1 : N1.multOf a u = N.multOf a u + t := by
    have := congrArg (Multiset.count u) c5
    unfold Nrb.knots at this
    rwa [Multiset.count_add, count_knotMS, count_knotMS, Multiset.count_replicate_self] at this
  have htol : 0 ≤ N1.removeTol a deviation := by
    refine removeTol_nonneg (by have := (c2 a).le; have := (c2 a).one_le; omega) hd fun i i0 i1 => ?_
    have gi := insertKnot_res heps jk je hk (N.row a) (uu := u) (by rw [← hp]; exact h1)
      (by rw [← N.hi_eq]; exact h2) hsep' ht1 (by omega)
    rw [← hp, g1] at gi
    obtain ⟨-, hQ⟩ := Prod.mk.inj (Except.ok.inj gi)
    rw [hrow, hQ, hp]
    refine insertKnotQ_convex jk je hk (N.row a) (by rw [← hp]; exact h1) (by rw [← N.hi_eq]; exact h2) ht1
      (by omega) (S := fun q => 0 ≤ q (fun b => N1.shape (a.succAbove b) - 1) (N1.nc - 1)) ?_ ?_ i0 (by omega)
    · intro α q r h0 h1 hq hr
      simp only [Pi.add_apply, Pi.smul_apply, smul_eq_mul]
      have : 0 < 1 - α := by linarith
      positivity
    · intro j j0 j1
      refine hw (a.insertNth j fun b => N1.shape (a.succAbove b) - 1) fun b => ?_
      refine Fin.succAboveCases a ?_ (fun b => ?_) b
      · rw [Fin.insertNth_apply_same]
        have : N.n a = N.shape a - 1 := rfl
        exact ⟨j0, by omega⟩
      · rw [Fin.insertNth_apply_succAbove, hN1, Nrb.setAxis_shape, Function.update_of_ne (Fin.succAbove_ne a b)]
        have e1 := (hv (a.succAbove b)).one_le
        have e2 := (hv (a.succAbove b)).le
        unfold Nrb.n at e2
        omega
  set near : ((Fin d → ℤ) → ℕ → ℝ) → ((Fin d → ℤ) → ℕ → ℝ) → Prop := fun P1 P2 =>
    rowDist (a.removeNth N1.shape) N1.nc P1 P2 ≤ N1.removeTol a deviation with hneardef
  have hnear : ∀ P, near P P := by
    intro P
    rw [hneardef]
    dsimp only
    rw [← rowSem_sub, sub_self, map_zero]
    exact htol
  obtain ⟨V0, Q0, V2, Q2, k1, k2, k3, k4⟩ := C17_RemoveKnot_restores heps jk je jt hnear hk (N.row a) (uu := u)
    (by rw [← hp]; exact h1) (by rw [← N.hi_eq]; exact h2) hsep' ht1 (by omega)
  rw [← hp] at k1 k2 k3
  rw [g1] at k1
  obtain ⟨rfl, rfl⟩ := Prod.mk.inj (Except.ok.inj k1)
  have hsepN1 : N1.Sep eps a u := by
    intro j j0 j1
    have hmem : N1.U a j ∈ N1.knots a := by
      unfold Nrb.knots knotMS
      exact Multiset.mem_map.mpr ⟨j, by simp [j0, j1], rfl⟩
    rw [c5] at hmem
    rcases Multiset.mem_add.mp hmem with hm | hm
    · unfold Nrb.knots knotMS at hm
      obtain ⟨i, hi, e2⟩ := Multiset.mem_map.mp hm
      have hi := Finset.mem_Icc.mp (Finset.mem_def.mpr hi)
      rw [← e2]
      exact hsep i hi.1 hi.2
    · exact Or.inl (Multiset.eq_of_mem_replicate hm)
  have hle1 : (N1.multOf a u : ℤ) ≤ N1.degree a := by
    rw [c3.degree, hmult1]; push_cast; push_cast at ht; linarith
  unfold Nrb.remove
  rw [ha, res_ok_bind]
  dsimp only
  rw [pyAssert_ok ⟨by rw [c3.lo]; exact h1.le, by rw [c3.hi]; exact h2.le⟩, res_ok_bind,
    findMult_res heps c2 (by rw [c3.lo]; exact h1) (by rw [c3.hi]; exact h2) hsepN1
      hle1, res_ok_bind,
    min_eq_left hle1, Option.getD_some, hmult1,
    min_eq_left (by push_cast; omega), pyAssert_ok (by omega), res_ok_bind, if_neg (by omega),
    if_neg (by rw [c3.lo]; exact not_le.mpr h1), if_neg (by rw [c3.hi]; exact not_le.mpr h2), hnn, c3.degree, hrow]
  rw [show N1.U a = V by rw [hN1, Nrb.setAxis_U_self], k2, res_ok_bind]
  dsimp only
  have hU : ∀ b, b ≠ a → (N1.setAxis a (N1.shape a - t) (N1.len a - t) V2 Q2).U b = N.U b := by
    intro b hb
    rw [Nrb.setAxis_U_ne _ _ _ _ _ _ hb, hN1, Nrb.setAxis_U_ne _ _ _ _ _ _ hb]
  refine ⟨_, rfl, ?_, ?_, rfl, hU, ?_, ?_⟩
  · rw [Nrb.setAxis_shape, hN1, Nrb.setAxis_shape, Function.update_self, Function.update_idem, add_sub_cancel_right,
      Function.update_eq_self]
  · rw [Nrb.setAxis_len, hN1, Nrb.setAxis_len, Function.update_self, Function.update_idem, add_sub_cancel_right,
      Function.update_eq_self]
  · intro b i i0 i1
    by_cases hb : b = a
    · subst hb
      rw [Nrb.setAxis_U_self]
      exact k3 i i0 (by rw [N.len_eq] at i1; omega)
    · rw [hU b hb]
  · intro idx hidx
    have : N.n a = N.shape a - 1 := rfl
    have q := k4 (idx a) (hidx a).1 (by have := (hidx a).2; omega)
    have : (N1.setAxis a (N1.shape a - t) (N1.len a - t) V2 Q2).P idx = Q2 (idx a) (a.removeNth idx) := rfl
    rw [this, q]
    unfold Nrb.row
    rw [Fin.insertNth_self_removeNth]

/-- C17: at the ends of the domain `nrb.remove` returns the object unchanged, whatever the count and the
deviation; for values outside the domain it fails an assertion. -/
theorem C17_remove_ends (eps : ℝ) (jt : ℤ → (Fin d → ℤ) → ℕ → ℝ) {N : Nrb ℝ (d + 1)} (hv : N.Valid) {axis : ℤ}
    {a : Fin (d + 1)} (ha : normAxis (d + 1) axis = .ok a) (u : ℝ) (times : Option ℤ)
    (ht : ∀ t, times = some t → 0 ≤ t) (deviation : ℝ) :
    (u = N.lo a ∨ u = N.hi a → N.remove eps jt axis u times deviation = .ok N) ∧
    (u < N.lo a ∨ N.hi a < u → N.remove eps jt axis u times deviation = .error .assertion) := by
  have hp := (hv a).one_le
  have hpn := (hv a).le
  have hdom : N.lo a ≤ N.hi a := by
    rw [N.hi_eq]
    exact ((hv a).sorted _ _ (by omega) (by omega) (by omega)).trans (hv a).last.le
  unfold Nrb.remove
  rw [ha, res_ok_bind]
  dsimp only
  constructor
  · intro hu
    have hin : N.lo a ≤ u ∧ u ≤ N.hi a := by
      rcases hu with rfl | rfl
      · exact ⟨le_rfl, hdom⟩
      · exact ⟨hdom, le_rfl⟩
    have hFM : ∃ m, 0 ≤ m ∧ BSp.FindMult eps (N.degree a) (N.len a - 1) (N.U a) u = .ok m := by
      unfold BSp.FindMult
      rw [if_pos ⟨hp, by rw [N.len_eq]; omega⟩]
      exact ⟨_, findMult_nonneg _ _ _ _ _, rfl⟩
    obtain ⟨m, hm0, hm⟩ := hFM
    have hmp : 0 ≤ min m (N.degree a) := le_min hm0 (by omega)
    have hpos : min (times.getD (min m (N.degree a))) (min m (N.degree a)) ≥ 0 := by
      refine le_min ?_ hmp
      cases times with
      | none => exact hmp
      | some t => exact ht t rfl
    rw [pyAssert_ok hin, res_ok_bind, hm, res_ok_bind, pyAssert_ok hpos, res_ok_bind]
    rcases hu with rfl | rfl
    · split_ifs <;> first | rfl | (exact absurd le_rfl (by assumption))
    · split_ifs <;> first | rfl | (exact absurd le_rfl (by assumption))
  · intro hu
    have hout : ¬ (N.lo a ≤ u ∧ u ≤ N.hi a) := by
      rintro ⟨b, c⟩
      rcases hu with h | h
      · exact absurd h (not_lt.mpr b)
      · exact absurd h (not_lt.mpr c)
    rw [pyAssert_err hout]; rfl

/-- C17: a value that is not a knot: nothing is removed. -/
theorem C17_remove_not_knot {eps : ℝ} (heps : 0 < eps) (jt : ℤ → (Fin d → ℤ) → ℕ → ℝ) {N : Nrb ℝ (d + 1)}
    (hv : N.Valid) {axis : ℤ} {a : Fin (d + 1)} (ha : normAxis (d + 1) axis = .ok a) {u : ℝ} (h1 : N.lo a < u)
    (h2 : u < N.hi a) (hsep : N.Sep eps a u) (hm : N.multOf a u = 0) (t : ℕ) (deviation : ℝ) :
    N.remove eps jt axis u (some t) deviation = .ok N := by
  obtain ⟨N', k, g1, _, g2, g⟩ := C17_remove_deviation heps jt hv ha h1 h2 hsep
    (by have := (hv a).one_le; omega) t deviation
  rw [g1, g.2.2.2.2.2.2.2 (by omega)]

/-- C17: the column taken for the weights is the last component.  If it has a negative entry in the last
position of some row (a field value, say) the tolerance is negative and no knot is removed, not even one that
was just inserted. -/
theorem C17_negative_column {eps : ℝ} (heps : 0 < eps) (jt : ℤ → (Fin d → ℤ) → ℕ → ℝ) {N : Nrb ℝ (d + 1)}
    (hv : N.Valid) {axis : ℤ} {a : Fin (d + 1)} (ha : normAxis (d + 1) axis = .ok a) {u : ℝ} (h1 : N.lo a < u)
    (h2 : u < N.hi a) (hsep : N.Sep eps a u) (hm : (N.multOf a u : ℤ) ≤ N.degree a) (hnc : 1 ≤ N.nc) (t : ℕ)
    {deviation : ℝ} (hd : 0 < deviation) {i : ℤ} (h0 : 0 ≤ i) (hi : i ≤ N.n a)
    (hw : N.row a i (fun b => N.shape (a.succAbove b) - 1) (N.nc - 1) < 0) :
    N.remove eps jt axis u (some t) deviation = .ok N := by
  obtain ⟨N', k, g1, _, _, _, _, _, _, _, _, g2, g3⟩ := C17_remove_deviation heps jt hv ha h1 h2 hsep hm t deviation
  have htol := removeTol_neg (N := N) hd h0 hi hw
  rcases Nat.eq_zero_or_pos k with hk | hk
  · rw [g1, g3 hk]
  · exfalso
    have hx : N.InDom N.lo := fun b => ⟨le_rfl, by
      have := (hv b).one_le
      have := (hv b).le
      rw [N.hi_eq]
      exact ((hv b).sorted _ _ (by omega) (by omega) (by omega)).trans
        (((hv b).last.le))⟩
    have e := g2 _ hx 0 hnc
    have : (k : ℝ) * N.removeTol a deviation < 0 := mul_neg_of_pos_of_neg (by exact_mod_cast hk) htol
    exact absurd (abs_nonneg _) (not_le.mpr (lt_of_le_of_lt e this))

/-! ## a concrete object -/

namespace Ex

/-- quadratic curve over ℝ with the interior knot 1, four control points -/
noncomputable def RcOf (nc : ℕ) (P : (Fin 1 → ℤ) → ℕ → ℝ) : Nrb ℝ 1 where
  shape := fun _ => 4
  nc := nc
  len := fun _ => 7
  U := fun _ i => if i ≤ 2 then 0 else if i ≤ 3 then 1 else 2
  P := P

section
variable (nc : ℕ) (P : (Fin 1 → ℤ) → ℕ → ℝ) (a : Fin 1)

theorem Rc_n : (RcOf nc P).n a = 3 := by simp [Nrb.n, RcOf]
theorem Rc_degree : (RcOf nc P).degree a = 2 := by simp [Nrb.degree, RcOf]

theorem Rc_valid : (RcOf nc P).Valid := by
  intro a
  rw [Rc_n, Rc_degree]
  refine ⟨by norm_num, by norm_num, sortedOn_of_steps ?_, ?_, ?_⟩
  · intro i h1 h2
    have h2 : i < 6 := by simpa using h2
    interval_cases i <;> norm_num [RcOf]
  · norm_num [RcOf]
  · norm_num [RcOf]

theorem Rc_lo : (RcOf nc P).lo a = 0 := by rw [Nrb.lo_eq, Rc_degree]; norm_num [RcOf]
theorem Rc_hi : (RcOf nc P).hi a = 2 := by rw [Nrb.hi_eq, Rc_n]; norm_num [RcOf]

theorem Rc_sep : (RcOf nc P).Sep (1 / 1000) a 1 := by
  intro j h1 h2
  have h2 : j ≤ 6 := by simpa [RcOf] using h2
  interval_cases j <;> norm_num [RcOf]

theorem Rc_mult : (RcOf nc P).multOf a 1 = 1 := by
  unfold Nrb.multOf mult
  rw [show (RcOf nc P).len a - 1 = 6 by simp [RcOf], Finset.card_eq_one]
  refine ⟨3, ?_⟩
  ext j
  rw [Finset.mem_filter, Finset.mem_Icc, Finset.mem_singleton]
  constructor
  · rintro ⟨⟨a, b⟩, c⟩
    interval_cases j <;> first | rfl | norm_num [RcOf] at c
  · rintro rfl
    norm_num [RcOf]

end

/-- with weights -/
noncomputable abbrev Rc : Nrb ℝ 1 := RcOf 4 (fun idx c => if c = 3 then 1 + (idx 0) ^ 2 else (idx 0) ^ (c + 1))

/-- with a field that is negative at the last control point -/
noncomputable abbrev Rf : Nrb ℝ 1 := RcOf 5 (fun idx c => if c = 4 then -(idx 0 : ℝ) else 1)

end Ex

/-- the hypotheses of `C17_remove_deviation` hold for the quadratic curve and its interior knot -/
example (jt : ℤ → (Fin 0 → ℤ) → ℕ → ℝ) (deviation : ℝ) : ∃ (N' : Nrb ℝ 1) (k : ℕ),
    Ex.Rc.remove (1 / 1000) jt (-1) 1 (some 2) deviation = .ok N' ∧ k ≤ 1 ∧
    ∀ x, Ex.Rc.InDom x → ∀ c, c < 4 → |N'.eval x c - Ex.Rc.eval x c| ≤ k * Ex.Rc.removeTol 0 deviation := by
  obtain ⟨N', k, g1, _, g2, _, _, _, _, _, _, g3, _⟩ := C17_remove_deviation (by norm_num) jt (N := Ex.Rc) (Ex.Rc_valid _ _)
    (axis := -1) (a := 0) (by decide) (u := 1) (by rw [Ex.Rc_lo]; norm_num) (by rw [Ex.Rc_hi]; norm_num)
    (Ex.Rc_sep _ _ 0) (by rw [Ex.Rc_mult, Ex.Rc_degree]; norm_num) 2 deviation
  rw [Ex.Rc_mult 4] at g2
  exact ⟨N', k, g1, g2, g3⟩

/-- insertion of a second copy of the knot 1 and its removal -/
example (jk : ℤ → ℝ) (je jt : ℤ → (Fin 0 → ℤ) → ℕ → ℝ) : ∃ N' N'',
    Ex.Rc.insert (1 / 1000) jk je 0 1 (some 1) = .ok N' ∧ N'.remove (1 / 1000) jt 0 1 (some 1) 0 = .ok N'' ∧
    N''.shape = Ex.Rc.shape ∧ ∀ idx, (∀ b, 0 ≤ idx b ∧ idx b < 4) → N''.P idx = Ex.Rc.P idx := by
  obtain ⟨N', h, -⟩ := C07_insert (by norm_num) jk je (N := Ex.Rc) (Ex.Rc_valid _ _)
    (axis := 0) (a := 0) (by decide) (u := 1) (by rw [Ex.Rc_lo]; norm_num) (by rw [Ex.Rc_hi]; norm_num)
    (Ex.Rc_sep _ _ 0) (t := 1) (by rw [Ex.Rc_mult, Ex.Rc_degree]; norm_num)
  obtain ⟨N'', g1, g2, _, _, _, _, g3⟩ := C17_remove_restores (by norm_num) jk je jt (N := Ex.Rc) (Ex.Rc_valid _ _)
    (axis := 0) (a := 0) (by decide) (u := 1) (by rw [Ex.Rc_lo]; norm_num) (by rw [Ex.Rc_hi]; norm_num)
    (Ex.Rc_sep _ _ 0) (t := 1) le_rfl (by rw [Ex.Rc_mult, Ex.Rc_degree]; norm_num) h le_rfl
    (fun idx _ => by simp [Ex.RcOf]; positivity)
  exact ⟨N', N'', h, g1, g2, g3⟩

/-- outside the domain, and at its left end -/
example (jt : ℤ → (Fin 0 → ℤ) → ℕ → ℝ) : Ex.Rc.remove (1 / 1000) jt 0 3 none 1 = .error .assertion ∧
    Ex.Rc.remove (1 / 1000) jt 0 0 none 1 = .ok Ex.Rc :=
  ⟨(C17_remove_ends _ jt (N := Ex.Rc) (Ex.Rc_valid _ _) (a := 0) (by decide) 3 none (by simp) 1).2 (Or.inr (by rw [Ex.Rc_hi]; norm_num)),
    (C17_remove_ends _ jt (N := Ex.Rc) (Ex.Rc_valid _ _) (a := 0) (by decide) 0 none (by simp) 1).1 (Or.inl (by rw [Ex.Rc_lo]))⟩

/-- a field that is negative at the last control point: nothing is removed -/
example (jt : ℤ → (Fin 0 → ℤ) → ℕ → ℝ) : Ex.Rf.remove (1 / 1000) jt 0 1 (some 1) 1 = .ok Ex.Rf :=
  C17_negative_column (by norm_num) jt (N := Ex.Rf) (Ex.Rc_valid _ _) (a := 0) (by decide)
    (by rw [Ex.Rc_lo]; norm_num) (by rw [Ex.Rc_hi]; norm_num) (Ex.Rc_sep _ _ 0)
    (by rw [Ex.Rc_mult, Ex.Rc_degree]; norm_num) (by norm_num [Ex.RcOf]) 1 one_pos (i := 3) (by norm_num)
    (Ex.Rc_n _ _ 0).ge (by simp [Nrb.row, Ex.RcOf])

end Igakit
