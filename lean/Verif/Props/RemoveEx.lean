import Verif.Props.RemovePts
import Mathlib.Tactic.IntervalCases

/-!
# C17: weights and `deviation`
-/

set_option linter.unusedSectionVars false

namespace Igakit
open Spec

/-- a point far away with small weights, the middle weight slightly larger: homogeneous net -/
noncomputable def Ex.farP (i : ℤ) : ℕ → ℝ := fun c =>
  if c = 0 then 1 / 10 else if c = 3 then (if i = 1 then 1 / 1000 + 1 / 1100 else 1 / 1000) else 0

/-- a polygon of three points `(100,0,0)`, `(52.38...,0,0)`, `(100,0,0)` with weights 0.001, 0.0019..., 0.001 -/
noncomputable def Ex.far : Nrb ℝ 1 where
  shape := ![3]
  nc := 4
  len := ![5]
  U := ![vec [0, 0, 1, 2, 2]]
  P := fun idx => Ex.farP (idx 0)

theorem Ex.far_valid : Ex.far.Valid := by
  intro a
  fin_cases a
  show ValidKnots 2 1 (vec [0, 0, 1, 2, 2])
  refine ⟨by norm_num, by norm_num, Ex.sortedOn_of_steps ?_, by simp [vec], by simp [vec]⟩
  intro i h1 h2
  have h2 : i < 4 := by simpa using h2
  interval_cases i <;> simp [vec]

theorem Ex.far_row (i : ℤ) (o : Fin 0 → ℤ) (c : ℕ) : Ex.far.row 0 i o c = Ex.farP i c := by
  unfold Nrb.row Ex.far
  dsimp only
  rw [Fin.insertNth_apply_same]

theorem Ex.far_tol : Ex.far.removeTol 0 1 = 1 / 1100 := by
  have hn : ∀ i, rowNorm ((0 : Fin 1).removeNth Ex.far.shape) Ex.far.nc (Ex.far.row 0 i) = 1 / 10 := by
    intro i
    unfold rowNorm
    have e : ∀ s : Finset ((Fin 0 → ℤ) × ℕ), s = (Finset.univ ×ˢ Finset.range 4).erase (fun a => a.elim0, 3) →
        ∑ oc ∈ s, Ex.far.row 0 i oc.1 oc.2 * Ex.far.row 0 i oc.1 oc.2 = (1 / 10) ^ 2 := by
      rintro s rfl
      rw [Finset.sum_erase_eq_sub (Finset.mem_product.2 ⟨Finset.mem_univ _, by simp⟩), Finset.sum_product]
      simp only [Ex.far_row, Finset.univ_unique, Finset.sum_singleton, Finset.sum_range_succ, Finset.sum_range_zero]
      simp [Ex.farP]
      norm_num
    rw [e, Real.sqrt_sq (by norm_num)]
    congr 1
    · ext x
      simp [Ex.far]
    · congr 1
      funext a
      exact a.elim0
  unfold Nrb.removeTol
  dsimp only
  have hmax : maxUpTo (Ex.far.n 0) (fun i => rowNorm ((0 : Fin 1).removeNth Ex.far.shape) Ex.far.nc (Ex.far.row 0 i)) = 1 / 10 := by
    unfold maxUpTo
    simp only [hn]
    refine forUp_inv (lo := 1) (hi := _) (s := (1 / 10 : ℝ)) (f := fun i m => max m (1 / 10)) (I := fun _ m => m = 1 / 10)
      (by show (1 : ℤ) ≤ 3 - 1 + 1; norm_num) rfl ?_
    intro i m _ _ h
    rw [h, max_self]
  have hmin : minUpTo (Ex.far.n 0) (fun i => Ex.far.row 0 i (fun b => (0 : Fin 1).removeNth Ex.far.shape b - 1) (Ex.far.nc - 1)) = 1 / 1000 := by
    apply le_antisymm
    · exact (minUpTo_le (by show (0 : ℤ) ≤ 3 - 1; norm_num) le_rfl (by show (0 : ℤ) ≤ 3 - 1; norm_num)).trans
        (le_of_eq (by
          rw [Ex.far_row]
          simp [Ex.farP, Ex.far]))
    · unfold minUpTo
      have hf : ∀ i, (1 / 1000 : ℝ) ≤ Ex.far.row 0 i (fun b => (0 : Fin 1).removeNth Ex.far.shape b - 1) (Ex.far.nc - 1) := by
        intro i
        rw [Ex.far_row, show Ex.far.nc - 1 = 3 from rfl]
        unfold Ex.farP
        split_ifs <;> norm_num at *
      refine forUp_inv (lo := 1) (hi := _) (I := fun _ m => (1 / 1000 : ℝ) ≤ m)
        (by show (1 : ℤ) ≤ 3 - 1 + 1; norm_num) (hf 0) ?_
      intro i m _ _ h
      exact le_min h (hf i)
  rw [hmax, hmin]
  norm_num

/-- C17: `deviation` does not bound the movement of the points of a rational curve.  The tolerance is computed with
the weighted coordinates instead of the coordinates of the points.  Here a point moves by more than 40 when
`deviation` is 1. -/
theorem C17_rational_exceeds {eps : ℝ} (h0 : 0 < eps) (h1 : eps ≤ 1) (jt : ℤ → (Fin 0 → ℤ) → ℕ → ℝ) :
    ∃ N N' : Nrb ℝ 1, N.Valid ∧ N.nc = 4 ∧ (∀ idx, N.InNet idx → 0 < N.P idx 3) ∧
      N.remove eps jt 0 1 (some 1) 1 = .ok N' ∧ (∀ idx, N'.InNet idx → 0 < N'.P idx 3) ∧
      ∃ x, N.InDom x ∧ 40 < |N'.point x 0 - N.point x 0| := by
  have hv := Ex.far_valid
  have hk : ValidKnots 2 ((1 : ℕ) : ℤ) (vec [0, 0, 1, 2, 2] : ℤ → ℝ) := hv 0
  have hsep : SepFrom eps 1 (vec [0, 0, 1, 2, 2] : ℤ → ℝ) 0 (2 + (1 : ℕ) + 1) := by
    intro j j0 j1
    have j1 : j ≤ 4 := by simpa using j1
    interval_cases j <;> simp [vec] <;> norm_num <;> linarith
  have hctx : RemCtx 2 1 (vec [0, 0, 1, 2, 2] : ℤ → ℝ) 1 2 1 := by
    refine ⟨hk, by norm_num, by norm_num, by norm_num, by norm_num, ?_, ?_, ?_⟩
    · intro j j0 j1
      have j1 : j ≤ 1 := by simpa using j1
      interval_cases j <;> simp [vec]
    · intro j j0 j1
      obtain rfl : j = 2 := by omega
      simp [vec]
    · intro j j0 j1
      have j1 : j ≤ 4 := by simpa using j1
      interval_cases j <;> simp [vec]
  have hlo : Ex.far.lo 0 = 0 := by simp [Nrb.lo, Nrb.degree, Ex.far, vec]
  have hhi : Ex.far.hi 0 = 2 := by simp [Nrb.hi_eq, Nrb.n, Ex.far, vec]
  have hmo : Ex.far.multOf 0 1 = 1 := by
    have := hctx.mult_eq
    exact_mod_cast this
  have hfm := findMult_res h0 hv (a := 0) (u := 1) (by rw [hlo]; norm_num) (by rw [hhi]; norm_num) hsep (by
    rw [hmo]; decide)
  -- the removal
  have hrem : ∃ V Q, BSp.RemoveKnot eps jt (fun P1 P2 => rowDist ((0 : Fin 1).removeNth Ex.far.shape) Ex.far.nc P1 P2 ≤ 1 / 1100)
      2 ((1 : ℕ) : ℤ) (vec [0, 0, 1, 2, 2] : ℤ → ℝ) (Ex.far.row 0) 1 1 = .ok (1, V, Q) ∧
      ∀ i, 0 ≤ i → i ≤ 1 → ∀ o c, Q i o c = Ex.farP 0 c := by
    rw [removeKnot_res h0 jt _ (Ex.far.row 0) hctx hsep (by norm_num) (by norm_num)]
    unfold removeKnot
    dsimp only
    obtain ⟨r1, -, -, r4⟩ := rem_round (vec [0, 0, 1, 2, 2] : ℤ → ℝ) 1 1 0 1 1
      (fun P1 P2 => rowDist ((0 : Fin 1).removeNth Ex.far.shape) Ex.far.nc P1 P2 ≤ 1 / 1100) (Ex.far.row 0) jt le_rfl
      (h := 0) (by norm_num) (by norm_num)
    have hflag := r1.2 (by
      rw [if_neg (by norm_num)]
      have e : ∀ o c, (Ex.far.row 0 (1 + ((0 : ℕ) : ℤ)) - (remAlfi (vec [0, 0, 1, 2, 2] : ℤ → ℝ) 1 1 0 (1 + ((0 : ℕ) : ℤ)) •
          remR (vec [0, 0, 1, 2, 2] : ℤ → ℝ) 1 1 0 1 (Ex.far.row 0) 0 +
          (1 - remAlfi (vec [0, 0, 1, 2, 2] : ℤ → ℝ) 1 1 0 (1 + ((0 : ℕ) : ℤ))) •
          remL (vec [0, 0, 1, 2, 2] : ℤ → ℝ) 1 1 0 1 (Ex.far.row 0) 0)) o c = if c = 3 then 1 / 1100 else 0 := by
        intro o c
        have ha : remAlfi (vec [0, 0, 1, 2, 2] : ℤ → ℝ) 1 1 0 (1 + ((0 : ℕ) : ℤ)) = 1 / 2 := by
          rw [show (1 : ℤ) + ((0 : ℕ) : ℤ) = 1 from rfl]
          unfold remAlfi
          rw [show (1 : ℤ) + (1 + 1) + 0 = 3 from rfl, show (vec [0, 0, 1, 2, 2] : ℤ → ℝ) 1 = 0 from rfl,
            show (vec [0, 0, 1, 2, 2] : ℤ → ℝ) 3 = 2 from rfl]
          norm_num
        simp only [ha, remL, remR, Pi.sub_apply, Pi.add_apply, Pi.smul_apply, smul_eq_mul, Ex.far_row]
        unfold Ex.farP
        by_cases c0 : c = 0
        · subst c0; norm_num
        · by_cases c3 : c = 3
          · subst c3; norm_num
          · simp [c0, c3]
      rw [← rowSem_sub]
      have e2 := rowSem_sub ((0 : Fin 1).removeNth Ex.far.shape) Ex.far.nc (fun _ c => if c = 3 then 1 / 1100 else 0) 0
      rw [sub_zero] at e2
      rw [show (_ - _ : (Fin 0 → ℤ) → ℕ → ℝ) = _ from funext fun o => funext fun c => e o c, e2]
      unfold rowDist
      rw [show (1 / 1100 : ℝ) = Real.sqrt ((1 / 1100) ^ 2) from (Real.sqrt_sq (by norm_num)).symm]
      apply Real.sqrt_le_sqrt
      simp [Finset.sum_range_succ, Ex.far]
      norm_num)
    have hloop : remLoop (vec [0, 0, 1, 2, 2] : ℤ → ℝ) 1 ((1 : ℕ) : ℤ)
        (fun P1 P2 => rowDist ((0 : Fin 1).removeNth Ex.far.shape) Ex.far.nc P1 P2 ≤ 1 / 1100) (1 : ℤ).toNat 0
        (2 - ((1 : ℕ) : ℤ)) (2 - 1) (Ex.far.row 0) jt = (1, Ex.far.row 0) := by
      show remLoop _ 1 1 _ (0 + 1) 0 1 1 _ _ = _
      unfold remLoop
      dsimp only
      rw [if_pos hflag]
      unfold remLoop
      refine Prod.ext rfl (funext fun i => ?_)
      exact r4 i (by simp; omega)
    rw [hloop]
    dsimp only
    rw [if_neg (by norm_num)]
    refine ⟨_, _, rfl, fun i i0 i1 o c => ?_⟩
    have key : ∀ i : ℤ, (if i ≤ remA 1 2 1 1 then Ex.far.row 0 i else Ex.far.row 0 (i + 1)) =
        if i < remB 1 2 1 1 then Ex.far.row 0 i else Ex.far.row 0 (i + 1) := by
      intro i
      have : (i ≤ remA 1 2 1 1) = (i < remB 1 2 1 1) := by
        unfold remA remB
        norm_num
        omega
      simp only [this]
    have hfin : ∀ i, 0 ≤ i → i ≤ 2 - 1 → remShift 2 (remIdx (Int.tdiv (2 * 2 - 1 - ((1 : ℕ) : ℤ)) 2) 1) (Ex.far.row 0) i =
        if i < remB 1 2 1 1 then Ex.far.row 0 i else Ex.far.row 0 (i + 1) := by
      rcases remShift_final (n := 2) 1 2 1 1 (Ex.far.row 0) (by norm_num) (by norm_num) (by norm_num) (by norm_num)
        (by norm_num) with h | h
      · intro i a b
        rw [← key]
        exact h i a b
      · exact h
    rw [hfin i i0 i1]
    have : i = 0 ∨ i = 1 := by omega
    rcases this with rfl | rfl
    · rw [if_pos (by decide), Ex.far_row]
    · rw [if_neg (by decide), Ex.far_row]
      rfl
  obtain ⟨V, Q, hR, hQ⟩ := hrem
  have hres : Ex.far.remove eps jt 0 1 (some 1) 1 = .ok (Ex.far.setAxis 0 2 4 V Q) := by
    unfold Nrb.remove
    rw [show normAxis (0 + 1) 0 = .ok 0 from rfl, res_ok_bind]
    dsimp only
    rw [pyAssert_ok ⟨by rw [hlo]; norm_num, by rw [hhi]; norm_num⟩, res_ok_bind, hfm, res_ok_bind, hmo, Ex.far_tol]
    rw [show min (((1 : ℕ) : ℤ)) (Ex.far.degree 0) = 1 from rfl, Option.getD_some, min_self,
      pyAssert_ok (by norm_num), res_ok_bind, if_neg (by norm_num), if_neg (by rw [hlo]; norm_num),
      if_neg (by rw [hhi]; norm_num)]
    rw [show BSp.RemoveKnot eps jt _ (Ex.far.n 0) (Ex.far.degree 0) (Ex.far.U 0) (Ex.far.row 0) 1 1 = _ from hR, res_ok_bind]
    rfl
  obtain ⟨N', k, g1, -, -, g2, -, -, -, -, g3, -⟩ := C17_remove_deviation h0 jt hv (axis := 0) (a := 0) rfl (u := 1)
    (by rw [hlo]; norm_num) (by rw [hhi]; norm_num) hsep (by rw [hmo]; decide) 1 1
  have e1 : N' = Ex.far.setAxis 0 2 4 V Q := by
    rw [Nat.cast_one, hres] at g1
    injection g1 with g1
    exact g1.symm
  subst e1
  have hP : ∀ idx, (Ex.far.setAxis 0 2 4 V Q).InNet idx → ∀ c, (Ex.far.setAxis 0 2 4 V Q).P idx c = Ex.farP 0 c := by
    intro idx hidx c
    have h := hidx 0
    have e : (Ex.far.setAxis 0 2 4 V Q).shape 0 = 2 := rfl
    rw [e] at h
    exact hQ (idx 0) h.1 (by omega) _ c
  have hx : Ex.far.InDom (fun _ => 1) := by
    intro a
    fin_cases a
    show Ex.far.lo 0 ≤ 1 ∧ 1 ≤ Ex.far.hi 0
    rw [hlo, hhi]; norm_num
  have hx' : (Ex.far.setAxis 0 2 4 V Q).InDom (fun _ => 1) := by
    intro a
    rw [(g3 a).2.1, (g3 a).2.2]
    exact hx a
  have ev' : ∀ c, (Ex.far.setAxis 0 2 4 V Q).eval (fun _ => 1) c = Ex.farP 0 c := by
    intro c
    rw [Nrb.eval_apply]
    rw [Finset.sum_congr rfl (g := fun idx => (Ex.far.setAxis 0 2 4 V Q).wt (fun _ => 1) idx * Ex.farP 0 c), ← Finset.sum_mul,
      Nrb.wt_sum g2 hx', one_mul]
    intro idx hidx
    rw [hP idx (fun a => by
      have := Finset.mem_Icc.1 (Fintype.mem_piFinset.1 hidx a)
      unfold Nrb.n at this
      omega)]
  refine ⟨Ex.far, _, hv, rfl, fun idx _ => ?_, hres, fun idx hidx => ?_, fun _ => 1, hx, ?_⟩
  · show 0 < Ex.farP (idx 0) 3
    unfold Ex.farP
    split_ifs <;> norm_num at *
  · rw [hP idx hidx]
    norm_num [Ex.farP]
  · have ev : ∀ c, Ex.far.eval (fun _ => 1) c = Ex.farP 1 c := by
      intro c
      have u0 : (vec [0, 0, 1, 2, 2] : ℤ → ℝ) 0 = 0 := rfl
      have u1 : (vec [0, 0, 1, 2, 2] : ℤ → ℝ) 1 = 0 := rfl
      have u2 : (vec [0, 0, 1, 2, 2] : ℤ → ℝ) 2 = 1 := rfl
      have u3 : (vec [0, 0, 1, 2, 2] : ℤ → ℝ) 3 = 2 := rfl
      have u4 : (vec [0, 0, 1, 2, 2] : ℤ → ℝ) 4 = 2 := rfl
      have b : ∀ i, 0 ≤ i → i ≤ 2 → bsplineD 2 (vec [0, 0, 1, 2, 2] : ℤ → ℝ) 1 i 1 = if i = 1 then 1 else 0 := by
        intro i a b
        interval_cases i <;> norm_num [bsplineD, bspline, coxDB, u0, u1, u2, u3, u4]
      rw [Nrb.eval_apply]
      rw [Finset.sum_eq_single (fun _ => 1)]
      · have : Ex.far.wt (fun _ => 1) (fun _ => 1) = 1 := by
          unfold Nrb.wt
          rw [Fin.prod_univ_one]
          exact b 1 (by norm_num) (by norm_num)
        rw [this, one_mul]
        rfl
      · intro idx hidx hne
        have h := Finset.mem_Icc.1 (Fintype.mem_piFinset.1 hidx 0)
        have : Ex.far.wt (fun _ => 1) idx = 0 := by
          unfold Nrb.wt
          rw [Fin.prod_univ_one]
          refine (b (idx 0) h.1 h.2).trans (if_neg fun e => hne (funext fun a => ?_))
          rw [Fin.fin_one_eq_zero a]
          exact e
        rw [this, zero_mul]
      · intro h
        refine absurd (Fintype.mem_piFinset.2 fun a => Finset.mem_Icc.2 ?_) h
        fin_cases a
        exact ⟨by norm_num, by show (1 : ℤ) ≤ 3 - 1; norm_num⟩
    unfold Nrb.point Nrb.proj
    rw [ev, ev', ev, ev']
    norm_num [Ex.farP]

/-- a polygon without weights -/
noncomputable def Ex.poly : Nrb ℝ 1 :=
  { Ex.far with P := fun idx c => if c = 3 then 1 else if c = 0 then idx 0 else if c = 1 ∧ idx 0 = 1 then 1 / 20 else 0 }

example (jt : ℤ → (Fin 0 → ℤ) → ℕ → ℝ) := C17_remove_points (eps := 1 / 1000) (by norm_num) jt (N := Ex.poly)
  Ex.far_valid (axis := -1) (a := 0) rfl (u := 1)
  (by show Ex.far.lo 0 < 1; simp [Nrb.lo, Nrb.degree, Ex.far, vec])
  (by show 1 < Ex.far.hi 0; simp [Nrb.hi_eq, Nrb.n, Ex.far, vec])
  (by
    intro j j0 j1
    have j1 : j ≤ 5 - 1 := j1
    show Ex.far.U 0 j = 1 ∨ _ ≤ |1 - Ex.far.U 0 j|
    interval_cases j <;> simp [Ex.far, vec] <;> norm_num)
  (by
    rw [multOf_eq_count, show Ex.poly.degree 0 = 1 from rfl]
    have : Ex.poly.knots 0 = {0, 0, 1, 2, 2} := rfl
    rw [this]
    norm_num)
  1 (deviation := 1 / 10) (by norm_num) rfl (fun _ _ => rfl)

end Igakit
