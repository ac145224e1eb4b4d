import Verif.Proofs.Elevate32
import Verif.Proofs.HullNrb

/-!
# Property C89: degree elevation and 32 bit integers

The binomial coefficients of `DegreeElevate` are computed in `integer(kind=4)`.  Up to final degree 29 every product fits and
`elevate` does what the model with unbounded integers does, so the other theorems on degree elevation apply to it.  From final
degree 30 on the computation overflows.  At final degree 30 a constant component (such as unit weights) of an object with one
span gets a negative coefficient, and the map is another one.
-/

set_option linter.unusedSectionVars false

namespace Igakit
open Spec

/-- C89: up to degree 29 the products of `Bin` fit in 32 bits and both versions return the binomial coefficient -/
theorem C89_bin {n k : ℕ} (hn : n ≤ 29) (h : k ≤ n) :
    elevBinC n k = some (n.choose k : ℕ) ∧ elevBin32 n k = (n.choose k : ℕ) :=
  ⟨elevBinC_eq hn h, elevBin32_eq hn h⟩

/-- C89: from degree 30 on the middle coefficients overflow; `DegreeElevate` calls `Bin(ph, 15)` whenever `ph ≥ 30` -/
theorem C89_overflow {n k : ℕ} (h1 : 15 ≤ k) (h2 : k + 15 ≤ n) : elevBinC n k = none :=
  elevBinC_none h1 h2

variable {K : Type} [Field K] [LinearOrder K] [IsStrictOrderedRing K] {d : ℕ}

/-- C89: while the final degree is at most 29, `elevate` with 32 bit integers is `elevate`, for every argument -/
theorem C89_same (eps : K) (jk : ℤ → K) (je : ℤ → (Fin d → ℤ) → ℕ → K) (jb : ℤ → ℤ → K) (N : Nrb K (d + 1)) (axis : ℤ)
    (times : Option ℤ) (h : ∀ a t, normAxis (d + 1) axis = .ok a → times = some t → N.degree a + t ≤ 29) :
    N.elevate32 eps jk je jb axis times = N.elevate eps jk je jb axis times := by
  rcases times with _ | t
  · simp only [Nrb.elevate32, Nrb.elevate]
  unfold Nrb.elevate32 Nrb.elevate
  dsimp only
  by_cases ht : t ≥ 0
  · rw [pyAssert_ok ht, res_ok_bind, res_ok_bind]
    by_cases h0 : t = 0
    · rw [if_pos h0, if_pos h0]
    · rw [if_neg h0, if_neg h0]
      rcases ha : normAxis (d + 1) axis with e | a
      · rw [res_err_bind, res_err_bind]
      · rw [res_ok_bind, res_ok_bind]
        have hd := h a t ha rfl
        have : BSp.DegreeElevate32 eps jk je jb (N.n a) (N.degree a) (N.U a) (N.row a) t =
            BSp.DegreeElevate eps jk je jb (N.n a) (N.degree a) (N.U a) (N.row a) t := by
          unfold BSp.DegreeElevate32 BSp.DegreeElevate
          split_ifs with hc
          · rw [degreeElevate32_eq eps jk je jb _ _ _ (by omega) hd]
          · rfl
        rw [this]
  · rw [pyAssert_err ht, res_err_bind, res_err_bind]

/-- C89: hence `elevate` with 32 bit integers keeps the map while the final degree is at most 29 -/
theorem C89_elevate_partial {eps : K} (heps : 0 ≤ eps) (jk : ℤ → K) (je : ℤ → (Fin d → ℤ) → ℕ → K)
    (jb : ℤ → ℤ → K) {N : Nrb K (d + 1)} (hv : N.Valid) {axis : ℤ} {a : Fin (d + 1)}
    (ha : normAxis (d + 1) axis = .ok a) (hE : N.Elevatable eps a) (t : ℕ) (h29 : N.degree a + t ≤ 29)
    (hj : N.degree a ≤ 9 ∨ NoJump (N.n a) (N.degree a) t (N.U a)) :
    ∃ N', N.elevate32 eps jk je jb axis (some t) = .ok N' ∧ N'.Valid ∧ N.Elevated N' a t := by
  obtain ⟨N', h1, h2, h3, -⟩ := C16_elevate_partial heps jk je jb hv ha hE t hj
  refine ⟨N', ?_, h2, h3⟩
  rw [C89_same, h1]
  intro b s hb hs
  rw [ha] at hb
  cases hb
  cases hs
  exact h29

/-- a knot vector of one span has no knots inside -/
theorem noJump_bezier {p : ℕ} {t : ℤ} {U : ℤ → K} (hk : ValidKnots p p U) : NoJump p p t U := by
  intro x y h
  exfalso
  have := h.left
  unfold mult at this
  rw [Finset.card_pos] at this
  obtain ⟨i, hi⟩ := this
  rw [Finset.mem_filter, Finset.mem_Icc] at hi
  obtain ⟨⟨i1, i2⟩, rfl⟩ := hi
  rcases le_or_gt i p with c | c
  · exact absurd h.lo (not_lt.mpr (hk.sorted i p i1 c (by omega)))
  · exact absurd (h.lt.trans h.hi) (not_lt.mpr (hk.sorted _ i (by omega) (by omega) i2))

theorem setAxis_pair (N : Nrb K (d + 1)) (a : Fin (d + 1)) (s l : ℤ) {V V' : ℤ → K} (Q Q' : ℤ → (Fin d → ℤ) → ℕ → K)
    (h : V = V') : (N.setAxis a s l V Q).nc = (N.setAxis a s l V' Q').nc ∧
      (N.setAxis a s l V Q).shape = (N.setAxis a s l V' Q').shape ∧ (N.setAxis a s l V Q).len = (N.setAxis a s l V' Q').len ∧
      (N.setAxis a s l V Q).U = (N.setAxis a s l V' Q').U ∧
      ∀ idx, (N.setAxis a s l V Q).P idx = Q (idx a) (a.removeNth idx) := by
  subst h
  exact ⟨rfl, rfl, rfl, rfl, fun _ => rfl⟩

/-- what the two versions of `elevate` share on an axis with a single span -/
theorem elevate32_bezier {eps : K} (heps : 0 ≤ eps) (jk : ℤ → K) (je : ℤ → (Fin d → ℤ) → ℕ → K)
    (jb : ℤ → ℤ → K) {N : Nrb K (d + 1)} (hv : N.Valid) {axis : ℤ} {a : Fin (d + 1)}
    (ha : normAxis (d + 1) axis = .ok a) (hE : N.Elevatable eps a) {t : ℕ} (ht : 1 ≤ t) (h1 : N.n a = N.degree a) :
    ∃ N' M, N.elevate32 eps jk je jb axis (some t) = .ok N' ∧ N.elevate eps jk je jb axis (some t) = .ok M ∧ M.Valid ∧
      N.Elevated M a t ∧ N'.nc = M.nc ∧ N'.shape = M.shape ∧ N'.len = M.len ∧ N'.U = M.U ∧
      (∀ idx, N'.P idx = (degreeElevate32 eps jk je jb (N.n a) (N.degree a) (N.U a) (N.row a) t).2 (idx a) (a.removeNth idx)) := by
  obtain ⟨p, hp, hk, e⟩ := deg_nat hv a
  obtain ⟨M, g1, g2, g3, -⟩ := C16_elevate_partial heps jk je jb hv ha hE t
    (Or.inr (by rw [h1, hp]; rw [h1, hp] at hk; exact noJump_bezier hk))
  have g0 := g1
  unfold Nrb.elevate at g1
  dsimp only at g1
  rw [pyAssert_ok (by omega), res_ok_bind, if_neg (by omega), ha, res_ok_bind] at g1
  unfold BSp.DegreeElevate at g1
  have hc : N.n a ≥ 1 ∧ N.degree a ≥ 1 ∧ (t : ℤ) ≥ 0 := by
    have := hk.one_le
    omega
  rw [if_pos hc, res_ok_bind, res_pure] at g1
  refine ⟨N.setAxis a (N.n a + t * countSpans (N.n a) (N.degree a) (N.U a) + 1)
      (N.n a + t * countSpans (N.n a) (N.degree a) (N.U a) + (N.degree a + t) + 2)
      (degreeElevate32 eps jk je jb (N.n a) (N.degree a) (N.U a) (N.row a) t).1
      (degreeElevate32 eps jk je jb (N.n a) (N.degree a) (N.U a) (N.row a) t).2, M, ?_, g0, g2, g3, ?_⟩
  · unfold Nrb.elevate32
    dsimp only
    rw [pyAssert_ok (by omega), res_ok_bind, if_neg (by omega), ha, res_ok_bind]
    unfold BSp.DegreeElevate32
    rw [if_pos hc, res_ok_bind, res_pure]
  injection g1 with g1
  rw [← g1]
  dsimp only
  exact setAxis_pair N a _ _ _ _ (degreeElevate32_knots eps jk je jb _ _ _ _ _)

/-- C89: on an axis with a single span, elevation to final degree 30 returns an object whose control points 15 along that axis
are wrong: a component with the constant value `w` along the axis gets the value `-(155117520/131213633) w` there -/
theorem C89_point {eps : K} (heps : 0 ≤ eps) (jk : ℤ → K) (je : ℤ → (Fin d → ℤ) → ℕ → K)
    (jb : ℤ → ℤ → K) {N : Nrb K (d + 1)} (hv : N.Valid) {axis : ℤ} {a : Fin (d + 1)}
    (ha : normAxis (d + 1) axis = .ok a) (hE : N.Elevatable eps a) {t : ℕ} (ht : 1 ≤ t) (h30 : N.degree a + t = 30)
    (h1 : N.n a = N.degree a) :
    ∃ N', N.elevate32 eps jk je jb axis (some t) = .ok N' ∧ N'.Valid ∧ N'.shape a = 31 ∧
      ∀ idx c w, idx a = 15 → (∀ i, 0 ≤ i → i < N.shape a → N.P (Function.update idx a i) c = w) →
        N'.P idx c = -(155117520 / 131213633) * w := by
  obtain ⟨N', M, g1, g2, g3, g4, g5, g6, g7, g8, g9⟩ := elevate32_bezier heps jk je jb hv ha hE ht h1
  obtain ⟨p, hp, hk, e⟩ := deg_nat hv a
  have hp1 := hk.one_le
  refine ⟨N', g1, ?_, ?_, ?_⟩
  · intro b
    have := g3 b
    unfold Nrb.n Nrb.degree at this ⊢
    rw [g6, g7, g8]; exact this
  · rw [g6]
    unfold Nrb.elevate at g2
    dsimp only at g2
    rw [pyAssert_ok (by omega), res_ok_bind, if_neg (by omega), ha, res_ok_bind] at g2
    unfold BSp.DegreeElevate at g2
    rw [if_pos (by omega), res_ok_bind, res_pure] at g2
    injection g2 with g2
    rw [← g2, Nrb.setAxis_shape, Function.update_self]
    have hs : countSpans (N.n a) (N.degree a) (N.U a) = 1 := by
      unfold countSpans
      rw [h1, show (N.degree a + 1 - N.degree a).toNat = 1 by omega]
      unfold countSpansLoop
      rw [if_pos le_rfl]
      unfold countSpansLoop
      rfl
    rw [hs, h1]; omega
  · intro idx c w h15 hw
    have hnp : N.n a = p := by omega
    have hr := hE.right
    rw [hnp, hp] at hr
    rw [g9, h15, hnp, hp, show (15 : ℤ) = ((15 : ℕ) : ℤ) by rfl,
      degreeElevate32_bezier heps jk je jb (N.row a) (by omega) ht hr (by omega) (by omega)]
    rw [Finset.sum_apply, Finset.sum_apply, ← elevBez32_row_sum jb (p := p) (t := t) (by omega) ht (by omega), Finset.sum_mul]
    refine Finset.sum_congr rfl fun l hl => ?_
    rw [Finset.mem_Ico] at hl
    rw [Pi.smul_apply, Pi.smul_apply, smul_eq_mul]
    congr 1
    rw [← hw l (by omega) (by unfold Nrb.n at hnp; omega)]
    unfold Nrb.row
    congr 1
    funext b
    refine Fin.succAboveCases a ?_ (fun b => ?_) b
    · rw [Fin.insertNth_apply_same, Function.update_self]
    · rw [Fin.insertNth_apply_succAbove, Function.update_of_ne (Fin.succAbove_ne a b)]; rfl

/-- C89: the map is another one as soon as some component is a nonzero constant on the whole net, which holds for the weights of
every object without weights -/
theorem C89_wrong {eps : K} (heps : 0 ≤ eps) (jk : ℤ → K) (je : ℤ → (Fin d → ℤ) → ℕ → K)
    (jb : ℤ → ℤ → K) {N : Nrb K (d + 1)} (hv : N.Valid) (hm : ∀ b, N.InnerMult b) {axis : ℤ} {a : Fin (d + 1)}
    (ha : normAxis (d + 1) axis = .ok a) (hE : N.Elevatable eps a) {t : ℕ} (ht : 1 ≤ t) (h30 : N.degree a + t = 30)
    (h1 : N.n a = N.degree a) {c : ℕ} {w : K} (hw : w ≠ 0) (hc : ∀ idx, N.InNet idx → N.P idx c = w) :
    ∃ N', N.elevate32 eps jk je jb axis (some t) = .ok N' ∧ N'.Valid ∧
      (∀ b, N'.degree b = N.degree b + if b = a then (t : ℤ) else 0) ∧ (∀ b, N'.lo b = N.lo b) ∧ (∀ b, N'.hi b = N.hi b) ∧
      ∃ x, N.InDom x ∧ N'.eval x ≠ N.eval x := by
  obtain ⟨N', M, g1, g2, g3, g4, g5, g6, g7, g8, g9⟩ := elevate32_bezier heps jk je jb hv ha hE ht h1
  obtain ⟨N'', k1, k2, k3, k4⟩ := C89_point heps jk je jb hv ha hE ht h30 h1
  rw [g1] at k1
  injection k1 with k1
  subst k1
  have hdeg : ∀ b, N'.degree b = M.degree b := fun b => by unfold Nrb.degree; rw [g6, g7]
  have hlo : ∀ b, N'.lo b = M.lo b := fun b => by rw [Nrb.lo_eq, Nrb.lo_eq, hdeg, g8]
  have hhi : ∀ b, N'.hi b = M.hi b := fun b => by rw [Nrb.hi_eq, Nrb.hi_eq, g8]; unfold Nrb.n; rw [g6]
  refine ⟨N', g1, k2, fun b => by rw [hdeg, g4.degree], fun b => by rw [hlo, g4.lo], fun b => by rw [hhi, g4.hi], ?_⟩
  by_contra hcon
  push_neg at hcon
  have hEl : N.Elevated N' a t := by
    refine ⟨g5.trans g4.nc, fun b => by rw [hdeg, g4.degree], fun b => by rw [hlo, g4.lo], fun b => by rw [hhi, g4.hi], ?_, ?_,
      hcon⟩
    · intro x
      rw [← g4.knots x]
      unfold Nrb.knots
      rw [g7, g8]
    · intro b hb
      rw [g6, g8]; exact g4.others b hb
  have hav := hull_elevated hv k2 hE hEl hm
  set idx : Fin (d + 1) → ℤ := Function.update 0 a 15 with hidx
  have hsh : ∀ b, 0 < N.shape b := by
    intro b
    have h1 := (hv b).one_le
    have h2 := (hv b).le
    unfold Nrb.n at h2
    omega
  have hin : N'.InNet idx := by
    intro b
    by_cases hb : b = a
    · subst hb
      rw [hidx, Function.update_self, k3]; omega
    · rw [hidx, Function.update_of_ne hb, g6, (g4.others b hb).2]
      exact ⟨le_rfl, hsh b⟩
  have h2 := hav {P | P c = w} (by
    intro x hx y hy s r _ _ hsr
    show (s • x + r • y) c = w
    rw [Pi.add_apply, Pi.smul_apply, Pi.smul_apply, hx, hy, ← add_smul, hsr, one_smul]) (fun j hj => hc j hj) idx hin
  have h3 := k4 idx c w (by rw [hidx, Function.update_self]) (by
    intro i i1 i2
    apply hc
    intro b
    by_cases hb : b = a
    · subst hb; rw [Function.update_self]; exact ⟨i1, i2⟩
    · rw [Function.update_of_ne hb, hidx, Function.update_of_ne hb]
      exact ⟨le_rfl, hsh b⟩)
  have h2' : N'.P idx c = w := h2
  rw [h3] at h2'
  apply hw
  have : (286331153 : K) * w = 0 := by linarith [h2']
  rcases mul_eq_zero.mp this with h | h
  · norm_num at h
  · exact h

/-! ## examples -/

example : elevBinC 29 14 = some 77558760 ∧ elevBin32 29 14 = 77558760 := C89_bin (n := 29) (k := 14) (by norm_num) (by norm_num)

example : elevBinC 41 20 = none := C89_overflow (n := 41) (k := 20) (by norm_num) (by norm_num)

/-- the first axis of a rational surface raised from degree 2 to degree 29 -/
example := C89_elevate_partial (eps := 1 / 1000) (by norm_num) (fun _ => 7) (fun _ _ _ => 9) (fun _ _ => 5)
  Ex.S_valid (axis := -2) (a := 0) rfl Ex.S_elevatable 27 (by decide +kernel) (Or.inl (by decide +kernel))

/-- a Bezier curve of degree 29 on `[0, 1]` without weights -/
def Ex.bez29 : Nrb ℚ 1 where
  shape := fun _ => 30
  nc := 4
  len := fun _ => 60
  U := fun _ i => if i ≤ 29 then 0 else 1
  P := fun idx c => if c = 3 then 1 else (idx 0) ^ 2 - c

theorem Ex.bez29_n (a : Fin 1) : Ex.bez29.n a = 29 := rfl

theorem Ex.bez29_degree (a : Fin 1) : Ex.bez29.degree a = 29 := by
  show (60 : ℤ) - 30 - 1 = 29
  norm_num

theorem Ex.bez29_valid : Ex.bez29.Valid := by
  intro a
  rw [Ex.bez29_n, Ex.bez29_degree]
  refine ⟨by norm_num, le_rfl, ?_, ?_, ?_⟩
  · intro i j _ _ _
    show (if i ≤ 29 then (0 : ℚ) else 1) ≤ if j ≤ 29 then 0 else 1
    split_ifs <;> first | omega | norm_num
  · show (if (29 : ℤ) ≤ 29 then (0 : ℚ) else 1) < if (29 + 1 : ℤ) ≤ 29 then 0 else 1
    norm_num
  · show (if (29 : ℤ) ≤ 29 then (0 : ℚ) else 1) < if (29 + 1 : ℤ) ≤ 29 then 0 else 1
    norm_num

theorem Ex.bez29_elevatable : Ex.bez29.Elevatable (1 / 1000) 0 where
  left := clampedL_of_list (by decide +kernel)
  right := clampedR_of_list (by decide +kernel)
  mult := multLe_of_list (by decide +kernel) (by decide +kernel)
  gaps := gaps_of_list (by decide +kernel)

theorem Ex.bez29_inner (a : Fin 1) : Ex.bez29.InnerMult a := by
  have : a = 0 := Subsingleton.elim _ _
  subst this
  exact Ex.bez29_elevatable.mult

/-- raising it once changes the map, and its weight 15 becomes negative -/
example := C89_wrong (eps := 1 / 1000) (by norm_num) (fun _ => 7) (fun _ _ _ => 9) (fun _ _ => 5) Ex.bez29_valid
  Ex.bez29_inner (axis := 0) (a := 0) rfl Ex.bez29_elevatable (t := 1) le_rfl (by rw [Ex.bez29_degree]; norm_num)
  (by rw [Ex.bez29_n, Ex.bez29_degree]) (c := 3) (w := 1) one_ne_zero (fun _ _ => rfl)

example : ∃ N', Ex.bez29.elevate32 (1 / 1000) (fun _ => 7) (fun _ _ _ => 9) (fun _ _ => 5) 0 (some 1) = .ok N' ∧
    N'.P (fun _ => 15) 3 = -(155117520 / 131213633) := by
  obtain ⟨N', h1, -, -, h2⟩ := C89_point (eps := 1 / 1000) (by norm_num) (fun _ => 7) (fun _ _ _ => 9) (fun _ _ => 5)
    Ex.bez29_valid (axis := 0) (a := 0) rfl Ex.bez29_elevatable (t := 1) le_rfl (by rw [Ex.bez29_degree]; norm_num)
    (by rw [Ex.bez29_n, Ex.bez29_degree])
  refine ⟨N', h1, ?_⟩
  rw [h2 (fun _ => 15) 3 1 rfl (fun _ _ _ => rfl), mul_one]

end Igakit
