import Verif.Props.Cad
import Verif.Props.Circle

/-! # C36: revolution -/

set_option linter.unusedSectionVars false

namespace Igakit
open Spec Transform

theorem revAxis_ok {ax : AxisArg} {v : Fin 3 → ℝ} (h : IsAxis ax v) : Cad.revAxis ax = .ok v := by
  cases h with
  | int axis b h =>
    unfold Cad.revAxis
    dsimp only
    rw [h]
    rfl
  | vec l u r h hr h1 hl =>
    have hn : norm3 (fun i => l.getD i 0) = r := by
      unfold norm3
      simp only [hl]
      rw [show r * v 0 * (r * v 0) + r * v 1 * (r * v 1) + r * v 2 * (r * v 2) =
        r ^ 2 * (v 0 * v 0 + v 1 * v 1 + v 2 * v 2) by ring, h1, mul_one, Real.sqrt_sq hr.le]
    unfold Cad.revAxis
    dsimp only
    rw [pyAssert_ok h, res_ok_bind, hn, pyAssert_ok hr, res_ok_bind]
    show Except.ok _ = Except.ok _
    congr 1
    funext i
    rw [hl]
    field_simp

/-- the rotation taking the unit vector `v` to the `z` axis -/
noncomputable def frameRot (v : Fin 3 → ℝ) : Matrix (Fin 3) (Fin 3) ℝ :=
  !![1 - v 0 * v 0 / (1 + v 2), -(v 0 * v 1 / (1 + v 2)), -v 0;
     -(v 0 * v 1 / (1 + v 2)), 1 - v 1 * v 1 / (1 + v 2), -v 1;
     v 0, v 1, v 2]

theorem frameRot_orth {v : Fin 3 → ℝ} (h1 : v 0 * v 0 + v 1 * v 1 + v 2 * v 2 = 1) (h2 : v 2 ≠ -1) :
    frameRot v * (frameRot v).transpose = 1 := by
  have h2' : 1 + v 2 ≠ 0 := fun h => h2 (by linarith)
  obtain ⟨k, hk⟩ : ∃ k, k * (1 + v 2) = 1 := ⟨1 / (1 + v 2), by field_simp⟩
  have hd : ∀ a, a / (1 + v 2) = a * k := fun a => by
    rw [div_eq_iff h2', mul_assoc, hk, mul_one]
  have e : (v 0 * v 0 + v 1 * v 1) * k = 1 - v 2 := by linear_combination (1 - v 2) * hk + k * h1
  generalize hx : v 0 = x at *
  generalize hy : v 1 = y at *
  generalize hz : v 2 = z at *
  ext i j
  rw [Matrix.mul_apply, Fin.sum_univ_three]
  fin_cases i <;> fin_cases j <;> simp [frameRot, hx, hy, hz, hd] <;> grind

/-- turning about `v` is turning about `z` in the frame -/
theorem frameRot_conj {v : Fin 3 → ℝ} (h1 : v 0 * v 0 + v 1 * v 1 + v 2 * v 2 = 1) (h2 : v 2 ≠ -1) (c s : ℝ) :
    (frameRot v).transpose * (!![c, -s, 0; s, c, 0; 0, 0, 1] * frameRot v) = rodrigues c s v := by
  have h2' : 1 + v 2 ≠ 0 := fun h => h2 (by linarith)
  obtain ⟨k, hk⟩ : ∃ k, k * (1 + v 2) = 1 := ⟨1 / (1 + v 2), by field_simp⟩
  have hd : ∀ a, a / (1 + v 2) = a * k := fun a => by
    rw [div_eq_iff h2', mul_assoc, hk, mul_one]
  have e : (v 0 * v 0 + v 1 * v 1) * k = 1 - v 2 := by linear_combination (1 - v 2) * hk + k * h1
  rw [rodrigues_eq]
  generalize hx : v 0 = x at *
  generalize hy : v 1 = y at *
  generalize hz : v 2 = z at *
  ext i j
  simp only [Matrix.mul_apply, Fin.sum_univ_three]
  fin_cases i <;> fin_cases j <;> simp [frameRot, hx, hy, hz, hd] <;> grind

theorem neg_displ {point : ArrArg ℝ} {p : Fin 3 → ℝ} (hp : IsDispl point none p) :
    IsDispl point.neg none (-p) := by
  cases hp with
  | vec l h =>
    have := IsDispl.vec (l.map (fun x => -x)) (by simpa using h)
    have e : (fun i : Fin 3 => (l.map (fun x => -x)).getD i 0) = -(fun i : Fin 3 => l.getD i 0) := by
      funext i
      simp only [Pi.neg_apply, List.getD_eq_getElem?_getD, List.getElem?_map]
      cases l[(i : ℕ)]? <;> simp
    rwa [e] at this
  | first x =>
    have := IsDispl.first (-x)
    have e : (![-x, 0, 0] : Fin 3 → ℝ) = -![x, 0, 0] := by
      funext i; fin_cases i <;> simp
    rwa [e] at this

theorem revFrame_ok {point : ArrArg ℝ} {p v : Fin 3 → ℝ} (hp : IsDispl point none p)
    (h1 : v 0 * v 0 + v 1 * v 1 + v 2 * v 2 = 1) (h2 : v 2 ≠ -1) :
    Cad.revFrame point v = .ok (embed3 (frameRot v) * transMat (-p)) := by
  have hneg := neg_displ hp
  have hT : Transform.translate 1 point.neg none = .ok (transMat (-p)) := by
    unfold Transform.translate
    rw [transVec_ok hneg, res_ok_bind, compose, mul_one]
    rfl
  unfold Cad.revFrame
  dsimp only
  rw [hT, res_ok_bind]
  have hz1 : v 2 ≤ 1 := by nlinarith [mul_self_nonneg (v 0), mul_self_nonneg (v 1)]
  have hz2 : -1 ≤ v 2 := by nlinarith [mul_self_nonneg (v 0), mul_self_nonneg (v 1)]
  have h2' : 1 + v 2 ≠ 0 := fun h => h2 (by linarith)
  by_cases hz : v 2 = 1
  · have h0 : v 0 = 0 := by nlinarith [mul_self_nonneg (v 0), mul_self_nonneg (v 1)]
    have h1' : v 1 = 0 := by nlinarith [mul_self_nonneg (v 0), mul_self_nonneg (v 1)]
    have hid : frameRot v = 1 := by
      unfold frameRot
      rw [h0, h1', hz]
      ext i j
      fin_cases i <;> fin_cases j <;> simp
    unfold Transform.rotate
    rw [hz, Real.arccos_one, if_pos rfl, hid, embed3_one, one_mul]
    rfl
  · have hlt : 0 < 1 - v 2 ^ 2 := by
      have : v 2 < 1 := lt_of_le_of_ne hz1 hz
      have : -1 < v 2 := lt_of_le_of_ne hz2 (Ne.symm h2)
      nlinarith
    set h := Real.sqrt (1 - v 2 ^ 2) with hh
    have hpos : 0 < h := Real.sqrt_pos.mpr hlt
    have hsq : h * h = 1 - v 2 ^ 2 := Real.mul_self_sqrt hlt.le
    have hax : IsAxis (.vec [v 1, -v 0, 0]) ![v 1 / h, -v 0 / h, 0] := by
      refine IsAxis.vec _ _ h ⟨by simp, by simp⟩ hpos ?_ ?_
      · simp
        field_simp
        linear_combination h1 - hsq
      · intro i
        fin_cases i
        · simp; field_simp
        · simp; field_simp
        · simp
    rw [rotate_ok hax, Real.cos_arccos hz2 hz1, Real.sin_arccos, ← hh]
    congr 3
    have hx : (1 - v 2) / (h * h) = 1 / (1 + v 2) := by
      rw [hsq, div_eq_div_iff hlt.ne' h2']
      ring
    have hm : ∀ a b : ℝ, (1 - v 2) * (a / h * (b / h)) = a * b / (1 + v 2) := by
      intro a b
      rw [show (1 - v 2) * (a / h * (b / h)) = a * b * ((1 - v 2) / (h * h)) by field_simp, hx]
      ring
    have hq : (v 0 * v 0 + v 1 * v 1) / (1 + v 2) = 1 - v 2 := by
      rw [div_eq_iff h2']
      linear_combination h1
    have hq0 : v 2 + v 1 * v 1 / (1 + v 2) = 1 - v 0 * v 0 / (1 + v 2) := by
      rw [add_div] at hq; linear_combination hq
    have hq1 : v 2 + v 0 * v 0 / (1 + v 2) = 1 - v 1 * v 1 / (1 + v 2) := by
      rw [add_div] at hq; linear_combination hq
    rw [rodrigues_eq]
    ext i j
    fin_cases i <;> fin_cases j <;> simp [frameRot, hm] <;>
      first | exact hq0 | exact hq1 | (field_simp) | ring


theorem hypot_arg (X Y : ℝ) :
    Real.sqrt (X * X + Y * Y) * Real.cos (Cad.revTheta X Y) = X ∧
    Real.sqrt (X * X + Y * Y) * Real.sin (Cad.revTheta X Y) = Y := by
  have hn : ‖(X + Y * Complex.I : ℂ)‖ = Real.sqrt (X * X + Y * Y) := by
    rw [Complex.norm_add_mul_I]
    congr 1
    ring
  have h1 := Complex.norm_mul_cos_arg (X + Y * Complex.I : ℂ)
  have h2 := Complex.norm_mul_sin_arg (X + Y * Complex.I : ℂ)
  rw [hn] at h1 h2
  simp only [Complex.add_re, Complex.ofReal_re, Complex.mul_re, Complex.I_re, mul_zero, Complex.ofReal_im,
    Complex.I_im, mul_one, sub_self, add_zero, Complex.add_im, Complex.mul_im, zero_add] at h1 h2
  unfold Cad.revTheta
  dsimp only
  split
  · rw [Real.cos_add_two_pi, Real.sin_add_two_pi]
    exact ⟨h1, h2⟩
  · exact ⟨h1, h2⟩

theorem transMat_mul {K : Type} [Field K] (s t : Fin 3 → K) : transMat s * transMat t = transMat (s + t) := by
  ext i j
  rw [Matrix.mul_apply, Fin.sum_univ_four]
  fin_cases i <;> fin_cases j <;> simp [transMat, Matrix.one_apply] <;> try ring

theorem transMat_zero {K : Type} [Field K] : transMat (0 : Fin 3 → K) = 1 := by
  ext i j
  fin_cases i <;> fin_cases j <;> simp [transMat, Matrix.one_apply]

theorem IsAffine.mul {K : Type} [Field K] {A B : Mat4 K} (hA : IsAffine A) (hB : IsAffine B) : IsAffine (A * B) := by
  obtain ⟨a0, a1, a2, a3⟩ := hA
  obtain ⟨b0, b1, b2, b3⟩ := hB
  refine ⟨?_, ?_, ?_, ?_⟩ <;> rw [Matrix.mul_apply, Fin.sum_univ_four, a0, a1, a2, a3] <;> simp [b0, b1, b2, b3]

theorem affPart_mul {K : Type} [Field K] {A B : Mat4 K} (hB : IsAffine B) (v : Fin 3 → K) :
    affPart (A * B) v = affPart A (affPart B v) := by
  obtain ⟨b0, b1, b2, b3⟩ := hB
  funext c
  simp only [affPart, Matrix.mul_apply, Fin.sum_univ_four, b0, b1, b2, b3]
  simp only [Fin.castSucc, Fin.castAdd, Fin.castLE]
  simp
  ring

/-- the inverse of the frame -/
theorem frame_inverse {v : Fin 3 → ℝ} (p : Fin 3 → ℝ) (h1 : v 0 * v 0 + v 1 * v 1 + v 2 * v 2 = 1) (h2 : v 2 ≠ -1) :
    Transform.inverse (embed3 (frameRot v) * transMat (-p)) =
      .ok (transMat p * embed3 (frameRot v).transpose) := by
  have hm : (embed3 (frameRot v) * transMat (-p)) * (transMat p * embed3 (frameRot v).transpose) = 1 := by
    rw [Matrix.mul_assoc, ← Matrix.mul_assoc (transMat (-p)), transMat_mul, neg_add_cancel, transMat_zero,
      Matrix.one_mul, embed3_mul, frameRot_orth h1 h2, embed3_one]
  have hd : (embed3 (frameRot v) * transMat (-p)).det ≠ 0 := by
    intro h
    have := congrArg Matrix.det hm
    rw [Matrix.det_mul, h, zero_mul, Matrix.det_one] at this
    exact zero_ne_one this
  unfold Transform.inverse
  rw [if_neg hd, Matrix.inv_eq_right_inv hm]

/-- revolution with a given arc -/
theorem revolve_arc {d : ℕ} {junk : ℤ → Fin 4 → ℝ} (h1 : d ≤ 2) {N : Nrb ℝ d} (hv : N.Valid)
    {point : ArrArg ℝ} {p : Fin 3 → ℝ} (hp : IsDispl point none p) {axis : AxisArg} {v : Fin 3 → ℝ}
    (hax : IsAxis axis v) (hz : v 2 ≠ -1) {angle : AngleArg} {arc : Nrb ℝ 1} {a b : ℝ}
    (harc : Cad.circle junk 1 none angle = .ok arc) (hrun : arc.RunsAlong 0 1 a b) {θ : ℝ → ℝ}
    (hpt : ∀ u, 0 ≤ u → u ≤ 1 → arc.point ![u] = circlePoint 0 1 (θ u)) :
    ∃ R : Nrb ℝ (d + 1), Cad.revolve junk N point axis angle = .ok R ∧ N.Extends R ∧
      R.degree (Fin.last d) = 2 ∧ R.lo (Fin.last d) = 0 ∧ R.hi (Fin.last d) = 1 ∧
      R.len (Fin.last d) = arc.len 0 ∧ R.U (Fin.last d) = arc.U 0 ∧
      ∀ x, R.InDom x → N.eval (Fin.init x) 3 ≠ 0 →
          R.eval x 3 = N.eval (Fin.init x) 3 * arc.eval ![x (Fin.last d)] 3 ∧
          R.eval x 3 ≠ 0 ∧
          R.point x = p + rotVec (θ (x (Fin.last d))) v (N.point (Fin.init x) - p) := by
  have hu := hax.unit
  have hTa : IsAffine (embed3 (frameRot v) * transMat (-p)) := (embed3_affine _).mul (transMat_affine _)
  have hpl : point.toList.length ≤ 3 := by
    cases hp with
    | vec l h => exact h
    | first x => simp [ArrArg.toList]
  set T := embed3 (frameRot v) * transMat (-p) with hT
  set N' := N.transform T with hN'
  have hv' : N'.Valid := hv
  have hn : arc.shape 0 - 1 = arc.n 0 := rfl
  have hdg : arc.len 0 - arc.shape 0 - 1 = arc.degree 0 := by unfold Nrb.degree; ring
  set F : (Fin d → ℤ) → ℤ → ℕ → ℝ := fun idx j c =>
    Cad.revPoint (N'.P idx 0) (N'.P idx 1) (N'.P idx 2) (N'.P idx 3) (arc.P ![j]) c with hF
  have hS : Nrb.ctor (N'.knotsWith (arc.knotNd 0)) (.arr (N'.netWith (arc.shape 0) 4 F)) none none =
      .ok (N'.stack (arc.shape 0) (arc.len 0) (arc.U 0) F) :=
    ctor_netWith N' h1 (valid_len hv') (fun a => (hv' a).one_le) rfl (fun _ => rfl) (valid_len hrun.valid 0)
      (by rw [hdg]; exact (hrun.valid 0).one_le) F
  set S := N'.stack (arc.shape 0) (arc.len 0) (arc.U 0) F with hSd
  have hE : N'.Extends S := stack_extends hv' F (by rw [hn, hdg]; exact hrun.valid 0)
  have hlo : S.lo (Fin.last d) = 0 := by rw [Nrb.stack_lo_last, hdg]; exact hrun.lo
  have hhi : S.hi (Fin.last d) = 1 := by
    rw [Nrb.stack_hi_last, ← hrun.hi, Nrb.hi_eq]; congr 1; unfold Nrb.n; ring
  refine ⟨S.transform (transMat p * embed3 (frameRot v).transpose), ?_, ?_, ?_, ?_, ?_, ?_, ?_, ?_⟩
  · unfold Cad.revolve
    rw [pyAssert_ok h1, res_ok_bind, pyAssert_ok hpl, res_ok_bind, revAxis_ok hax, res_ok_bind,
      revFrame_ok hp hu hz, res_ok_bind]
    dsimp only
    rw [harc, res_ok_bind, hS, res_ok_bind, frame_inverse p hu hz]
    rfl
  · exact ⟨hE.valid, hE.nc, hE.degree, hE.len, hE.knots, hE.dom⟩
  · show S.degree (Fin.last d) = 2
    rw [Nrb.stack_degree_last, hdg]; exact hrun.degree
  · exact hlo
  · exact hhi
  · show S.len (Fin.last d) = _
    rw [Nrb.stack_len_last]
  · show S.U (Fin.last d) = _
    rw [Nrb.stack_U_last]
  · intro x hx hw
    have hx' : S.InDom x := hx
    have hxl := hx' (Fin.last d)
    rw [hlo, hhi] at hxl
    have hwa := hrun.weight _ hxl.1 hxl.2
    have hpa := hpt _ hxl.1 hxl.2
    set u := x (Fin.last d) with hu'
    obtain ⟨a1, a2, _⟩ := C21_transform_affine N hTa hw
    rw [← hN'] at a1 a2
    have k : ∀ (c : ℕ) (i i' j j' : ℕ) (s s' : ℝ),
        (∀ idx j0, F idx j0 c = (s * N'.P idx i) * arc.P ![j0] j + (s' * N'.P idx i') * arc.P ![j0] j') →
        S.eval x c = s * N'.eval (Fin.init x) i * arc.eval ![u] j +
          s' * N'.eval (Fin.init x) i' * arc.eval ![u] j' := by
      intro c i i' j j' s s' h
      have := stack_bilin (N := N') (m := arc.shape 0) (l := arc.len 0) (V := arc.U 0) (F := F) (c := c)
        (A := fun idx => s * N'.P idx i) (A' := fun idx => s' * N'.P idx i') (B := fun j0 => arc.P ![j0] j)
        (B' := fun j0 => arc.P ![j0] j') (fun idx j0 _ _ _ => h idx j0) x
      rw [hn, hdg, curve_comp, curve_comp] at this
      have hs : ∀ (s : ℝ) (i : ℕ), tensor N'.n (fun a => (N'.degree a).toNat) N'.U (fun idx => s * N'.P idx i)
          (Fin.init x) = s * N'.eval (Fin.init x) i := by
        intro s i
        rw [← tensor_comp]
        unfold tensor
        rw [Finset.mul_sum]
        exact Finset.sum_congr rfl fun idx _ => by simp only [smul_eq_mul]; ring
      rw [hs, hs] at this
      exact this
    have k0 := k 0 0 1 0 1 1 (-1) (fun idx j0 => by
      obtain ⟨c0, c1⟩ := hypot_arg (N'.P idx 0) (N'.P idx 1)
      simp only [hF, Cad.revPoint]
      rw [c0, c1, if_pos trivial]; ring)
    have k1 := k 1 1 0 0 1 1 1 (fun idx j0 => by
      obtain ⟨c0, c1⟩ := hypot_arg (N'.P idx 0) (N'.P idx 1)
      simp only [hF, Cad.revPoint]
      rw [c0, c1, if_neg (by norm_num), if_pos trivial]; ring)
    have k2 := k 2 2 0 3 0 1 0 (fun idx j0 => by
      simp only [hF, Cad.revPoint]
      rw [if_neg (by norm_num), if_neg (by norm_num), if_pos trivial]; ring)
    have k3 := k 3 3 0 3 0 1 0 (fun idx j0 => by
      simp only [hF, Cad.revPoint]
      rw [if_neg (by norm_num), if_neg (by norm_num), if_neg (by norm_num)]; ring)
    have hw3 : S.eval x 3 ≠ 0 := by
      rw [k3, a2]
      simp only [one_mul, zero_mul, add_zero]
      exact mul_ne_zero hw hwa.ne'
    have hSp : S.point x = (!![Real.cos (θ u), -Real.sin (θ u), 0; Real.sin (θ u), Real.cos (θ u), 0; 0, 0, 1] :
        Matrix (Fin 3) (Fin 3) ℝ).mulVec (N'.point (Fin.init x)) := by
      have q0 := congrFun hpa 0
      have q1 := congrFun hpa 1
      simp only [Nrb.point, Nrb.proj, circlePoint] at q0 q1
      have hwa' := hwa.ne'
      rw [div_eq_iff hwa'] at q0 q1
      have hw' : N'.eval (Fin.init x) 3 ≠ 0 := by rw [a2]; exact hw
      funext c
      rw [Matrix.mulVec, dotProduct, Fin.sum_univ_three]
      fin_cases c
      · simp [Nrb.point, Nrb.proj, k0, k3] at q0 q1 ⊢
        rw [q0, q1]
        field_simp
      · simp [Nrb.point, Nrb.proj, k1, k3] at q0 q1 ⊢
        rw [q0, q1]
        field_simp
        ring
      · simp [Nrb.point, Nrb.proj, k2, k3] at q0 q1 ⊢
        rw [mul_div_mul_right _ _ hwa']
    obtain ⟨b1, b2, _⟩ := C21_transform_affine S ((transMat_affine p).mul (embed3_affine (frameRot v).transpose)) hw3
    refine ⟨by rw [b2, k3, a2]; ring, by rw [b2]; exact hw3, ?_⟩
    rw [b1, affPart_mul (embed3_affine _), affPart_transMat, affPart_embed3, hSp, a1, hT,
      affPart_mul (transMat_affine _), affPart_embed3, affPart_transMat, Matrix.mulVec_mulVec, Matrix.mulVec_mulVec,
      Matrix.mul_assoc, frameRot_conj hu hz, rodrigues_mulVec, add_comm, sub_eq_add_neg]

/-- C36: `revolve(nrb, point, axis, angle)` turns every point of the object about the line through `point`
with direction `axis`: the points at parameter `v` of the new axis are those of `nrb`, turned by the angle
`θ v`, where `θ` runs continuously and monotonically from the start to the end angle.  This holds for every
direction other than `-z`. -/
theorem C36_revolve {d : ℕ} (junk : ℤ → Fin 4 → ℝ) (h1 : d ≤ 2) {N : Nrb ℝ d} (hv : N.Valid)
    {point : ArrArg ℝ} {p : Fin 3 → ℝ} (hp : IsDispl point none p) {axis : AxisArg} {v : Fin 3 → ℝ}
    (hax : IsAxis axis v) (hz : v 2 ≠ -1) (angle : AngleArg)
    (h0 : (angles angle).1 ≠ (angles angle).2)
    (h4 : |(angles angle).2 - (angles angle).1| < 4 * Real.pi) :
    ∃ R : Nrb ℝ (d + 1), Cad.revolve junk N point axis angle = .ok R ∧ N.Extends R ∧
      R.degree (Fin.last d) = 2 ∧ R.lo (Fin.last d) = 0 ∧ R.hi (Fin.last d) = 1 ∧
      ∃ θ : ℝ → ℝ, Continuous θ ∧ θ 0 = (angles angle).1 ∧ θ 1 = (angles angle).2 ∧
        ((angles angle).1 < (angles angle).2 → StrictMono θ) ∧
        ((angles angle).2 < (angles angle).1 → StrictAnti θ) ∧
        ∀ x, R.InDom x → N.eval (Fin.init x) 3 ≠ 0 →
          R.eval x 3 ≠ 0 ∧
          R.point x = p + rotVec (θ (x (Fin.last d))) v (N.point (Fin.init x) - p) := by
  obtain ⟨arc, harc, hrun⟩ := C33_circle junk 1 .origin angle h0 h4
  obtain ⟨θ, hθ, e0, e1, m0, m1, hpt⟩ := hrun.run
  obtain ⟨R, r1, r2, r3, r4, r5, _, _, r6⟩ := revolve_arc h1 hv hp hax hz harc hrun hpt
  exact ⟨R, r1, r2, r3, r4, r5, θ, hθ, e0, e1, m0, m1, fun x hx hw => (r6 x hx hw).2⟩

/-- C36: a direction along `-z` is rejected, although it is a legal axis -/
theorem C36_minus_z {d : ℕ} (junk : ℤ → Fin 4 → ℝ) (h1 : d ≤ 2) (N : Nrb ℝ d)
    {point : ArrArg ℝ} {p : Fin 3 → ℝ} (hp : IsDispl point none p) {axis : AxisArg} {v : Fin 3 → ℝ}
    (hax : IsAxis axis v) (hz : v 2 = -1) (angle : AngleArg) :
    Cad.revolve junk N point axis angle = .error .assertion := by
  have hu := hax.unit
  have e0 : v 0 = 0 := by nlinarith [mul_self_nonneg (v 0), mul_self_nonneg (v 1)]
  have e1 : v 1 = 0 := by nlinarith [mul_self_nonneg (v 0), mul_self_nonneg (v 1)]
  have hpl : point.toList.length ≤ 3 := by
    cases hp with
    | vec l h => exact h
    | first x => simp [ArrArg.toList]
  have hf : Cad.revFrame point v = .error .assertion := by
    have hT : Transform.translate 1 point.neg none = .ok (transMat (-p)) := by
      unfold Transform.translate
      rw [transVec_ok (neg_displ hp), res_ok_bind, compose, mul_one]
      rfl
    unfold Cad.revFrame
    dsimp only
    rw [hT, res_ok_bind, hz, Real.arccos_neg_one]
    unfold Transform.rotate rotMat
    rw [if_neg Real.pi_ne_zero]
    dsimp only
    rw [pyAssert_ok ⟨by simp, by simp⟩, res_ok_bind, pyAssert_err]
    · rfl
    · rw [e0, e1]
      unfold norm3
      simp
  unfold Cad.revolve
  rw [pyAssert_ok h1, res_ok_bind, pyAssert_ok hpl, res_ok_bind, revAxis_ok hax, res_ok_bind, hf]
  rfl

/-- turning about the line keeps the height along the line and the distance to the point -/
theorem rotVec_invariants {v : Fin 3 → ℝ} (h : v 0 * v 0 + v 1 * v 1 + v 2 * v 2 = 1) (a : ℝ) (q : Fin 3 → ℝ) :
    v 0 * rotVec a v q 0 + v 1 * rotVec a v q 1 + v 2 * rotVec a v q 2 = v 0 * q 0 + v 1 * q 1 + v 2 * q 2 ∧
    norm3 (rotVec a v q) = norm3 q := by
  have hs := Real.sin_sq_add_cos_sq a
  unfold norm3 rotVec
  simp only [Matrix.cons_val_zero, Matrix.cons_val_one, Matrix.cons_val_two, Matrix.tail_cons, Matrix.head_cons,
    Matrix.cons_val]
  generalize Real.cos a = c at *
  generalize Real.sin a = s at *
  generalize v 0 = x at *
  generalize v 1 = y at *
  generalize v 2 = z at *
  refine ⟨by grind, ?_⟩
  congr 1
  grind

/-- C36: the revolved object is a surface of revolution: every point has the height along the axis and the
distance to `point` of the point it comes from -/
theorem C36_distance {d : ℕ} (junk : ℤ → Fin 4 → ℝ) (h1 : d ≤ 2) {N : Nrb ℝ d} (hv : N.Valid)
    {point : ArrArg ℝ} {p : Fin 3 → ℝ} (hp : IsDispl point none p) {axis : AxisArg} {v : Fin 3 → ℝ}
    (hax : IsAxis axis v) (hz : v 2 ≠ -1) (angle : AngleArg)
    (h0 : (angles angle).1 ≠ (angles angle).2)
    (h4 : |(angles angle).2 - (angles angle).1| < 4 * Real.pi) :
    ∃ R : Nrb ℝ (d + 1), Cad.revolve junk N point axis angle = .ok R ∧
      ∀ x, R.InDom x → N.eval (Fin.init x) 3 ≠ 0 →
        (∑ i, v i * (R.point x i - p i) = ∑ i, v i * (N.point (Fin.init x) i - p i)) ∧
        norm3 (R.point x - p) = norm3 (N.point (Fin.init x) - p) := by
  obtain ⟨R, hR, _, _, _, _, θ, _, _, _, _, _, h⟩ := C36_revolve junk h1 hv hp hax hz angle h0 h4
  refine ⟨R, hR, fun x hx hw => ?_⟩
  obtain ⟨a, b⟩ := rotVec_invariants hax.unit (θ (x (Fin.last d))) (N.point (Fin.init x) - p)
  rw [(h x hx hw).2]
  refine ⟨?_, ?_⟩
  · rw [Fin.sum_univ_three, Fin.sum_univ_three]
    simpa using a
  · rw [add_sub_cancel_left]; exact b

/-! ## Concrete cases -/

theorem oblique_axis : IsAxis (.vec [3, 0, -4]) (![3 / 5, 0, -(4 / 5)] : Fin 3 → ℝ) :=
  IsAxis.vec _ _ 5 ⟨by simp, by simp⟩ (by norm_num) (by simp; norm_num)
    (by intro i; fin_cases i <;> simp <;> norm_num)

/-- a line turned about an oblique axis -/
example (junk : ℤ → Fin 4 → ℝ) : ∃ (N : Nrb ℝ 1) (R : Nrb ℝ 2),
    Cad.line (.vec [1, 2]) (.scalar 5) = .ok N ∧
    Cad.revolve junk N (.vec [0, 1]) (.vec [3, 0, -4]) (.one (-2)) = .ok R ∧
    R.point ![1 / 2, 1] = ![0, 1, 0] + rotVec (-2) ![3 / 5, 0, -(4 / 5)] ![3, 0, 0] := by
  obtain ⟨N, hN, hU, hN'⟩ := C34_line (K := ℝ) (.vec [1, 2]) (.scalar 5) (by simp [ArrArg.toList])
    (by simp [ArrArg.toList])
  have hd : IsDispl (.vec [0, 1]) none (![0, 1, 0] : Fin 3 → ℝ) := by
    have := IsDispl.vec (K := ℝ) [0, 1] (by norm_num)
    have e : (fun i : Fin 3 => ([0, 1] : List ℝ).getD i 0) = ![0, 1, 0] := by
      funext i; fin_cases i <;> rfl
    rwa [e] at this
  obtain ⟨R, hR, hE, _, hlo, hhi, θ, _, _, t1, _, _, h⟩ := C36_revolve junk (by norm_num) hU.valid hd oblique_axis
    (by simp; norm_num) (.one (-2)) (by simp [angles]) (by
      show |(-2 : ℝ) - 0| < _
      rw [sub_zero, abs_neg, abs_of_pos (by norm_num)]
      linarith [Real.pi_gt_three])
  refine ⟨N, R, hN, hR, ?_⟩
  have hi : (Fin.init (![1 / 2, 1] : Fin 2 → ℝ)) = ![1 / 2] := by
    funext i; fin_cases i; rfl
  have hl : (![1 / 2, 1] : Fin 2 → ℝ) (Fin.last 1) = 1 := rfl
  obtain ⟨w, hpt⟩ := hN' (1 / 2) (by norm_num) (by norm_num)
  have hx : R.InDom ![1 / 2, 1] := hE.inDom (by
      rw [hi]; intro a; rw [hU.lo, hU.hi]; fin_cases a; simp; norm_num)
    (by rw [hlo, hl]; norm_num) (by rw [hhi, hl])
  have := (h _ hx (by rw [hi, w]; norm_num)).2
  rw [hi, hl, t1] at this
  rw [this]
  congr 2
  funext i
  rw [Pi.sub_apply, hpt]
  fin_cases i <;> simp [ArrArg.toList] <;> norm_num

end Igakit
