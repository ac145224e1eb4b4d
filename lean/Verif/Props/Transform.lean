import Verif.Model.Transform
import Verif.Props.Param
import Mathlib.Tactic.FinCases
import Mathlib.Tactic.LinearCombination

/-!
# C21, C22: transforms
-/

set_option linter.unusedSectionVars false

namespace Igakit
open Spec Transform

section field
variable {K : Type} [Field K] [LinearOrder K] [IsStrictOrderedRing K] {d : ℕ}

theorem eval_apply (N : Nrb K d) (x : Fin d → K) (c : ℕ) :
    N.eval x c = ∑ idx ∈ Fintype.piFinset (fun a => Finset.Icc 0 (N.n a)),
      (∏ a, bsplineD (N.n a) (N.U a) (N.degree a).toNat (idx a) (x a)) * N.P idx c := by
  unfold Nrb.eval tensor
  rw [Finset.sum_apply]
  rfl

/-- C21, homogeneous form: the transformed object evaluates to the matrix applied to the homogeneous
point; further components are unchanged.  Any matrix, any parameters. -/
theorem C21_transform_homogeneous (N : Nrb K d) (M : Mat4 K) (x : Fin d → K) :
    (∀ c : Fin 4, (N.transform M).eval x c = ∑ j : Fin 4, M c j * N.eval x j) ∧
    (∀ c, 4 ≤ c → (N.transform M).eval x c = N.eval x c) := by
  constructor
  · intro c
    simp only [eval_apply, Finset.mul_sum]
    rw [Finset.sum_comm]
    apply Finset.sum_congr rfl
    intro idx _
    have : (N.transform M).P idx c = ∑ j : Fin 4, M c j * N.P idx j := by
      show (if h : c.val < 4 then _ else _) = _
      rw [dif_pos c.isLt, Fin.sum_univ_four]
      simp only [Fin.eta]
      have e0 : ((0 : Fin 4) : ℕ) = 0 := rfl
      have e1 : ((1 : Fin 4) : ℕ) = 1 := rfl
      have e2 : ((2 : Fin 4) : ℕ) = 2 := rfl
      have e3 : ((3 : Fin 4) : ℕ) = 3 := rfl
      rw [e0, e1, e2, e3]
      ring
    rw [this, Finset.mul_sum]
    apply Finset.sum_congr rfl
    intro j _
    show (∏ a, bsplineD (N.n a) (N.U a) (N.degree a).toNat (idx a) (x a)) * _ = _
    ring
  · intro c hc
    rw [eval_apply, eval_apply]
    apply Finset.sum_congr rfl
    intro idx _
    congr 1
    show (if h : c < 4 then _ else _) = _
    rw [dif_neg (by omega)]

/-- `M` is an affine map: its last row is `(0, 0, 0, 1)` -/
def IsAffine (M : Mat4 K) : Prop := M 3 0 = 0 ∧ M 3 1 = 0 ∧ M 3 2 = 0 ∧ M 3 3 = 1

/-- the point of the object at `x` -/
def Nrb.point (N : Nrb K d) (x : Fin d → K) : Fin 3 → K := fun c => N.proj x c

/-- the affine map of a matrix: linear part and translation -/
def affPart (M : Mat4 K) (v : Fin 3 → K) : Fin 3 → K :=
  fun c => M c.castSucc 0 * v 0 + M c.castSucc 1 * v 1 + M c.castSucc 2 * v 2 + M c.castSucc 3

/-- C21: an affine transform acts on the points of the object; weights and fields are unchanged. -/
theorem C21_transform_affine (N : Nrb K d) {M : Mat4 K} (hM : IsAffine M) {x : Fin d → K}
    (hw : N.eval x 3 ≠ 0) :
    (N.transform M).point x = affPart M (N.point x) ∧ (N.transform M).eval x 3 = N.eval x 3 ∧
    ∀ c, 4 ≤ c → (N.transform M).proj x c = N.proj x c := by
  obtain ⟨h1, h2⟩ := C21_transform_homogeneous N M x
  have h3 : (N.transform M).eval x 3 = N.eval x 3 := by
    have := h1 3
    rw [Fin.sum_univ_four, hM.1, hM.2.1, hM.2.2.1, hM.2.2.2] at this
    simpa using this
  refine ⟨?_, h3, ?_⟩
  · funext c
    unfold Nrb.point Nrb.proj affPart
    rw [h3]
    have := h1 c.castSucc
    rw [Fin.sum_univ_four] at this
    have e : ((c.castSucc : Fin 4) : ℕ) = c := rfl
    have e0 : ((0 : Fin 4) : ℕ) = 0 := rfl
    have e1 : ((1 : Fin 4) : ℕ) = 1 := rfl
    have e2 : ((2 : Fin 4) : ℕ) = 2 := rfl
    have e3 : ((3 : Fin 4) : ℕ) = 3 := rfl
    have f0 : ((0 : Fin 3) : ℕ) = 0 := rfl
    have f1 : ((1 : Fin 3) : ℕ) = 1 := rfl
    have f2 : ((2 : Fin 3) : ℕ) = 2 := rfl
    rw [e, e0, e1, e2, e3] at this
    dsimp only
    rw [this, f0, f1, f2]
    field_simp
  · intro c hc
    unfold Nrb.proj
    rw [h3, h2 c hc]

/-- the displacement meant by the arguments of `translate` -/
inductive IsDispl : ArrArg K → Option ℤ → (Fin 3 → K) → Prop
  | vec (l : List K) (h : l.length ≤ 3) : IsDispl (.vec l) none (fun i => l.getD i 0)
  | first (x : K) : IsDispl (.scalar x) none ![x, 0, 0]
  | axis (x : K) (axis : ℤ) (a : Fin 3) (h : normAxis 3 axis = .ok a) :
      IsDispl (.scalar x) (some axis) (Pi.single a x)

theorem transVec_ok {displ : ArrArg K} {axis : Option ℤ} {t : Fin 3 → K} (h : IsDispl displ axis t) :
    transVec displ axis = .ok t := by
  cases h with
  | vec l h => unfold transVec; dsimp only; rw [pyAssert_ok h]; rfl
  | first x =>
    show Except.ok _ = Except.ok _
    congr 1
    funext i
    fin_cases i <;> rfl
  | axis x axis a h =>
    unfold transVec setEntry
    dsimp only
    rw [h]
    rfl

theorem transMat_affine (t : Fin 3 → K) : IsAffine (transMat t) := by
  refine ⟨?_, ?_, ?_, ?_⟩ <;> simp [transMat] <;> rfl

theorem affPart_transMat (t v : Fin 3 → K) : affPart (transMat t) v = v + t := by
  funext c
  fin_cases c <;> simp [affPart, transMat, Matrix.one_apply] <;> rfl

/-- C21: `nrb.translate` moves every point by the displacement -/
theorem C21_translate (N : Nrb K d) {displ : ArrArg K} {axis : Option ℤ} {t : Fin 3 → K}
    (h : IsDispl displ axis t) :
    ∃ N', N.translate displ axis = .ok N' ∧ ∀ x, N.eval x 3 ≠ 0 →
      N'.point x = N.point x + t ∧ N'.eval x 3 = N.eval x 3 ∧
      ∀ c, 4 ≤ c → N'.proj x c = N.proj x c := by
  refine ⟨N.transform (compose 1 (transMat t)), ?_, ?_⟩
  · unfold Nrb.translate Transform.translate
    rw [transVec_ok h]
    rfl
  · intro x hw
    rw [compose, mul_one]
    have := C21_transform_affine N (transMat_affine t) hw
    rwa [affPart_transMat] at this

/-- the factors meant by the arguments of `scale` -/
inductive IsScale : ArrArg K → Option ℤ → (Fin 3 → K) → Prop
  | vec (l : List K) (h : l.length ≤ 3) : IsScale (.vec l) none (fun i => l.getD i 1)
  | uniform (x : K) : IsScale (.scalar x) none (fun _ => x)
  | axis (x : K) (axis : ℤ) (a : Fin 3) (h : normAxis 3 axis = .ok a) :
      IsScale (.scalar x) (some axis) (fun i => if i = a then x else 1)

theorem scaleVec_ok {s : ArrArg K} {axis : Option ℤ} {t : Fin 3 → K} (h : IsScale s axis t) :
    scaleVec s axis = .ok t := by
  cases h with
  | vec l h => unfold scaleVec; dsimp only; rw [pyAssert_ok h]; rfl
  | uniform x => rfl
  | axis x axis a h =>
    unfold scaleVec setEntry
    dsimp only
    rw [h]
    show Except.ok _ = Except.ok _
    congr 1
    funext i
    simp [Function.update_apply]

theorem embed3_affine (R : Matrix (Fin 3) (Fin 3) K) : IsAffine (embed3 R) := by
  refine ⟨?_, ?_, ?_, ?_⟩ <;> simp [embed3]

theorem affPart_embed3 (R : Matrix (Fin 3) (Fin 3) K) (v : Fin 3 → K) :
    affPart (embed3 R) v = R.mulVec v := by
  funext c
  rw [Matrix.mulVec, dotProduct, Fin.sum_univ_three]
  fin_cases c <;> simp [affPart, embed3]

/-- C21: `nrb.scale` multiplies the coordinates of every point by the factors -/
theorem C21_scale (N : Nrb K d) {s : ArrArg K} {axis : Option ℤ} {t : Fin 3 → K}
    (h : IsScale s axis t) :
    ∃ N', N.scale s axis = .ok N' ∧ ∀ x, N.eval x 3 ≠ 0 →
      (∀ c, N'.point x c = t c * N.point x c) ∧ N'.eval x 3 = N.eval x 3 ∧
      ∀ c, 4 ≤ c → N'.proj x c = N.proj x c := by
  refine ⟨N.transform (compose 1 (embed3 (Matrix.diagonal t))), ?_, ?_⟩
  · unfold Nrb.scale Transform.scale
    rw [scaleVec_ok h]
    rfl
  · intro x hw
    rw [compose, mul_one]
    have := C21_transform_affine N (embed3_affine (Matrix.diagonal t)) hw
    rw [affPart_embed3] at this
    refine ⟨?_, this.2⟩
    intro c
    rw [this.1, Matrix.mulVec_diagonal]

end field

/-! ## Rotations -/

/-- rotation about the unit vector `u`, as a formula on vectors:
`cos a v + sin a (u × v) + (1 - cos a) (u · v) u` -/
noncomputable def rotVec (a : ℝ) (u v : Fin 3 → ℝ) : Fin 3 → ℝ := fun i =>
  Real.cos a * v i +
  Real.sin a * (![u 1 * v 2 - u 2 * v 1, u 2 * v 0 - u 0 * v 2, u 0 * v 1 - u 1 * v 0] : Fin 3 → ℝ) i +
  (1 - Real.cos a) * (u 0 * v 0 + u 1 * v 1 + u 2 * v 2) * u i

/-- the unit vector meant by the axis argument of `rotate` -/
inductive IsAxis : AxisArg → (Fin 3 → ℝ) → Prop
  | int (axis : ℤ) (a : Fin 3) (h : normAxis 3 axis = .ok a) : IsAxis (.int axis) (Pi.single a 1)
  | vec (l : List ℝ) (u : Fin 3 → ℝ) (r : ℝ) (h : 1 ≤ l.length ∧ l.length ≤ 3) (hr : 0 < r)
      (h1 : u 0 * u 0 + u 1 * u 1 + u 2 * u 2 = 1) (hl : ∀ i : Fin 3, l.getD i 0 = r * u i) :
      IsAxis (.vec l) u

theorem IsAxis.unit {ax : AxisArg} {u : Fin 3 → ℝ} (h : IsAxis ax u) :
    u 0 * u 0 + u 1 * u 1 + u 2 * u 2 = 1 := by
  cases h with
  | int axis a h => fin_cases a <;> simp [Pi.single_apply]
  | vec l r h hr h1 hl => assumption

theorem axisRot_eq (c s : ℝ) (a : Fin 3) : axisRot c s a = rodrigues c s (Pi.single a 1) := by
  ext i j
  fin_cases a <;> fin_cases i <;> fin_cases j <;> simp [axisRot, rodrigues, Pi.single_apply]

theorem rotMat_ok {ax : AxisArg} {u : Fin 3 → ℝ} (h : IsAxis ax u) (a : ℝ) :
    rotMat a ax = .ok (rodrigues (Real.cos a) (Real.sin a) u) := by
  cases h with
  | int axis b h =>
    unfold rotMat
    dsimp only
    rw [h, res_ok_bind, axisRot_eq]
    rfl
  | vec l u r h hr h1 hl =>
    have hn : norm3 (fun i => l.getD i 0) = r := by
      unfold norm3
      simp only [hl]
      rw [show r * u 0 * (r * u 0) + r * u 1 * (r * u 1) + r * u 2 * (r * u 2) =
        r ^ 2 * (u 0 * u 0 + u 1 * u 1 + u 2 * u 2) by ring, h1, mul_one, Real.sqrt_sq hr.le]
    unfold rotMat
    dsimp only
    rw [pyAssert_ok h, res_ok_bind, hn, pyAssert_ok hr, res_ok_bind]
    show Except.ok _ = Except.ok _
    congr 2
    funext i
    rw [hl]
    field_simp

theorem rodrigues_eq (c s : ℝ) (u : Fin 3 → ℝ) : rodrigues c s u =
    !![c + (1 - c) * (u 0 * u 0), s * -u 2 + (1 - c) * (u 0 * u 1), s * u 1 + (1 - c) * (u 0 * u 2);
       s * u 2 + (1 - c) * (u 1 * u 0), c + (1 - c) * (u 1 * u 1), s * -u 0 + (1 - c) * (u 1 * u 2);
       s * -u 1 + (1 - c) * (u 2 * u 0), s * u 0 + (1 - c) * (u 2 * u 1), c + (1 - c) * (u 2 * u 2)] := by
  ext i j
  fin_cases i <;> fin_cases j <;> rfl

theorem rodrigues_mulVec (a : ℝ) (u v : Fin 3 → ℝ) :
    (rodrigues (Real.cos a) (Real.sin a) u).mulVec v = rotVec a u v := by
  funext i
  rw [Matrix.mulVec, dotProduct, Fin.sum_univ_three]
  fin_cases i <;> simp [rodrigues, rotVec] <;> ring

/-- C21: `nrb.rotate` turns every point about the axis by the angle; an integer axis is the same as the
coordinate vector. -/
theorem C21_rotate {d : ℕ} (N : Nrb ℝ d) {ax : AxisArg} {u : Fin 3 → ℝ} (h : IsAxis ax u) (a : ℝ) :
    ∃ N', N.rotate a ax = .ok N' ∧ ∀ x, N.eval x 3 ≠ 0 →
      N'.point x = rotVec a u (N.point x) ∧ N'.eval x 3 = N.eval x 3 ∧
      ∀ c, 4 ≤ c → N'.proj x c = N.proj x c := by
  by_cases ha : a = 0
  · subst ha
    refine ⟨N.transform (1 : Mat4 ℝ), ?_, ?_⟩
    · unfold Nrb.rotate Transform.rotate
      rw [if_pos rfl]
      rfl
    · intro x hw
      have := C21_transform_affine N (M := 1) ⟨by simp, by simp, by simp, by simp⟩ hw
      refine ⟨?_, this.2⟩
      rw [this.1]
      funext c
      fin_cases c <;> simp [affPart, rotVec, Matrix.one_apply]
  · refine ⟨N.transform (compose 1 (embed3 (rodrigues (Real.cos a) (Real.sin a) u))), ?_, ?_⟩
    · unfold Nrb.rotate Transform.rotate
      rw [if_neg ha, rotMat_ok h]
      rfl
    · intro x hw
      rw [compose, mul_one]
      have := C21_transform_affine N (embed3_affine (rodrigues (Real.cos a) (Real.sin a) u)) hw
      rwa [affPart_embed3, rodrigues_mulVec] at this

/-! ## C22 -/

theorem rodrigues_orth {c s : ℝ} {u : Fin 3 → ℝ} (hu : u 0 * u 0 + u 1 * u 1 + u 2 * u 2 = 1)
    (hc : s ^ 2 + c ^ 2 = 1) : rodrigues c s u * (rodrigues c s u).transpose = 1 := by
  ext i j
  rw [Matrix.mul_apply, Fin.sum_univ_three]
  have h : ∀ δ : ℝ, ((1 : Matrix (Fin 3) (Fin 3) ℝ) i j = δ) →
      rodrigues c s u i 0 * (rodrigues c s u).transpose 0 j +
      rodrigues c s u i 1 * (rodrigues c s u).transpose 1 j +
      rodrigues c s u i 2 * (rodrigues c s u).transpose 2 j = δ := by
    intro δ hδ
    subst hδ
    fin_cases i <;> fin_cases j <;> simp [rodrigues_eq]
    · linear_combination ((1 - c) ^ 2 * u 0 * u 0 + s ^ 2) * hu + (1 - u 0 * u 0) * hc
    · linear_combination ((1 - c) ^ 2 * u 0 * u 1) * hu + (- u 0 * u 1) * hc
    · linear_combination ((1 - c) ^ 2 * u 0 * u 2) * hu + (- u 0 * u 2) * hc
    · linear_combination ((1 - c) ^ 2 * u 1 * u 0) * hu + (- u 1 * u 0) * hc
    · linear_combination ((1 - c) ^ 2 * u 1 * u 1 + s ^ 2) * hu + (1 - u 1 * u 1) * hc
    · linear_combination ((1 - c) ^ 2 * u 1 * u 2) * hu + (- u 1 * u 2) * hc
    · linear_combination ((1 - c) ^ 2 * u 2 * u 0) * hu + (- u 2 * u 0) * hc
    · linear_combination ((1 - c) ^ 2 * u 2 * u 1) * hu + (- u 2 * u 1) * hc
    · linear_combination ((1 - c) ^ 2 * u 2 * u 2 + s ^ 2) * hu + (1 - u 2 * u 2) * hc
  exact h _ rfl

theorem rodrigues_det {c s : ℝ} {u : Fin 3 → ℝ} (hu : u 0 * u 0 + u 1 * u 1 + u 2 * u 2 = 1)
    (hc : s ^ 2 + c ^ 2 = 1) : (rodrigues c s u).det = 1 := by
  rw [Matrix.det_fin_three]
  simp [rodrigues_eq]
  linear_combination (c * s ^ 2 + (1 - c) * c ^ 2 +
    (1 - c) * s ^ 2 * (u 0 * u 0 + u 1 * u 1 + u 2 * u 2 + 1)) * hu + hc

/-- C22: the matrix of a rotation is orthogonal with determinant 1 and fixes the axis -/
theorem C22_rotation_rigid {ax : AxisArg} {u : Fin 3 → ℝ} (h : IsAxis ax u) (a : ℝ) :
    ∃ R, rotMat a ax = .ok R ∧ R * R.transpose = 1 ∧ R.det = 1 ∧ R.mulVec u = u := by
  refine ⟨_, rotMat_ok h a, rodrigues_orth h.unit (Real.sin_sq_add_cos_sq a),
    rodrigues_det h.unit (Real.sin_sq_add_cos_sq a), ?_⟩
  rw [rodrigues_mulVec]
  have hu := h.unit
  unfold rotVec
  rw [hu]
  funext i
  fin_cases i <;> simp <;> ring

theorem rodrigues_add {a b : ℝ} {u : Fin 3 → ℝ} (hu : u 0 * u 0 + u 1 * u 1 + u 2 * u 2 = 1) :
    rodrigues (Real.cos b) (Real.sin b) u * rodrigues (Real.cos a) (Real.sin a) u =
      rodrigues (Real.cos (a + b)) (Real.sin (a + b)) u := by
  rw [Real.cos_add, Real.sin_add]
  generalize Real.cos a = c
  generalize Real.sin a = s
  generalize Real.cos b = c'
  generalize Real.sin b = s'
  ext i j
  rw [Matrix.mul_apply, Fin.sum_univ_three]
  have h : ∀ δ : ℝ, rodrigues (c * c' - s * s') (s * c' + c * s') u i j = δ →
      rodrigues c' s' u i 0 * rodrigues c s u 0 j + rodrigues c' s' u i 1 * rodrigues c s u 1 j +
      rodrigues c' s' u i 2 * rodrigues c s u 2 j = δ := by
    intro δ hδ
    subst hδ
    fin_cases i <;> fin_cases j <;> simp [rodrigues_eq]
    · linear_combination ((1 - c) * (1 - c') * u 0 * u 0 - s * s') * hu
    · linear_combination ((1 - c) * (1 - c') * u 0 * u 1) * hu
    · linear_combination ((1 - c) * (1 - c') * u 0 * u 2) * hu
    · linear_combination ((1 - c) * (1 - c') * u 1 * u 0) * hu
    · linear_combination ((1 - c) * (1 - c') * u 1 * u 1 - s * s') * hu
    · linear_combination ((1 - c) * (1 - c') * u 1 * u 2) * hu
    · linear_combination ((1 - c) * (1 - c') * u 2 * u 0) * hu
    · linear_combination ((1 - c) * (1 - c') * u 2 * u 1) * hu
    · linear_combination ((1 - c) * (1 - c') * u 2 * u 2 - s * s') * hu
  exact h _ rfl

theorem embed3_mul {K : Type} [Field K] (R S : Matrix (Fin 3) (Fin 3) K) :
    embed3 R * embed3 S = embed3 (R * S) := by
  ext i j
  rw [Matrix.mul_apply, Fin.sum_univ_four]
  fin_cases i <;> fin_cases j <;> simp [embed3, Matrix.mul_apply, Fin.sum_univ_three]

theorem embed3_one {K : Type} [Field K] : embed3 (1 : Matrix (Fin 3) (Fin 3) K) = 1 := by
  ext i j
  fin_cases i <;> fin_cases j <;> simp [embed3, Matrix.one_apply]

theorem rodrigues_zero (u : Fin 3 → ℝ) : rodrigues (Real.cos 0) (Real.sin 0) u = 1 := by
  ext i j
  fin_cases i <;> fin_cases j <;> simp [rodrigues_eq]

theorem rotate_ok {ax : AxisArg} {u : Fin 3 → ℝ} (h : IsAxis ax u) (A : Mat4 ℝ) (a : ℝ) :
    Transform.rotate A a ax = .ok (embed3 (rodrigues (Real.cos a) (Real.sin a) u) * A) := by
  unfold Transform.rotate
  by_cases ha : a = 0
  · subst ha
    rw [if_pos rfl, rodrigues_zero, embed3_one, one_mul]
    rfl
  · rw [if_neg ha, rotMat_ok h]
    rfl

/-- C22: rotating by `a` and then by `b` about one axis is rotating by `a + b` -/
theorem C22_rotate_add {ax : AxisArg} {u : Fin 3 → ℝ} (h : IsAxis ax u) (A : Mat4 ℝ) (a b : ℝ) :
    ∃ B, Transform.rotate A a ax = .ok B ∧ Transform.rotate B b ax = Transform.rotate A (a + b) ax := by
  refine ⟨_, rotate_ok h A a, ?_⟩
  rw [rotate_ok h, rotate_ok h, ← rodrigues_add h.unit, ← embed3_mul, Matrix.mul_assoc]

/-- one call on a transform -/
inductive TOp where
  | translate (displ : ArrArg ℝ) (axis : Option ℤ)
  | scale (s : ArrArg ℝ) (axis : Option ℤ)
  | rotate (angle : ℝ) (axis : AxisArg)
  | compose3 (R : Matrix (Fin 3) (Fin 3) ℝ)
  | compose4 (M : Mat4 ℝ)

/-- effect of one call on the matrix -/
noncomputable def TOp.run (A : Mat4 ℝ) : TOp → Res (Mat4 ℝ)
  | .translate v ax => Transform.translate A v ax
  | .scale s ax => Transform.scale A s ax
  | .rotate a ax => Transform.rotate A a ax
  | .compose3 R => pure (Transform.compose A (embed3 R))
  | .compose4 M => pure (Transform.compose A M)

theorem call_mul {K : Type} [Field K] (M A : Mat4 K) (x : Fin 4 → K) :
    Transform.call (M * A) x = Transform.call M (Transform.call A x) := by
  funext c
  simp only [Transform.call, Matrix.transpose_apply, Matrix.mul_apply, Finset.mul_sum, Finset.sum_mul]
  rw [Finset.sum_comm]
  apply Finset.sum_congr rfl
  intro i _
  apply Finset.sum_congr rfl
  intro j _
  ring

theorem call_one {K : Type} [Field K] (x : Fin 4 → K) : Transform.call (1 : Mat4 K) x = x := by
  funext c
  simp [Transform.call, Matrix.one_apply]

theorem TOp.run_mul {A B : Mat4 ℝ} {op : TOp} (h : op.run A = .ok B) :
    ∃ M, op.run 1 = .ok M ∧ B = M * A := by
  cases op with
  | translate v ax =>
    simp only [TOp.run, Transform.translate] at h ⊢
    cases ht : transVec v ax with
    | error e => rw [ht] at h; cases h
    | ok t => rw [ht] at h; cases h; exact ⟨_, rfl, by simp [compose]⟩
  | scale v ax =>
    simp only [TOp.run, Transform.scale] at h ⊢
    cases ht : scaleVec v ax with
    | error e => rw [ht] at h; cases h
    | ok t => rw [ht] at h; cases h; exact ⟨_, rfl, by simp [compose]⟩
  | rotate a ax =>
    simp only [TOp.run, Transform.rotate] at h ⊢
    split_ifs at h ⊢ with ha
    · cases h; exact ⟨_, rfl, by simp⟩
    · cases ht : rotMat a ax with
      | error e => rw [ht] at h; cases h
      | ok t => rw [ht] at h; cases h; exact ⟨_, rfl, by simp [compose]⟩
  | compose3 R => cases h; exact ⟨_, rfl, by simp [compose]⟩
  | compose4 M => cases h; exact ⟨_, rfl, by simp [compose]⟩

/-- C22: a transform built by a chain of successful calls applies them in call order: a point goes
first through the initial transform, then through the transform of the first call, and so on. -/
theorem C22_call_order : ∀ (ops : List TOp) (A B : Mat4 ℝ), ops.foldlM TOp.run A = .ok B →
    ∃ Ms : List (Mat4 ℝ), List.Forall₂ (fun (op : TOp) M => op.run 1 = .ok M) ops Ms ∧
      ∀ x, Transform.call B x = Ms.foldl (fun y M => Transform.call M y) (Transform.call A x) := by
  intro ops
  induction ops with
  | nil => intro A B h; cases h; exact ⟨[], .nil, fun _ => rfl⟩
  | cons op ops ih =>
    intro A B h
    rw [List.foldlM_cons] at h
    cases hA : op.run A with
    | error e => rw [hA] at h; cases h
    | ok A' =>
      rw [hA, res_ok_bind] at h
      obtain ⟨M, hM, rfl⟩ := TOp.run_mul hA
      obtain ⟨Ms, h1, h2⟩ := ih _ _ h
      exact ⟨M :: Ms, .cons hM h1, fun x => by rw [h2, call_mul]; rfl⟩

/-- C22: what the single calls do to homogeneous points `(x, y, z, w)` -/
theorem C22_single_calls {M : Mat4 ℝ} {x : Fin 4 → ℝ} :
    (∀ v ax t, IsDispl v ax t → (TOp.translate v ax).run 1 = .ok M →
      Transform.call M x = ![x 0 + x 3 * t 0, x 1 + x 3 * t 1, x 2 + x 3 * t 2, x 3]) ∧
    (∀ s ax t, IsScale s ax t → (TOp.scale s ax).run 1 = .ok M →
      Transform.call M x = ![x 0 * t 0, x 1 * t 1, x 2 * t 2, x 3]) ∧
    (∀ a ax u, IsAxis ax u → (TOp.rotate a ax).run 1 = .ok M →
      Transform.call M x = ![rotVec a u ![x 0, x 1, x 2] 0, rotVec a u ![x 0, x 1, x 2] 1,
        rotVec a u ![x 0, x 1, x 2] 2, x 3]) := by
  have key : ∀ R : Matrix (Fin 3) (Fin 3) ℝ, Transform.call (embed3 R) x =
      ![R.mulVec ![x 0, x 1, x 2] 0, R.mulVec ![x 0, x 1, x 2] 1, R.mulVec ![x 0, x 1, x 2] 2, x 3] := by
    intro R
    funext c
    simp only [Transform.call, Matrix.transpose_apply, Fin.sum_univ_four, Matrix.mulVec, dotProduct,
      Fin.sum_univ_three]
    fin_cases c <;> simp [embed3] <;> ring
  refine ⟨?_, ?_, ?_⟩
  · intro v ax t h hM
    simp only [TOp.run, Transform.translate] at hM
    rw [transVec_ok h] at hM
    cases hM
    rw [compose, mul_one]
    funext c
    simp only [Transform.call, Matrix.transpose_apply, Fin.sum_univ_four]
    fin_cases c <;> simp [transMat, Matrix.one_apply]
  · intro v ax t h hM
    simp only [TOp.run, Transform.scale] at hM
    rw [scaleVec_ok h] at hM
    cases hM
    rw [compose, mul_one, key]
    simp [Matrix.mulVec_diagonal, mul_comm]
  · intro a ax u h hM
    simp only [TOp.run, rotate_ok h] at hM
    cases hM
    rw [mul_one, key, rodrigues_mulVec]

/-- C22: the inverse undoes the transform, on points and as a matrix; singular matrices are rejected -/
theorem C22_inverse {K : Type} [Field K] [DecidableEq K] (A : Mat4 K) :
    (A.det = 0 → Transform.inverse A = .error .value) ∧
    (A.det ≠ 0 → ∃ B, Transform.inverse A = .ok B ∧ Transform.compose A B = 1 ∧
      Transform.compose B A = 1 ∧ ∀ x, Transform.call B (Transform.call A x) = x ∧
        Transform.call A (Transform.call B x) = x) := by
  constructor
  · intro h; unfold Transform.inverse; rw [if_pos h]
  · intro h
    have hu : IsUnit A.det := isUnit_iff_ne_zero.mpr h
    refine ⟨A⁻¹, by unfold Transform.inverse; rw [if_neg h], Matrix.nonsing_inv_mul A hu,
      Matrix.mul_nonsing_inv A hu, fun x => ⟨?_, ?_⟩⟩
    · rw [← call_mul, Matrix.nonsing_inv_mul A hu, call_one]
    · rw [← call_mul, Matrix.mul_nonsing_inv A hu, call_one]

/-! ## concrete cases -/

example := C21_transform_affine Ex.S (M := transMat ![1, 2, 3]) (transMat_affine _) (x := ![1, 1 / 2])
  (by decide +kernel)
example := C21_translate Ex.S (IsDispl.axis 5 (-1) 2 rfl)
example := C21_scale Ex.S (IsScale.vec [2, 3] (by simp))
/-- the axis `(3, 0, 4)` -/
theorem Ex.axis_ok : IsAxis (.vec [3, 0, 4]) ![3 / 5, 0, 4 / 5] :=
  .vec _ _ 5 (by simp) (by norm_num) (by simp; norm_num) (by intro i; fin_cases i <;> simp <;> norm_num)
example := C22_rotation_rigid Ex.axis_ok (Real.pi / 3)
example := C22_rotate_add Ex.axis_ok (transMat ![1, 2, 3]) 1 2

end Igakit
