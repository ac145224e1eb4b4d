import Verif.Model.Nurbs
import Mathlib.LinearAlgebra.Matrix.NonsingularInverse
import Mathlib.LinearAlgebra.Matrix.Notation
import Mathlib.Analysis.SpecialFunctions.Trigonometric.Basic

/-!
# Model of /repo/igakit/transform.py and of the methods of `NURBS` built on it

A `transform` is its 4 by 4 matrix.  `np.dot` of matrices is the matrix product; `np.linalg.inv`
(numpy, not part of the repository) is the inverse matrix, and raises for a singular matrix.
Angles and norms need sine, cosine and square root, hence real numbers for rotations.
-/

namespace Igakit

/-- 4 by 4 matrices (transform.py:9) -/
abbrev Mat4 (K : Type) := Matrix (Fin 4) (Fin 4) K

/-- array-like arguments: `ndim = 0` or `ndim = 1` (transform.py:56-57, 75-76) -/
inductive ArrArg (K : Type) where
  | scalar (x : K)
  | vec (l : List K)

namespace Transform

section field
variable {K : Type} [Field K]

/-- `__call__`, transform.py:17-18: `np.dot(xyzw, M.T)` on one point -/
def call (M : Mat4 K) (x : Fin 4 → K) : Fin 4 → K := fun c => ∑ j, x j * M.transpose j c

/-- the 3 by 3 case of `compose`, transform.py:45-48 -/
def embed3 (R : Matrix (Fin 3) (Fin 3) K) : Mat4 K := fun i j =>
  if h : i.val < 3 ∧ j.val < 3 then R ⟨i, h.1⟩ ⟨j, h.2⟩ else if i = 3 ∧ j = 3 then 1 else 0

/-- `compose`, transform.py:52 -/
def compose (A M : Mat4 K) : Mat4 K := M * A

/-- `inverse`, transform.py:33-38: `clone` and `invert` on the clone; LinAlgError for a singular matrix -/
noncomputable def inverse [DecidableEq K] (A : Mat4 K) : Res (Mat4 K) := if A.det = 0 then .error .value else .ok A⁻¹

/-- `t[axis] = v` on an array of three entries; an array `v` of more or less than one entry raises
(transform.py:66, 85) -/
def setEntry (t : Fin 3 → K) (axis : ℤ) (v : ArrArg K) : Res (Fin 3 → K) := do
  let a ← normAxis 3 axis
  match v with
  | .scalar x => pure (Function.update t a x)
  | .vec [x] => pure (Function.update t a x)
  | .vec _ => throw .value

/-- the vector `t` of `translate`, transform.py:56-66 (`T[:t.size,3] = t` on an identity matrix) -/
def transVec (displ : ArrArg K) (axis : Option ℤ) : Res (Fin 3 → K) :=
  match displ, axis with
  | .vec l, none => do
    pyAssert (l.length ≤ 3)
    pure (fun i => l.getD i 0)
  | .scalar x, none => setEntry 0 0 (.scalar x)
  | v, some a => setEntry 0 a v

/-- the matrix `T` of `translate`, transform.py:67-68 -/
def transMat (t : Fin 3 → K) : Mat4 K := fun i j =>
  if h : i.val < 3 ∧ j = 3 then t ⟨i, h.1⟩ else (1 : Mat4 K) i j

/-- `translate`, transform.py:55-70 -/
def translate (A : Mat4 K) (displ : ArrArg K) (axis : Option ℤ) : Res (Mat4 K) := do
  let t ← transVec displ axis
  pure (compose A (transMat t))

/-- the vector `s` of `scale`, transform.py:75-85 (missing entries keep the 1 of the identity) -/
def scaleVec (scale : ArrArg K) (axis : Option ℤ) : Res (Fin 3 → K) :=
  match scale, axis with
  | .vec l, none => do
    pyAssert (l.length ≤ 3)
    pure (fun i => l.getD i 1)
  | .scalar x, none => pure (fun _ => x)
  | v, some a => setEntry 1 a v

/-- `scale`, transform.py:74-90 -/
def scale (A : Mat4 K) (s : ArrArg K) (axis : Option ℤ) : Res (Mat4 K) := do
  let v ← scaleVec s axis
  pure (compose A (embed3 (Matrix.diagonal v)))

end field

/-- the axis of a rotation: an integer or a vector (transform.py:95-96) -/
inductive AxisArg where
  | int (a : ℤ)
  | vec (l : List ℝ)

/-- entries of `R` set from a unit vector, transform.py:106-114 -/
def rodrigues (c s : ℝ) (u : Fin 3 → ℝ) : Matrix (Fin 3) (Fin 3) ℝ :=
  !![c, s * -u 2, s * u 1; s * u 2, c, s * -u 0; s * -u 1, s * u 0, c] +
    (1 - c) • Matrix.of (fun i j => u i * u j)

/-- the matrix `R` of `rotate` for an integer axis, transform.py:116-125 -/
def axisRot (c s : ℝ) (a : Fin 3) : Matrix (Fin 3) (Fin 3) ℝ :=
  if a = 0 then !![1, 0, 0; 0, c, -s; 0, s, c]
  else if a = 1 then !![c, 0, s; 0, 1, 0; -s, 0, c]
  else !![c, -s, 0; s, c, 0; 0, 0, 1]

/-- `np.linalg.norm` of a vector of three entries (transform.py:104) -/
noncomputable def norm3 (u : Fin 3 → ℝ) : ℝ := Real.sqrt (u 0 * u 0 + u 1 * u 1 + u 2 * u 2)

/-- the matrix `R` of `rotate`, transform.py:95-125; the angle is not 0 -/
noncomputable def rotMat (angle : ℝ) : AxisArg → Res (Matrix (Fin 3) (Fin 3) ℝ)
  | .int a => do
    let a ← normAxis 3 a
    pure (axisRot (Real.cos angle) (Real.sin angle) a)
  | .vec l => do
    pyAssert (1 ≤ l.length ∧ l.length ≤ 3)
    let u : Fin 3 → ℝ := fun i => l.getD i 0
    pyAssert (norm3 u > 0)
    pure (rodrigues (Real.cos angle) (Real.sin angle) (fun i => u i / norm3 u))

open Classical in
/-- `rotate`, transform.py:92-127; angle 0 returns before the axis is looked at -/
noncomputable def rotate (A : Mat4 ℝ) (angle : ℝ) (axis : AxisArg) : Res (Mat4 ℝ) :=
  if angle = 0 then pure A
  else do
    let R ← rotMat angle axis
    pure (compose A (embed3 R))

end Transform

namespace Nrb
open Transform

/-- `NURBS.translate` and `move`, nurbs.py:495-501 -/
def translate {K : Type} [Field K] [LinearOrder K] {d : ℕ} (N : Nrb K d) (displ : ArrArg K)
    (axis : Option ℤ) : Res (Nrb K d) := do
  let t ← Transform.translate 1 displ axis
  pure (N.transform t)

/-- `NURBS.scale`, nurbs.py:503-505 -/
def scale {K : Type} [Field K] [LinearOrder K] {d : ℕ} (N : Nrb K d) (s : ArrArg K)
    (axis : Option ℤ) : Res (Nrb K d) := do
  let t ← Transform.scale 1 s axis
  pure (N.transform t)

/-- `NURBS.rotate`, nurbs.py:507-509 -/
noncomputable def rotate {d : ℕ} (N : Nrb ℝ d) (angle : ℝ) (axis : AxisArg) : Res (Nrb ℝ d) := do
  let t ← Transform.rotate 1 angle axis
  pure (N.transform t)

end Nrb
end Igakit
