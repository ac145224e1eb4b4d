import Verif.Model.FloatRotate
import Verif.Model.Cad

/-!
# The full circle in floating point arithmetic
-/

namespace Igakit.Cad

/-- the net of the full circle (cad.py:99-105), each operation rounded: `Cw[:,:2] *= radius`, `wm = np.sqrt(2)/2`,
`Cw[1::2,:] *= wm` -/
noncomputable def circleNetF (rd : ℝ → ℝ) (radius : ℝ) : ℤ → Fin 4 → ℝ := fun j =>
  let q := circlePts.getD j.toNat (0, 0)
  let wm := rd (rd (Real.sqrt 2) / 2)
  if j % 2 = 1 then ![rd (rd (q.1 * radius) * wm), rd (rd (q.2 * radius) * wm), rd (0 * wm), rd (1 * wm)]
  else ![rd (q.1 * radius), rd (q.2 * radius), 0, 1]

/-- `cad.circle(radius)` without centre and angle (cad.py:96-105, 146-152) in floating point.  The knots 0, 1/4, 1/2, 3/4, 1 are
numbers of the machine, `np.linspace(0, 1, 5)` gives them without rounding -/
noncomputable def circleF (rd : ℝ → ℝ) (radius : ℝ) : Res (Nrb ℝ 1) := circleObj 4 (circleNetF rd radius)

/-- `cad.circle(radius, center)` without angle (cad.py:96-105, 142-152) in floating point: `L` may be the result.  The code applies the
transformation to the net before the object is made (line 145); here it is applied to the net of the object, by the same
`transform.__call__` -/
def CircleAtF (rd : ℝ → ℝ) (radius : ℝ) (t : Fin 3 → ℝ) (L : Nrb ℝ 1) : Prop :=
  ∃ L0 A, circleF rd radius = .ok L0 ∧ ChainF rd [Transform.transMat t] A ∧ L0.TransformF rd A L

end Igakit.Cad
