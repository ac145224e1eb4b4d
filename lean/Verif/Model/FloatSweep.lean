import Verif.Model.FloatCompose
import Verif.Model.FloatTrans
import Verif.Model.Cad

/-!
# `extrude` and `sweep` in floating point arithmetic
-/

namespace Igakit.Cad
open Transform

variable {d : ℕ}

/-- `cad.extrude` (cad.py:414-420) in floating point: `R` may be the result.  `t` is the displacement of `translate`; the first row of
the new axis is a copy, the second one is the product with the matrix (transform.py:17-18) -/
def ExtrudeF (rd : ℝ → ℝ) (N : Nrb ℝ d) (t : Fin 3 → ℝ) (R : Nrb ℝ (d + 1)) : Prop :=
  d ≤ 2 ∧ ∃ A L, ChainF rd [transMat t] A ∧ N.TransformF rd A L ∧ Nrb.ctor (N.knotsWith unitKnots)
    (.arr (N.netWith 2 4 (fun idx j c => if j = 0 then N.P idx c else L.P idx c))) none none = .ok R

/-- one entry of the net of `sweep`: sum of the points (cad.py:546-548 with nurbs.py `points`), product of the weights (cad.py:549),
and the product of both in the constructor (nurbs.py:207-214); each operation rounded -/
noncomputable def sweepEntryF (rd : ℝ → ℝ) (S : Nrb ℝ d) (T : Nrb ℝ 1) (idx : Fin d → ℤ) (j : ℤ) (c : ℕ) : ℝ :=
  let w := rd (S.P idx 3 * T.P ![j] 3)
  if c < 3 then rd (rd (rd (S.P idx c / S.P idx 3) + rd (T.P ![j] c / T.P ![j] 3)) * w) else if c = 3 then w else 0

/-- `cad.sweep` (cad.py:544-551) in floating point; the net is given to the constructor with its weights multiplied in -/
noncomputable def sweepF (rd : ℝ → ℝ) (S : Nrb ℝ d) (T : Nrb ℝ 1) : Res (Nrb ℝ (d + 1)) := do
  pyAssert (1 ≤ d ∧ d ≤ 2)
  Nrb.ctor (S.knotsWith (T.knotNd 0)) (.arr (S.netWith (T.shape 0) 4 (sweepEntryF rd S T))) none none

end Igakit.Cad
