import Verif.Model.FloatCompose

/-!
# Rotations in floating point arithmetic
-/

namespace Igakit
open Transform

/-- `np.sin(angle)` and `np.cos(angle)` (transform.py:97-98).  The library is not part of the repository; the assumption is a
relative error of at most `δ` -/
structure Libm (δ angle s c : ℝ) : Prop where
  sin : |s - Real.sin angle| ≤ δ * |Real.sin angle|
  cos : |c - Real.cos angle| ≤ δ * |Real.cos angle|

/-- the entries of `R` from the rounded sine, cosine and unit vector (transform.py:107-114), each operation rounded; changes of
sign are exact -/
def rodriguesF (rd : ℝ → ℝ) (c s : ℝ) (v : Fin 3 → ℝ) : Matrix (Fin 3) (Fin 3) ℝ := fun i j =>
  rd ((!![c, rd (s * -v 2), rd (s * v 1); rd (s * v 2), c, rd (s * -v 0); rd (s * -v 1), rd (s * v 0), c] :
    Matrix (Fin 3) (Fin 3) ℝ) i j + rd (rd (1 - c) * rd (v i * v j)))

/-- the matrix `R` of `rotate` (transform.py:95-125) in floating point: `R` may be this matrix.  `np.linalg.norm` is the rounded
square root of an `np.dot`.  Angle 0 returns earlier (line 94) and needs no matrix; conversions to float are exact -/
def RotF (rd : ℝ → ℝ) (δ angle : ℝ) : AxisArg → Matrix (Fin 3) (Fin 3) ℝ → Prop
  | .int a, R => ∃ i s c, normAxis 3 a = .ok i ∧ Libm δ angle s c ∧ R = axisRot c s i
  | .vec l, R => ∃ s c q, (1 ≤ l.length ∧ l.length ≤ 3) ∧ Libm δ angle s c ∧
      Fp.Dot rd [(l.getD 0 0, l.getD 0 0), (l.getD 1 0, l.getD 1 0), (l.getD 2 0, l.getD 2 0)] q ∧
      rd (Real.sqrt q) > 0 ∧ R = rodriguesF rd c s (fun i => rd (l.getD i 0 / rd (Real.sqrt q)))

end Igakit
