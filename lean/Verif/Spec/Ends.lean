import Verif.Spec.Derivs

/-!
# Specification: ends of the axes and corners of an object
(`false` is the low end of an axis, `true` the high end)
-/

namespace Igakit
open Spec

variable {K : Type} [Field K] [LinearOrder K] {d : ℕ}

/-- the axis is clamped at this end -/
def Nrb.ClampedAt (N : Nrb K d) (a : Fin d) : Bool → Prop
  | false => ClampedL (N.degree a) (N.U a)
  | true => ClampedR (N.n a) (N.degree a) (N.U a)

/-- the parameter of the end -/
def Nrb.endPar (N : Nrb K d) (a : Fin d) : Bool → K
  | false => N.lo a
  | true => N.hi a

/-- number of the outermost control point -/
def Nrb.endIdx (N : Nrb K d) (a : Fin d) : Bool → ℤ
  | false => 0
  | true => N.shape a - 1

/-- number of its neighbour -/
def Nrb.nextIdx (N : Nrb K d) (a : Fin d) : Bool → ℤ
  | false => 1
  | true => N.shape a - 2

/-- signed length of the outermost knot span, seen from the end -/
def Nrb.endSpan (N : Nrb K d) (a : Fin d) : Bool → K
  | false => N.U a (N.degree a + 1) - N.lo a
  | true => N.U a (N.shape a - 1) - N.hi a

end Igakit
