import Verif.Spec.History
import Verif.Spec.Io
import Mathlib.Analysis.Convex.Basic

/-!
# Specification: control points that are averages of other control points
-/

namespace Igakit

variable {K : Type} [Field K] [LinearOrder K] [IsStrictOrderedRing K] {d d' : ℕ}

/-- every convex set of homogeneous points that contains the control points of `N` contains those of `N'` -/
def Nrb.Averages (N : Nrb K d) (N' : Nrb K d') : Prop :=
  ∀ C : Set (ℕ → K), Convex K C → (∀ idx, N.InNet idx → N.P idx ∈ C) → ∀ idx, N'.InNet idx → N'.P idx ∈ C

/-- the calls that only add knots, raise degrees or change parameters: all but `unclamp` and `remove` -/
def Geo.Adds : Geo K → Prop
  | .unclamp _ _ _ => False
  | .remove _ _ _ _ => False
  | _ => True

end Igakit
