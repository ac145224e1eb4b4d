import Verif.Spec.Data
import Verif.Spec.Averages

/-!
# Specification: differences of neighbouring control points
-/

namespace Igakit

variable {K : Type} [Field K] [LinearOrder K] [IsStrictOrderedRing K] {d : ℕ}

/-- along axis `a` neighbouring control points differ by an element of `S` times the distance of the knots between them.
(These elements, times the degree, are the control points of the derivative.) -/
def Nrb.Slopes (N : Nrb K d) (a : Fin d) (S : Set (ℕ → K)) : Prop :=
  ∀ idx, N.InNet idx → idx a + 1 < N.shape a → ∃ s ∈ S, N.P (Function.update idx a (idx a + 1)) =
    N.P idx + (N.U a (idx a + N.degree a + 1) - N.U a (idx a + 1)) • s

/-- the calls that add knots or double the knots at the ends, and keep degree and parameters -/
def Geo.AddsKnots : Geo K → Prop
  | .insert _ _ _ => True
  | .refine _ _ => True
  | .clamp _ _ => True
  | _ => False

/-- neighbouring knots are at most `h` apart, on all axes -/
def Nrb.Mesh (N : Nrb K d) (h : K) : Prop :=
  ∀ a j, 0 ≤ j → j + 1 < N.len a → N.U a (j + 1) - N.U a j ≤ h

/-- the control point acts at the parameter point: no factor of its basis function is zero there -/
def Nrb.Acts (N : Nrb K d) (idx : Fin d → ℤ) (x : Fin d → K) : Prop :=
  N.InNet idx ∧ ∀ a, Spec.bsplineD (N.n a) (N.U a) (N.degree a).toNat (idx a) (x a) ≠ 0

end Igakit
