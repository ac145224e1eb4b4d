import Verif.Spec.Cox
import Mathlib.Algebra.Module.BigOperators
import Mathlib.Algebra.BigOperators.Group.Finset.Basic
import Mathlib.Data.Multiset.MapFold

/-!
# Specification: B-spline curves

`curve` is the textbook sum; control points live in any module over the scalars
(`E = ℕ → K` for the homogeneous coordinates and fields of a control point, or a whole slab of a
tensor product net).
-/

namespace Igakit.Spec

variable {K : Type*} [Field K] [LinearOrder K]
variable {E : Type*} [AddCommGroup E] [Module K E]

/-- point of the B-spline curve with knots `U[0..n+p+1]` and control points `P[0..n]` -/
def curve (n : ℤ) (p : ℕ) (U : ℤ → K) (P : ℤ → E) (u : K) : E :=
  ∑ i ∈ Finset.Icc 0 n, bsplineD n U p i u • P i

/-- the multiset of the entries `U[0], ..., U[m]` -/
def knotMS (U : ℤ → K) (m : ℤ) : Multiset K := (Finset.Icc 0 m).val.map U

/-- left end clamped: the first `p+1` knots coincide -/
def ClampedL (p : ℤ) (U : ℤ → K) : Prop := ∀ j, 0 ≤ j → j ≤ p → U j = U p
/-- right end clamped: the last `p+1` knots coincide -/
def ClampedR (n p : ℤ) (U : ℤ → K) : Prop := ∀ j, n + 1 ≤ j → j ≤ n + p + 1 → U j = U (n + 1)
/-- both end knots are at least `eps` away from the other knots -/
def SepEnds (eps : K) (n p : ℤ) (U : ℤ → K) : Prop :=
  SepFrom eps (U p) U 0 (n + p + 1) ∧ SepFrom eps (U (n + 1)) U 0 (n + p + 1)

end Igakit.Spec
