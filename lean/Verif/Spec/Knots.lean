import Mathlib.Algebra.Order.Field.Basic
import Mathlib.Algebra.Order.Group.Unbundled.Abs
import Mathlib.Data.Int.Basic
import Mathlib.Data.Int.Interval
import Mathlib.Data.Finset.Filter

/-!
# Specification: knot vectors

Independent of the model.  A knot vector of degree `p` with `n+1` control points is an array
`U[0], ..., U[n+p+1]`; only these entries are meaningful.
-/

namespace Igakit.Spec

variable {K : Type*} [LinearOrder K]

/-- `U[lo..hi]` is nondecreasing -/
def SortedOn (U : ℤ → K) (lo hi : ℤ) : Prop :=
  ∀ i j, lo ≤ i → i ≤ j → j ≤ hi → U i ≤ U j

/-- Knot vector on which the domain `[U[p], U[n+1]]` starts and ends with a nonempty span.
(`p ≤ n` is the check `m >= 2*p+1` of igalib.pyf.) -/
structure ValidKnots (n p : ℤ) (U : ℤ → K) : Prop where
  one_le : 1 ≤ p
  le : p ≤ n
  sorted : SortedOn U 0 (n + p + 1)
  first : U p < U (p + 1)
  last : U n < U (n + 1)

/-- `u` lies in the nonempty closed span `[U[k], U[k+1]]` -/
structure InSpan (U : ℤ → K) (k : ℤ) (u : K) : Prop where
  left : U k ≤ u
  right : u ≤ U (k + 1)
  ne : U k < U (k + 1)

/-- number of positions in `lo..hi` holding the value `u` -/
def mult (U : ℤ → K) (lo hi : ℤ) (u : K) : ℕ :=
  ((Finset.Icc lo hi).filter (fun i => U i = u)).card

/-- distinct knots in `lo..hi` are at least `eps` apart -/
def Separated [Field K] (eps : K) (U : ℤ → K) (lo hi : ℤ) : Prop :=
  ∀ i j, lo ≤ i → i ≤ hi → lo ≤ j → j ≤ hi → U i < U j → eps ≤ U j - U i

/-- every knot in `lo..hi` is either equal to `u` or at least `eps` away from it -/
def SepFrom [Field K] (eps u : K) (U : ℤ → K) (lo hi : ℤ) : Prop :=
  ∀ j, lo ≤ j → j ≤ hi → U j = u ∨ eps ≤ |u - U j|

end Igakit.Spec
