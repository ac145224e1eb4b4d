import Verif.Spec.Knots

/-!
# Specification: conditions on knot vectors for degree elevation
-/

namespace Igakit.Spec

variable {K : Type*} [LinearOrder K]

/-- interior knots have multiplicity at most `p` -/
def MultLe (n p : ℤ) (U : ℤ → K) : Prop :=
  ∀ x, U p < x → x < U (n + 1) → (mult U 0 (n + p + 1) x : ℤ) ≤ p

/-- nonempty spans of the domain are longer than `eps` -/
def Gaps [Field K] (eps : K) (n p : ℤ) (U : ℤ → K) : Prop :=
  ∀ k, p ≤ k → k ≤ n → U k < U (k + 1) → eps < U (k + 1) - U k

/-- `x < y` are neighbouring distinct knots strictly inside the domain -/
structure Neighbours (n p : ℤ) (U : ℤ → K) (x y : K) : Prop where
  lo : U p < x
  lt : x < y
  hi : y < U (n + 1)
  left : 0 < mult U 0 (n + p + 1) x
  right : 0 < mult U 0 (n + p + 1) y
  none : ∀ z, x < z → z < y → mult U 0 (n + p + 1) z = 0

/-- between neighbouring interior knots the multiplicity does not jump up too much: it rises by at most
one, or the knot removal at the right one does not reach across the left one -/
def NoJump (n p t : ℤ) (U : ℤ → K) : Prop :=
  ∀ x y, Neighbours n p U x y →
    (mult U 0 (n + p + 1) y : ℤ) ≤ mult U 0 (n + p + 1) x + 1 ∨
    (p - mult U 0 (n + p + 1) y + 1) / 2 ≤ mult U 0 (n + p + 1) x + t + 1

end Igakit.Spec
