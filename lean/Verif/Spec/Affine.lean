import Mathlib.Algebra.Order.Field.Basic

/-! # Specification: the affine map between two intervals -/

namespace Igakit

variable {K : Type} [Field K]

/-- the affine map that takes `[a, b]` to `[c, e]` -/
def affMap (a b c e u : K) : K := (c * (b - u) + e * (u - a)) / (b - a)

end Igakit
