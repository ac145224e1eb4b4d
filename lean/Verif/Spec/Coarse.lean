import Verif.Spec.Data

/-!
# Specification: the same map on fewer knots
-/

namespace Igakit
open Spec

variable {K : Type} [Field K] [LinearOrder K]

/-- `M` describes the same map as `N` (homogeneous coordinates and fields), with `r` copies of the knot `u` of axis
`a` less -/
structure Nrb.Coarser {d : ℕ} (N M : Nrb K d) (a : Fin d) (u : K) (r : ℕ) : Prop where
  valid : M.Valid
  nc : M.nc = N.nc
  degree : ∀ b, M.degree b = N.degree b
  lo : ∀ b, M.lo b = N.lo b
  hi : ∀ b, M.hi b = N.hi b
  knots : N.knots a = M.knots a + Multiset.replicate r u
  others : ∀ b, b ≠ a → M.knots b = N.knots b
  eval : ∀ x, N.InDom x → ∀ c, c < N.nc → M.eval x c = N.eval x c

end Igakit
