import Verif.Spec.Nrb

/-!
# Specification: a part of an object between two values of a parameter
-/

namespace Igakit
open Spec

variable {K : Type} [Field K] [LinearOrder K] {d : ℕ}

/-- `N'` is `N` restricted to `[u0, u1]` on axis `a`: `degree + 1` knots at each end, between them those of `N`, and
the same map -/
structure Nrb.IsPart (N : Nrb K d) (a : Fin d) (u0 u1 : K) (N' : Nrb K d) : Prop where
  valid : N'.Valid
  nc : N'.nc = N.nc
  degree : ∀ b, N'.degree b = N.degree b
  lo : N'.lo a = u0
  hi : N'.hi a = u1
  knots : N'.knots a = Multiset.replicate (N.degree a + 1).toNat u0 + (N.knots a).filter (fun x => u0 < x ∧ x < u1) +
    Multiset.replicate (N.degree a + 1).toNat u1
  others : ∀ b, b ≠ a → N'.shape b = N.shape b ∧ N'.U b = N.U b
  map : ∀ x, N'.InDom x → N'.eval x = N.eval x

end Igakit
