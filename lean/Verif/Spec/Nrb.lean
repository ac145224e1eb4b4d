import Verif.Model.Nurbs
import Verif.Spec.Tensor

/-!
# Specification: what a NURBS object means

Only the data of an object (shape, knots, control net) is used, none of the algorithms of the model.
-/

namespace Igakit
open Spec

variable {K : Type} [Field K] [LinearOrder K] {d : ℕ}

namespace Nrb

/-- every axis has a valid knot vector -/
def Valid (N : Nrb K d) : Prop := ∀ a, ValidKnots (N.n a) (N.degree a) (N.U a)

/-- the parameters lie in the domain -/
def InDom (N : Nrb K d) (x : Fin d → K) : Prop := ∀ a, N.lo a ≤ x a ∧ x a ≤ N.hi a

/-- the homogeneous map of the object: tensor product B-spline sum of all components -/
def eval (N : Nrb K d) (x : Fin d → K) : ℕ → K :=
  tensor N.n (fun a => (N.degree a).toNat) N.U N.P x

/-- the point in space (components 0..2) or field (components 4...) at `x` -/
def proj (N : Nrb K d) (x : Fin d → K) (c : ℕ) : K := N.eval x c / N.eval x 3

/-- the knots of axis `a` as a multiset -/
def knots (N : Nrb K d) (a : Fin d) : Multiset K := knotMS (N.U a) (N.len a - 1)

/-- multiplicity of a value among the knots of axis `a` -/
def multOf (N : Nrb K d) (a : Fin d) (u : K) : ℕ := mult (N.U a) 0 (N.len a - 1) u

/-- every knot of axis `a` is `u` or at least `eps` away from it -/
def Sep (N : Nrb K d) (eps : K) (a : Fin d) (u : K) : Prop := SepFrom eps u (N.U a) 0 (N.len a - 1)

/-- `N'` has the same domain, degrees and components as `N` and is the same map -/
structure SameMap (N N' : Nrb K d) : Prop where
  nc : N'.nc = N.nc
  degree : ∀ a, N'.degree a = N.degree a
  lo : ∀ a, N'.lo a = N.lo a
  hi : ∀ a, N'.hi a = N.hi a
  eval : ∀ x, N.InDom x → N'.eval x = N.eval x

end Nrb
end Igakit
