import Verif.Spec.Affine
import Verif.Spec.Elevate
import Verif.Spec.Nrb
import Mathlib.Order.Bounds.Basic

/-!
# Specification: compatible NURBS objects
-/

namespace Igakit
open Spec

variable {K : Type} [Field K] [LinearOrder K] {d m : ℕ}

/-- `N'` is `N` after an affine change of every parameter: at a parameter of its domain it takes the value
of `N` at the corresponding parameter of the domain of `N` -/
structure Nrb.AffineOf (N N' : Nrb K d) : Prop where
  nc : N'.nc = N.nc
  eval : ∀ z, N'.InDom z → N'.eval z = N.eval (fun b => affMap (N'.lo b) (N'.hi b) (N.lo b) (N.hi b) (z b))

/-- what `compat` asks of the objects `N` on axis `a`; `[c, e]` is the hull of their domains.  Knots are
compared after stretching to `[c, e]`. -/
structure Compatible (eps : K) (N : Fin m → Nrb K d) (a : Fin d) (c e : K) : Prop where
  left : ∀ i, ClampedL ((N i).degree a) ((N i).U a)
  right : ∀ i, ClampedR ((N i).n a) ((N i).degree a) ((N i).U a)
  mult : ∀ i, MultLe ((N i).n a) ((N i).degree a) ((N i).U a)
  sep : ∀ i j k l, 0 ≤ k → k < (N i).len a → 0 ≤ l → l < (N j).len a →
    affMap ((N i).lo a) ((N i).hi a) c e ((N i).U a k) = affMap ((N j).lo a) ((N j).hi a) c e ((N j).U a l) ∨
    eps < |affMap ((N i).lo a) ((N i).hi a) c e ((N i).U a k) -
      affMap ((N j).lo a) ((N j).hi a) c e ((N j).U a l)|
  jump : ∀ i j, (∀ k, (N k).degree a ≤ (N j).degree a) → (N i).degree a < (N j).degree a →
    (N i).degree a ≤ 9 ∨ NoJump ((N i).n a) ((N i).degree a) ((N j).degree a - (N i).degree a) ((N i).U a)

/-- multiplicity at the parameter corresponding to `x` of object `N` brought to degree `p` on axis `a` -/
def raisedMult (N : Nrb K d) (a : Fin d) (c e : K) (p : ℤ) (x : K) : ℤ :=
  let s := N.multOf a (affMap c e (N.lo a) (N.hi a) x)
  if s = 0 then 0 else s + (p - N.degree a)

/-- the objects `R` agree on axis `a`: common domain `[c, e]`, common degree the largest of `N`, same clamped
knots, with no more interior knots than needed -/
structure Merged (N R : Fin m → Nrb K d) (a : Fin d) (c e : K) : Prop where
  lo : ∀ i, (R i).lo a = c
  hi : ∀ i, (R i).hi a = e
  degree : ∀ i, IsGreatest (Set.range fun j => (N j).degree a) ((R i).degree a)
  left : ∀ i, ClampedL ((R i).degree a) ((R i).U a)
  right : ∀ i, ClampedR ((R i).n a) ((R i).degree a) ((R i).U a)
  mult : ∀ i x, c < x → x < e →
    IsGreatest (Set.range fun j => raisedMult (N j) a c e ((R i).degree a) x) ((R i).multOf a x : ℤ)
  shape : ∀ i j, (R i).shape a = (R j).shape a
  len : ∀ i j, (R i).len a = (R j).len a
  knots : ∀ i j k, 0 ≤ k → k < (R i).len a → (R i).U a k = (R j).U a k

end Igakit
