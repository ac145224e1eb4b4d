import Verif.Model.Quad
import Mathlib.Algebra.BigOperators.Group.Finset.Basic
import Mathlib.Algebra.BigOperators.Ring.Finset
import Mathlib.Algebra.Order.BigOperators.Group.Finset

/-!
# Specification: assembly of matrices and vectors from the quadrature data of a patch

The loops a finite element program writes over the data of `iga.BasisData`: over the elements, over the quadrature
points of an element, over the local functions; local function `a` of element `e` is the global one with number
`O[e] + a`.
-/

namespace Igakit.Spec

variable {K : Type} [Field K]

/-- entry `i, j` of the matrix with element matrices `J[e] * Σ_g W[g] * N[e,g,a,l1] * N[e,g,b,l2]` -/
def assembled (B : QuadData K) (Q p l1 l2 : ℕ) (i j : ℤ) : K :=
  ∑ e ∈ Finset.range B.r.toNat, ∑ g ∈ Finset.range Q, ∑ a ∈ Finset.range (p + 1), ∑ b ∈ Finset.range (p + 1),
    if B.O e + a = i ∧ B.O e + b = j then B.J e * B.W g * (B.N e g a l1 * B.N e g b l2) else 0

/-- entry `i` of the vector with element vectors `J[e] * Σ_g W[g] * N[e,g,a,0] * f(X[e,g])` -/
def assembledLoad (B : QuadData K) (Q p : ℕ) (f : K → K) (i : ℤ) : K :=
  ∑ e ∈ Finset.range B.r.toNat, ∑ g ∈ Finset.range Q, ∑ a ∈ Finset.range (p + 1),
    if B.O e + a = i then B.J e * B.W g * (B.N e g a 0 * f (B.X e g)) else 0

/-- the quadrature of a function over the patch -/
def patchSum (B : QuadData K) (Q : ℕ) (f : K → K) : K :=
  ∑ e ∈ Finset.range B.r.toNat, ∑ g ∈ Finset.range Q, B.J e * B.W g * f (B.X e g)

end Igakit.Spec
