import Verif.Spec.Data

/-!
# Specification: changing one control point
-/

namespace Igakit

variable {K : Type} [Field K] [LinearOrder K] {d : ℕ}

/-- `M` has the knots of `N`, and its control points, weights and fields except those with index `i` -/
structure Nrb.ChangedAt (N M : Nrb K d) (i : Fin d → ℤ) : Prop where
  knots : N.SameKnots M
  inNet : N.InNet i
  net : ∀ idx, N.InNet idx → idx ≠ i → M.P idx = N.P idx

/-- `x` lies in the box spanned by the knots `i, …, i + degree + 1` -/
def Nrb.Supp (N : Nrb K d) (i : Fin d → ℤ) (x : Fin d → K) : Prop :=
  ∀ a, N.U a (i a) ≤ x a ∧ x a ≤ N.U a (i a + N.degree a + 1)

/-- `x` lies in the interior of this box -/
def Nrb.SuppInt (N : Nrb K d) (i : Fin d → ℤ) (x : Fin d → K) : Prop :=
  ∀ a, N.U a (i a) < x a ∧ x a < N.U a (i a + N.degree a + 1)

end Igakit
