import Verif.Spec.Curve
import Verif.Spec.Nrb
import Verif.Spec.Elevate
import Mathlib.LinearAlgebra.Matrix.Determinant.Basic

/-!
# Specification: collocation and interpolation
-/

namespace Igakit.Spec

variable {K : Type*} [Field K] [LinearOrder K]

/-- whatever values are prescribed at the points `X 0, …, X n`, exactly one spline with these knots takes them -/
def UniqueInterp (E : Type*) [AddCommGroup E] [Module K E] (n : ℤ) (p : ℕ) (U X : ℤ → K) : Prop :=
  ∀ V : ℤ → E, ∃ P : ℤ → E, (∀ e, 0 ≤ e → e ≤ n → curve n p U P (X e) = V e) ∧
    ∀ Q : ℤ → E, (∀ e, 0 ≤ e → e ≤ n → curve n p U Q (X e) = V e) → ∀ i, 0 ≤ i → i ≤ n → Q i = P i

/-- the matrix stored as offsets and blocks of `p + 1` values: row `e` has the entries `B e 0, …, B e p`
in the columns `O e, …, O e + p` -/
def scatter (p : ℕ) (O : ℤ → ℤ) (B : ℤ → ℤ → K) (e i : ℤ) : K :=
  if O e ≤ i ∧ i ≤ O e + p then B e (i - O e) else 0

/-- clamped at both ends, and the interior knots are not of higher multiplicity than the degree -/
structure Standard (n p : ℤ) (U : ℤ → K) : Prop where
  left : ClampedL p U
  right : ClampedR n p U
  mult : MultLe n p U

end Igakit.Spec
