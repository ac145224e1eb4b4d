import Verif.Spec.Nrb
import Mathlib.Algebra.Polynomial.Derivative

/-!
# Specification: maps that close smoothly

Near the two ends of its domain a spline is a polynomial.  The map closes to order `C` if the derivatives of orders
`0, …, C` of these two polynomials agree at the respective ends.
-/

namespace Igakit
open Polynomial

variable {K : Type} [Field K] [LinearOrder K]

/-- near `lo` and near `hi` the function is polynomial, and the derivatives up to order `C` agree at the two ends -/
def Spec.ClosesTo (f : K → K) (lo hi : K) (C : ℕ) : Prop :=
  ∃ (A B : K[X]) (δ : K), 0 < δ ∧ (∀ u, lo ≤ u → u < lo + δ → u ≤ hi → f u = A.eval u) ∧
    (∀ u, hi - δ < u → u ≤ hi → lo ≤ u → f u = B.eval u) ∧ ∀ l ≤ C, (derivative^[l] A).eval lo = (derivative^[l] B).eval hi

/-- the object closes to order `C` along axis `a`, for all values of the other parameters, in homogeneous coordinates
and fields -/
def Nrb.Closes {d : ℕ} (N : Nrb K d) (a : Fin d) (C : ℕ) : Prop :=
  ∀ x, N.InDom x → ∀ c, Spec.ClosesTo (fun u => N.eval (Function.update x a u) c) (N.lo a) (N.hi a) C

/-- the first `C + 1` slices of the control net along axis `a` are the last ones -/
def Nrb.Wraps {d : ℕ} (N : Nrb K d) (a : Fin d) (C : ℕ) : Prop :=
  ∀ idx : Fin d → ℤ, (∀ b, 0 ≤ idx b ∧ idx b < N.shape b) → idx a ≤ C → N.P idx = N.P (Function.update idx a (N.shape a - 1 - C + idx a))

end Igakit
