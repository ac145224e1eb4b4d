import Verif.Spec.Knots

/-!
# Specification: B-spline basis functions (Cox - de Boor recursion, textbook form)

The convention `x / 0 = 0` of Lean's field division is exactly the usual convention
"0/0 = 0" of the recursion for repeated knots.
-/

namespace Igakit.Spec

variable {K : Type*} [Field K]

/-- Cox - de Boor recursion started from the degree zero functions `χ` -/
def coxDB (U : ℤ → K) (χ : ℤ → K) (u : K) : ℕ → ℤ → K
  | 0, i => χ i
  | p + 1, i =>
    (u - U i) / (U (i + p + 1) - U i) * coxDB U χ u p i +
    (U (i + p + 2) - u) / (U (i + p + 2) - U (i + 1)) * coxDB U χ u p (i + 1)

/-- `N_{i,p}(u)`, right continuous: degree zero functions are indicators of `[U_i, U_{i+1})` -/
def bspline [LinearOrder K] (U : ℤ → K) (p : ℕ) (i : ℤ) (u : K) : K :=
  coxDB U (fun j => if U j ≤ u ∧ u < U (j + 1) then 1 else 0) u p i

/-- `N_{i,p}(u)`, left continuous (used at the right end of the domain):
degree zero functions are indicators of `(U_i, U_{i+1}]` -/
def bsplineL [LinearOrder K] (U : ℤ → K) (p : ℕ) (i : ℤ) (u : K) : K :=
  coxDB U (fun j => if U j < u ∧ u ≤ U (j + 1) then 1 else 0) u p i

/-- B-spline basis on the closed domain `[U_p, U_{n+1}]`: the last function is closed on the right -/
def bsplineD [LinearOrder K] (n : ℤ) (U : ℤ → K) (p : ℕ) (i : ℤ) (u : K) : K :=
  if u < U (n + 1) then bspline U p i u else bsplineL U p i u

/-- the polynomial piece of `N_{i,p}` on span `k` -/
def piece (U : ℤ → K) (k : ℤ) (p : ℕ) (i : ℤ) (u : K) : K :=
  coxDB U (fun j => if j = k then 1 else 0) u p i

end Igakit.Spec
