import Verif.Props.Basis

/-!
# C05 for the single point routines `CurvePoint` and `SurfacePoint` of module `bspline`
-/

set_option linter.unusedSectionVars false

namespace Igakit
open Spec

variable {K : Type*} [Field K] [LinearOrder K] [IsStrictOrderedRing K]
variable {E : Type*} [AddCommGroup E] [Module K E]

/-- C05: `CurvePoint` is the spline sum -/
theorem C05_CurvePoint (jk : ℤ → K) {n : ℤ} {p : ℕ} {U : ℤ → K} (hv : ValidKnots n p U)
    {u : K} (h1 : U p ≤ u) (h2 : u ≤ U (n + 1)) (P : ℤ → E) :
    curvePoint jk n p U P u = ∑ i ∈ Finset.Icc 0 n, bsplineD n U p i u • P i :=
  curvePoint_eq_bsplineD jk hv h1 h2 P

/-- C05: `SurfacePoint` is the tensor product sum (its control net has the second parameter first) -/
theorem C05_SurfacePoint (jk : ℤ → K) {n : ℤ} {p : ℕ} {U : ℤ → K} (hv : ValidKnots n p U) {m : ℤ}
    {q : ℕ} {V : ℤ → K} (hw : ValidKnots m q V) (P : ℤ → ℤ → E) {u v : K} (h1 : U p ≤ u)
    (h2 : u ≤ U (n + 1)) (h3 : V q ≤ v) (h4 : v ≤ V (m + 1)) :
    surfacePoint jk n p U m q V P u v = ∑ a ∈ Finset.Icc 0 n, ∑ b ∈ Finset.Icc 0 m,
      (bsplineD n U p a u * bsplineD m V q b v) • P b a := by
  have e : surfacePoint jk n p U m q V P u v =
      curvePoint jk n p U (fun a => curvePoint jk m q V (fun b => P b a) v) u := by
    unfold surfacePoint
    simp only
    simp only [forUp_sum (fun vj => (basisFuns jk (findSpan n p u U) u p U _ *
      basisFuns jk (findSpan m q v V) v q V vj) •
        P (findSpan m q v V - q + vj) (findSpan n p u U - p + _))]
    rw [forUp_sum (fun uj => ∑ j ∈ Finset.range (q + 1), (basisFuns jk (findSpan n p u U) u p U uj *
      basisFuns jk (findSpan m q v V) v q V j) •
        P (findSpan m q v V - q + j) (findSpan n p u U - p + uj)), zero_add, curvePoint_eq_basis]
    apply Finset.sum_congr rfl
    intro r _
    rw [curvePoint_eq_basis, Finset.smul_sum]
    simp only [mul_smul]
  rw [e, curvePoint_eq_bsplineD jk hv h1 h2]
  simp only [curvePoint_eq_bsplineD jk hw h3 h4, Finset.smul_sum, mul_smul]

example (P : ℤ → ℤ → ℚ) := C05_SurfacePoint (fun _ => 7) Ex.U_valid Ex.W_valid P (u := 2) (v := 1 / 2)
  (by decide +kernel) (by decide +kernel) (by decide +kernel) (by decide +kernel)

end Igakit
