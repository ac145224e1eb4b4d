import Verif.Spec.Curve
import Mathlib.Data.Fintype.Pi
import Mathlib.Algebra.BigOperators.Fin

/-!
# Specification: tensor product B-splines in any number of parameters
-/

namespace Igakit.Spec

variable {K : Type*} [Field K] [LinearOrder K]
variable {E : Type*} [AddCommGroup E] [Module K E]

/-- the textbook tensor product sum `Σ N_{i₁}(x₁)⋯N_{i_d}(x_d) P_{i₁…i_d}` -/
def tensor {d : ℕ} (n : Fin d → ℤ) (p : Fin d → ℕ) (U : Fin d → ℤ → K) (P : (Fin d → ℤ) → E)
    (x : Fin d → K) : E :=
  ∑ idx ∈ Fintype.piFinset (fun a => Finset.Icc 0 (n a)),
    (∏ a, bsplineD (n a) (U a) (p a) (idx a) (x a)) • P idx

end Igakit.Spec
