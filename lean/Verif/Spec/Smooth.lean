import Verif.Spec.Nrb
import Mathlib.Analysis.Calculus.ContDiff.Defs

/-!
# Specification: smoothness along one parameter
-/

namespace Igakit

/-- at the value `u` of parameter `a` the map (homogeneous coordinates and fields) is `m` times continuously
differentiable in this parameter, for all values of the others -/
def Nrb.SmoothAlong {d : ℕ} (N : Nrb ℝ d) (a : Fin d) (u : ℝ) (m : ℕ) : Prop :=
  ∀ x, N.InDom x → ∀ c, c < N.nc → ContDiffAt ℝ m (fun v => N.eval (Function.update x a v) c) u

end Igakit
