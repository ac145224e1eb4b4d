import Verif.Spec.History
import Verif.Props.Derivs

/-!
# Specification: derivatives of an object and of one made from it
-/

namespace Igakit
open Spec

variable {d : ℕ}

/-- at the points of the grid `X` both objects are differentiated without exception, and get the same derivatives of their fields (of their
coordinates if they have no fields) up to third order and the same mapped gradients, whatever the unset memory contains -/
structure Nrb.SameDerivs (N N' : Nrb ℝ d) (r : Fin d → ℤ) (X : Fin d → ℤ → ℝ) : Prop where
  derivative : ∀ J J' (order : ℕ), 1 ≤ order → order ≤ 3 → ∃ G G', N.derivative J order none false r X = .ok G ∧
    N'.derivative J' order none false r X = .ok G' ∧
    ∀ g, (∀ a, 0 ≤ g a ∧ g a ≤ r a) → ∀ l : List (Fin d), l.length = order → ∀ c, G' g l c = G g l c
  mapped : ∀ J J', ∃ G G', N.gradient J none true r X = .ok G ∧ N'.gradient J' none true r X = .ok G' ∧
    ∀ g, (∀ a, 0 ≤ g a ∧ g a ≤ r a) → ∀ (i : Fin d) c, G' g [i] c = G g [i] c

/-- no parameter of `x` is a knot -/
def Nrb.OffKnots (N : Nrb ℝ d) (x : Fin d → ℝ) : Prop := ∀ a j, 0 ≤ j → j < N.len a → N.U a j ≠ x a

/-- the last row of the matrix is `0 0 0 1`, as for moves, rotations, scalings, reflections -/
structure Placed.Affine (s : Placed ℝ d) : Prop where
  left : ∀ j, j ≠ 3 → s.mat 3 j = 0
  one : s.mat 3 3 = 1

/-- chain rule: where the point of the second grid has the parameters that belong to those of the first, a derivative by present parameters
is the derivative by the original ones they stem from, divided by the factors of the change; coordinates are multiplied by the matrix -/
def Nrb.ChainDerivs (N N' : Nrb ℝ d) (s : Placed ℝ d) (r r' : Fin d → ℤ) (X X' : Fin d → ℤ → ℝ) : Prop :=
  ∀ J J' (order : ℕ), 1 ≤ order → order ≤ 3 →
    ∃ G G', N.derivative J order none false r X = .ok G ∧ N'.derivative J' order none false r' X' = .ok G' ∧
      ∀ g g', (∀ a, 0 ≤ g a ∧ g a ≤ r a) → (∀ a, X' a (g' a) = s.slope a * X (s.axis a) (g (s.axis a)) + s.off a) →
        N.OffKnots (fun a => X a (g a)) → N'.OffKnots (fun a => X' a (g' a)) → ∀ l : List (Fin d), l.length = order →
        (4 < N.nc → ∀ c, G' g' l c = (l.map fun i => (s.slope i)⁻¹).prod * G g (l.map s.axis) c) ∧
        (N.nc ≤ 4 → ∀ c : Fin 3, G' g' l c = (l.map fun i => (s.slope i)⁻¹).prod *
          ∑ j : Fin 3, s.mat c.castSucc j.castSucc * G g (l.map s.axis) j)

/-- same mapped gradients at corresponding points where the map is not singular -/
def Nrb.SameMapped (N N' : Nrb ℝ d) (s : Placed ℝ d) (r r' : Fin d → ℤ) (X X' : Fin d → ℤ → ℝ) : Prop :=
  ∀ J J', ∃ G G', N.gradient J none true r X = .ok G ∧ N'.gradient J' none true r' X' = .ok G' ∧
      ∀ g g', (∀ a, 0 ≤ g a ∧ g a ≤ r a) → (∀ a, X' a (g' a) = s.slope a * X (s.axis a) (g (s.axis a)) + s.off a) →
        N.OffKnots (fun a => X a (g a)) → N'.OffKnots (fun a => X' a (g' a)) →
        (Matrix.of fun i j : Fin d => pdo [j] (fun y => N.proj y i) (fun a => X a (g a))).det ≠ 0 →
        ∀ (i : Fin d) c, G' g' [i] c = G g [i] c

end Igakit
