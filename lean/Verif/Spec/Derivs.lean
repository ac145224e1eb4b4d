import Verif.Spec.Nrb
import Mathlib.Analysis.Calculus.Deriv.Basic

/-!
# Specification: partial derivatives of the rational map of an object

`pd S dirs f x` is the iterated partial derivative of `f` in the directions `dirs` (the first entry is
derived last), each within the one-dimensional sets `S`.
-/

namespace Igakit
open Spec

/-- iterated partial derivatives within the box `S` -/
noncomputable def Spec.pd {d : ℕ} (S : Fin d → Set ℝ) :
    List (Fin d) → ((Fin d → ℝ) → ℝ) → (Fin d → ℝ) → ℝ
  | [], f => f
  | i :: l, f => fun y => derivWithin (fun t => Spec.pd S l f (Function.update y i t)) (S i) (y i)

variable {K : Type} [Field K] [LinearOrder K] {d : ℕ}

/-- the denominator `Σ N_i w_i` -/
def Nrb.denom (N : Nrb K d) (y : Fin d → K) : K := N.eval y 3

/-- rational field with control values `F`: `Σ N_i w_i F_i / Σ N_i w_i` -/
def Nrb.ratField (N : Nrb K d) (F : (Fin d → ℤ) → ℕ → K) (c : ℕ) (y : Fin d → K) : K :=
  tensor N.n (fun a => (N.degree a).toNat) N.U (fun idx => N.P idx 3 * F idx c) y / N.denom y

/-- `S` is the cell of knot spans around `x`: on each axis the open or half open span containing `x a`;
the closed right end only at the end of the domain -/
def Nrb.Cell (N : Nrb ℝ d) (x : Fin d → ℝ) (S : Fin d → Set ℝ) : Prop :=
  ∀ a, ∃ k, N.degree a ≤ k ∧ k ≤ N.n a ∧ x a ∈ S a ∧
    (S a = Set.Ioo (N.U a k) (N.U a (k + 1)) ∨ S a = Set.Ico (N.U a k) (N.U a (k + 1)) ∨
      (S a = Set.Ioc (N.U a k) (N.U a (k + 1)) ∧ N.U a (k + 1) = N.hi a ∧ x a = N.hi a))

end Igakit
