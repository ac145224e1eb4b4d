import Verif.Spec.Cox
import Mathlib.Algebra.Polynomial.Derivative
import Mathlib.Algebra.Polynomial.Roots
import Mathlib.Order.Interval.Set.Infinite

/-!
# Specification: derivatives of functions that are polynomial on an interval

`PolyDeriv f a b l u v`: on `[a, b)` the function `f` is a polynomial whose `l`-th derivative takes
the value `v` at `u`.  For `a < b` the value is unique (`PolyDeriv.unique`).
-/

namespace Igakit.Spec
open Polynomial

variable {K : Type*} [Field K] [LinearOrder K]

/-- on `[a, b)` the function `f` is a polynomial whose `l`-th derivative at `u` is `v` -/
def PolyDeriv (f : K → K) (a b : K) (l : ℕ) (u v : K) : Prop :=
  ∃ Q : K[X], (∀ x, a ≤ x → x < b → f x = Q.eval x) ∧ v = (derivative^[l] Q).eval u

theorem PolyDeriv.unique [IsStrictOrderedRing K] {f : K → K} {a b : K} (hab : a < b) {l : ℕ} {u v v' : K}
    (h : PolyDeriv f a b l u v) (h' : PolyDeriv f a b l u v') : v = v' := by
  obtain ⟨Q, h1, rfl⟩ := h
  obtain ⟨Q', h1', rfl⟩ := h'
  have : Q = Q' := by
    refine Polynomial.eq_of_infinite_eval_eq _ _ (Set.Infinite.mono ?_ (Set.Ico_infinite hab))
    intro x hx
    exact (h1 x hx.1 hx.2).symm.trans (h1' x hx.1 hx.2)
  rw [this]

end Igakit.Spec
