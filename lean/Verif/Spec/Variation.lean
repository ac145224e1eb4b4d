import Mathlib.Algebra.Order.Field.Basic

/-!
# Specification: sign changes of a sequence
-/

namespace Igakit.Spec

variable {K : Type*} [Field K] [LinearOrder K]

/-- number of consecutive entries of opposite sign -/
def changes : List K → ℕ
  | x :: y :: l => (if x * y < 0 then 1 else 0) + changes (y :: l)
  | _ => 0

/-- number of sign changes of a sequence; zeros do not count -/
def signChanges (l : List K) : ℕ := changes (l.filter (· ≠ 0))

/-- the sequence `f 0, …, f m` -/
def seqTo (m : ℤ) (f : ℤ → K) : List K := (List.range (m + 1).toNat).map (fun i : ℕ => f i)

end Igakit.Spec
