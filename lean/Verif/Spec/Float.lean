import Verif.Model.Float

/-! # Specification: floating point rounding -/

namespace Igakit

variable {K : Type} [Field K] [LinearOrder K]

/-- `rd` rounds to the floating point numbers `F`: monotone, exact on `F`, and the difference of two different numbers of `F`
is not rounded to zero (gradual underflow).  All of this holds for the IEEE formats in every rounding mode, as long as nothing
overflows. -/
structure Rounds (F : K → Prop) (rd : K → K) : Prop where
  mem : ∀ x, F (rd x)
  exact : ∀ x, F x → rd x = x
  mono : Monotone rd
  zero : F 0
  one : F 1
  apart : ∀ x y, F x → F y → x < y → 0 < rd (y - x)

/-- relative error at most `δ`: holds for the IEEE formats when nothing overflows or underflows (`δ = 2^-53` for doubles
rounded to nearest) -/
def RelErr (δ : K) (rd : K → K) : Prop := ∀ x, |rd x - x| ≤ δ * |x|

/-- the factor by which one rounding can change a number, in either direction -/
def growth (δ : K) : K := (1 - δ)⁻¹

end Igakit
