import Verif.Model.BSp

/-!
# Model of `FindSpanMult` (/repo/igakit/igalib.f90)
-/

namespace Igakit

variable {K : Type} [Field K] [LinearOrder K]

/-- `FindSpanMult`, igalib.f90:45-52 -/
def findSpanMult (eps : K) (n p : ℤ) (uu : K) (U : ℤ → K) : ℤ × ℤ :=
  let k := findSpan n p uu U
  let s := findMult eps k uu p U
  (k, s)

namespace BSp

/-- `BSp.FindSpanMult`, igalib.f90:1046-1053; check `p>=1`, `m>=2*p+1` (igalib.pyf:38-45) -/
def FindSpanMult (eps : K) (p m : ℤ) (U : ℤ → K) (uu : K) : Res (ℤ × ℤ) :=
  if 1 ≤ p ∧ 2 * p + 1 ≤ m then .ok (findSpanMult eps (m - (p + 1)) p uu U) else .error .f2py

end BSp

end Igakit
