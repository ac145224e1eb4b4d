import Verif.Model.Io
import Verif.Spec.Nrb

/-! # Files: what is in range, what is read back -/

namespace Igakit

/-- the value that comes back when `x` is encoded and decoded: `x` rounded to the precision of the file -/
def Codec.round {V : Type} (c : Codec V) (x : V) : V := c.dec (c.enc x)

/-- a two's complement number with `w` bytes -/
def IntFits (w : ℕ) (x : ℤ) : Prop := -(256 ^ w : ℤ) ≤ 2 * x ∧ 2 * x < 256 ^ w

namespace Nrb

variable {K : Type} [Field K] [LinearOrder K] {d : ℕ}

/-- `idx` is an index of the control net -/
def InNet (N : Nrb K d) (idx : Fin d → ℤ) : Prop := ∀ a, 0 ≤ idx a ∧ idx a < N.shape a

/-- an object as the constructor leaves it, small enough for the integers of the file: one to three axes, at least two
control points on each axis, degree at least one, four components at least -/
structure Storable (w : ℕ) (N : Nrb K d) : Prop where
  dim : 1 ≤ d ∧ d ≤ 3
  size : ∀ a, 2 ≤ N.shape a
  degree : ∀ a, 1 ≤ N.degree a
  comps : 4 ≤ N.nc
  len : ∀ a, IntFits w (N.len a)
  total : IntFits w (N.nc * ∏ a, N.shape a)

/-- `M` is what the file keeps of `N`: knots and degrees; `k` of the three coordinates and the weight; the fields if `f`.
`rR` and `rS` round to the precision of the file. -/
structure KeptIn (rR rS : K → K) (k : ℕ) (f : Bool) (N M : Nrb K d) : Prop where
  shape : M.shape = N.shape
  len : M.len = N.len
  knots : ∀ a j, 0 ≤ j → j < N.len a → M.U a j = rR (N.U a j)
  coord : ∀ idx, N.InNet idx → ∀ c < k, M.P idx c = rS (N.P idx c)
  lost : ∀ idx, N.InNet idx → ∀ c, k ≤ c → c < 3 → M.P idx c = 0
  weight : ∀ idx, N.InNet idx → M.P idx 3 = rS (N.P idx 3)
  comps : M.nc = if f then N.nc else 4
  fields : f = true → ∀ idx, N.InNet idx → ∀ c, 4 ≤ c → c < N.nc →
    M.P idx c = rS (N.P idx c / N.P idx 3) * rS (N.P idx 3)

/-- `M` is what a file without control points keeps of `N`: knots and degrees, the fields if `f`; the control points are the
averages of `p` consecutive knots and the weights are one -/
structure KeptWithout (rR rS : K → K) (f : Bool) (N M : Nrb K d) : Prop where
  shape : M.shape = N.shape
  len : M.len = N.len
  knots : ∀ a j, 0 ≤ j → j < N.len a → M.U a j = rR (N.U a j)
  coord : ∀ idx, N.InNet idx → ∀ a : Fin d,
    M.P idx a = rS ((∑ j ∈ Finset.range (N.degree a).toNat, rR (N.U a (idx a + 1 + j))) / (N.degree a : K))
  zero : ∀ idx, N.InNet idx → ∀ c, d ≤ c → c < 3 → M.P idx c = 0
  weight : ∀ idx, N.InNet idx → M.P idx 3 = 1
  comps : M.nc = if f then N.nc else 4
  fields : f = true → ∀ idx, N.InNet idx → ∀ c, 4 ≤ c → c < N.nc → M.P idx c = rS (N.P idx c / N.P idx 3)

end Nrb
end Igakit
