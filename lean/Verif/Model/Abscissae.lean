import Verif.Model.Ctor
import Verif.Model.Quad

/-! # Model of `NURBS.lagrange` and `NURBS.lobatto` (/repo/igakit/nurbs.py:365-410) -/

namespace Igakit
namespace Nrb

variable {K : Type} [Field K] [LinearOrder K] {d : ℕ}

/-- nurbs.py:378-385 and 401-408: `u[::p] = ub`, and `view[:,k] = u0 + du*x[k]` for `0 < k < p`, where row `e` of `view`
starts at entry `e*p` of `u` -/
def fillElems (p : ℕ) (x : ℕ → K) (ub : List K) : List K :=
  (List.range ((ub.length - 1) * p + 1)).map (fun j =>
    if j % p = 0 then ub.getD (j / p) 0
    else ub.getD (j / p) 0 + (ub.getD (j / p + 1) 0 - ub.getD (j / p) 0) * x (j % p))

/-- `lagrange(axis)`, nurbs.py:365-385; entry `k` of `linspace(-1, 1, p+1)` is `-1 + k*(2/p)` -/
def lagrange (N : Nrb K d) (axis : ℤ) : Res (List K) := do
  let a ← normAxis d axis
  let p := N.degree a
  let ub ← N.breaks ((a : ℕ) : ℤ)
  if p < 2 then pure ub
  else pure (fillElems p.toNat (fun k => ((-1 + (k : K) * (2 / ((p : ℤ) : K))) + 1) / 2) ub)

/-- `lobatto(axis)`, nurbs.py:387-408 -/
def lobatto (N : Nrb K d) (axis : ℤ) : Res (List K) := do
  let a ← normAxis d axis
  let p := N.degree a
  let ub ← N.breaks ((a : ℕ) : ℤ)
  if p < 2 then pure ub
  else do
    let XW ← GaussLobattoRule (p + 1)
    pure (fillElems p.toNat (fun k => (((XW.1.getD k 0 : ℚ) : K) + 1) / 2) ub)

end Nrb
end Igakit
