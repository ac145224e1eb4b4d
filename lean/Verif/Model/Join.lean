import Verif.Model.Compat
import Verif.Model.Remove

/-!
# Model of `cad.join` (/repo/igakit/cad.py)
-/

namespace Igakit

namespace Cad

/-- contents of the arrays allocated by the calls made in `join` (arbitrary) (cad.py:627-630, 643-644, 674) -/
structure JoinMem (K : Type) (d : ℕ) where
  /-- elevations and refinements in `compat` -/
  compat : Fin 2 → Fin 2 → Fin (d + 1) → Mem K d
  /-- the two calls of `clamp` -/
  clamp : Fin 2 → ℤ → (Fin d → ℤ) → ℕ → K
  /-- the two calls of `elevate` -/
  elevate : Fin 2 → Mem K d
  /-- the call of `remove` -/
  remove : ℤ → (Fin d → ℤ) → ℕ → K

variable {K : Type} [Field K] [LinearOrder K] {d : ℕ}

/-- the knots `U1[:-p-1] + [u]*p + U2[p+1:]`, cad.py:662-667: `U1[:-p-1]` are the entries `0..n1` -/
def joinKnots (n1 p : ℤ) (u : K) (U1 U2 : ℤ → K) : ℤ → K := fun j =>
  if j ≤ n1 then U1 j else if j ≤ n1 + p then u else U2 (j - n1)

/-- the rows of the net, cad.py:646-660: all of the first but the last, the mean of its last and of the first of the
second, all of the second but the first -/
def joinRows (n1 : ℤ) (P1 P2 : ℤ → (Fin d → ℤ) → ℕ → K) : ℤ → (Fin d → ℤ) → ℕ → K := fun j o c =>
  if j < n1 then P1 j o c else if j = n1 then (P1 n1 o c + P2 0 o c) / 2 else P2 (j - n1) o c

/-- cad.py:642-673, for two objects of degree `p` on the axis: the object before the removal of knots.  Nets
that do not fit are not added or concatenated (broadcasting of axes of length one is not modelled). -/
def concat (a : Fin (d + 1)) (p : ℤ) (u : K) (X1 X2 : Nrb K (d + 1)) : Res (Nrb K (d + 1)) :=
  if X1.nc = X2.nc ∧ ∀ b, b ≠ a → X1.shape b = X2.shape b then
    .ok (X1.setAxis a (X1.shape a + X2.shape a - 1) ((X1.len a - p - 1) + p + (X2.len a - p - 1))
      (joinKnots (X1.n a) p u (X1.U a) (X2.U a)) (joinRows (X1.n a) (X1.row a) (X2.row a)))
  else .error .value

/-- the other axes, cad.py:625-626 -/
def otherAxes (a : Fin (d + 1)) : List ℤ := ((List.finRange (d + 1)).filter (fun b => b ≠ a)).map (fun b : Fin (d + 1) => ((b : ℕ) : ℤ))

/-- `cad.join` up to the removal of knots, cad.py:621-673 (the dimensions agree by typing): `u` and the object -/
def joinRaw (eps : K) (M : JoinMem K d) (N1 N2 : Nrb K (d + 1)) (axis : ℤ) : Res (K × Nrb K (d + 1)) := do
  pyAssert (0 ≤ axis ∧ axis < d + 1)
  let a ← normAxis (d + 1) axis
  let N ← compat eps (M.compat 0) (M.compat 1) ![N1, N2] (some (otherAxes a))
  let X1 ← (N 0).clamp eps (M.clamp 0) axis (some 1)
  let X2 ← (N 1).clamp eps (M.clamp 1) axis (some 0)
  let u := X1.hi a
  let p := max (X1.degree a) (X2.degree a)
  let X2' ← X2.remap axis (some (X2.lo a + u)) (some (X2.hi a + u))
  let Y1 ← X1.elevate eps (M.elevate 0).k (M.elevate 0).e (M.elevate 0).b axis (some (p - X1.degree a))
  let Y2 ← X2'.elevate eps (M.elevate 1).k (M.elevate 1).e (M.elevate 1).b axis (some (p - X2.degree a))
  let J ← concat a p u Y1 Y2
  pure (u, J)

/-- `cad.join`, cad.py:600-675.  `p` is the degree of the object on the axis; the deviation is the default of
`remove`, the exact rational number. -/
noncomputable def join (eps : ℝ) (M : JoinMem ℝ d) (N1 N2 : Nrb ℝ (d + 1)) (axis : ℤ) : Res (Nrb ℝ (d + 1)) := do
  let uJ ← joinRaw eps M N1 N2 axis
  let a ← normAxis (d + 1) axis
  uJ.2.remove eps M.remove axis uJ.1 (some (uJ.2.degree a - 1)) (1 / 10 ^ 9)

end Cad
end Igakit
