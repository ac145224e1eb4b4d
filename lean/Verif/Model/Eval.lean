import Verif.Model.Io

/-!
# Model of `NURBS.__call__` and `NURBS.evaluate` with all their arguments (/repo/igakit/nurbs.py:1368-1510)

`Nrb.call` (Model/Nurbs) is the numerical part of `__call__`.  Here are the defaults, numbers in place of sequences, the
argument `fields`, and the shapes of the results.  A parameter is `None`, a number, or a sequence of numbers; arrays
with two or more axes as parameters are not modelled (f2py rejects them).
-/

namespace Igakit

/-- argument `u`, `v` or `w` (nurbs.py:1398-1405) -/
inductive ParArg (K : Type) where
  | none
  | num (x : K)
  | seq (l : List K)

/-- argument `fields` of `__call__`: `False`, `True`, an array (everything else becomes an array of shape `()`)
(nurbs.py:1407-1414) -/
inductive FieldsArg (K : Type) where
  | no
  | all
  | arr (F : Nd K)

namespace Nrb

variable {K : Type} [Field K] [LinearOrder K] {d : ℕ}

/-- one entry of `uvw`, nurbs.py:1391-1405 and 1461-1475: the values, and whether the argument is a number
(`not a.ndim`).  `u.min()` of an empty array raises ValueError.  The default has no check. -/
def parVal (N : Nrb K d) (a : Fin d) (arg : ParArg K) : Res (List K × Bool) :=
  match arg with
  | .none => do
    let g ← N.greville ((a : ℕ) : ℤ)
    pure (slab g.2 0 (g.1 - 1), false)
  | .num x => do
    pyAssert (N.lo a ≤ x)
    pyAssert (x ≤ N.hi a)
    pure ([x], true)
  | .seq l => do
    if l = [] then throw .value
    pyAssert (∀ x ∈ l, N.lo a ≤ x)
    pyAssert (∀ x ∈ l, x ≤ N.hi a)
    pure (l, false)

/-- `uvw`: `args` are `u, v, w`; those beyond the dimension are not looked at (`[u,v,w][:dim]`)
(nurbs.py:1398-1405) -/
def parVals (N : Nrb K d) (args : ℕ → ParArg K) : Res (Fin d → List K × Bool) :=
  seqFin (fun a : Fin d => N.parVal a (args a))

/-- `np.asarray(fields)` given by the user, nurbs.py:1413-1424 and 1482-1489: number of components and values; the flag
tells that there was no axis for the components (`squeeze`) -/
def givenFields (N : Nrb K d) (F : Nd K) : Res (ℕ × ((Fin d → ℤ) → ℕ → K) × Bool) :=
  if F.shape = List.ofFn N.shape then pure (1, fun idx _ => F.get (List.ofFn idx), true)
  else do
    pyAssert ((F.shape.length : ℤ) - 1 = d)
    pyAssert (F.shape.dropLast = List.ofFn N.shape)
    pure ((F.shape.getLastD 0).toNat, fun idx c => F.get (List.ofFn idx ++ [(c : ℤ)]), false)

/-- `_bsp.EvaluateN(*arglist)`, nurbs.py:1426-1439 and 1494-1501, for an array with entries `A idx c`, with the checks of
igalib.pyf:178-231 -/
def evalArr (jk : ℤ → K) (je : ℤ → ℕ → K) (N : Nrb K d) (A : (Fin d → ℤ) → ℕ → K) (uvw : Fin d → List K × Bool) :
    Res ((Fin d → ℤ) → ℕ → K) :=
  if ∀ a, 1 ≤ N.n a ∧ 1 ≤ N.degree a then
    evaluateH jk je { N with P := A } (fun a => ((uvw a).1.length : ℤ) - 1) (fun a => ofList (uvw a).1)
  else .error .f2py

/-- `list(C.shape[:-1])` and then `del shape[i]` for the numbers, nurbs.py:1441-1446 -/
def keptShape (uvw : Fin d → List K × Bool) : List ℤ :=
  ((List.finRange d).filter (fun a => !(uvw a).2)).map (fun a => ((uvw a).1.length : ℤ))

/-- an array with the axes of the parameters and `m` components (`CwF`, nurbs.py:1433) -/
def gridArr (uvw : Fin d → List K × Bool) (m : ℕ) (f : (Fin d → ℤ) → ℕ → K) : Nd K where
  shape := (List.ofFn fun a => ((uvw a).1.length : ℤ)) ++ [(m : ℤ)]
  get := fun idx => f (fun a => idx.getD a 0) (idx.getD d 0).toNat

/-- the array handed to `Evaluate` and the number of its fields, nurbs.py:1407-1424 -/
def callNet (N : Nrb K d) (fields : FieldsArg K) : Res (Option ℕ × ((Fin d → ℤ) → ℕ → K)) :=
  match fields with
  | .all => pure (some (N.nc - 4), N.P)
  | .no => pure (none, fun idx c => if c < 4 then N.P idx c else 0)
  | .arr F => do
    let G ← givenFields N F
    pure (some G.1, fun idx c => if c < 4 then N.P idx c else G.2.1 idx (c - 4) * N.P idx 3)

/-- `NURBS.__call__`, nurbs.py:1368-1451: the points and, if asked for, the fields -/
def callFull (jk : ℤ → K) (je : ℤ → ℕ → K) (N : Nrb K d) (args : ℕ → ParArg K) (fields : FieldsArg K) :
    Res (Nd K × Option (Nd K)) := do
  let uvw ← parVals N args
  let G ← callNet N fields
  let CwF ← evalArr jk je N G.2 uvw
  let C ← PetIGA.reshapeLast (gridArr uvw 3 (fun i c => CwF i c / CwF i 3)) (keptShape uvw)
  match G.1 with
  | some m => do
    let F ← PetIGA.reshapeLast (gridArr uvw m (fun i c => CwF i (4 + c) / CwF i 3)) (keptShape uvw)
    pure (C, some F)
  | none => pure (C, none)

/-- the array handed to `Evaluate`, its number of fields, and `squeeze`, nurbs.py:1477-1491 -/
def evaluateNet (N : Nrb K d) (fields : Option (Nd K)) : Res (ℕ × ((Fin d → ℤ) → ℕ → K) × Bool) :=
  match fields with
  | none => pure (N.nc - 4, fun idx c => N.P idx (3 + c), false)
  | some F => do
    let G ← givenFields N F
    pure (G.1, fun idx c => if c = 0 then N.P idx 3 else G.2.1 idx (c - 1) * N.P idx 3, G.2.2)

/-- `NURBS.evaluate`, nurbs.py:1453-1510 -/
def evaluate (jk : ℤ → K) (je : ℤ → ℕ → K) (N : Nrb K d) (fields : Option (Nd K)) (args : ℕ → ParArg K) :
    Res (Nd K) := do
  let uvw ← parVals N args
  let G ← evaluateNet N fields
  let wF ← evalArr jk je N G.2.1 uvw
  reshapeC (ravelC (gridArr uvw G.1 (fun i c => wF i (1 + c) / wF i 0)))
    (keptShape uvw ++ if G.2.2 then [] else [(G.1 : ℤ)])

end Nrb
end Igakit
