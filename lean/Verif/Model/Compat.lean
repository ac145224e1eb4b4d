import Verif.Model.Cad
import Verif.Model.Elevate

/-!
# Model of `cad.compat`, `ruled` and `coons` (/repo/igakit/cad.py)

A list of `m` NURBS objects of the same dimension is a function on `Fin m` (the assertion that the
dimensions agree, cad.py:371-372, holds by typing).  Clones share nothing that is changed here; the
functions return new objects.
-/

namespace Igakit

/-- contents of the arrays allocated for one call of a compiled routine (arbitrary) (igalib.pyf:150-151, 163-164) -/
structure Mem (K : Type) (d : ℕ) where
  k : ℤ → K
  e : ℤ → (Fin d → ℤ) → ℕ → K
  b : ℤ → ℤ → K

variable {K : Type} [Field K] [LinearOrder K] {d m : ℕ}

namespace Cad

/-- `array.min()` of a nonempty list (cad.py:318) -/
def listMin (l : List K) : K := l.tail.foldl min (l.headD 0)

/-- `array.max()` of a nonempty list (cad.py:319, 330) -/
def listMax (l : List K) : K := l.tail.foldl max (l.headD 0)

/-- `degree.max(axis=0)`, cad.py:330, for one axis -/
def degMax (N : Fin m → Nrb K d) (a : Fin d) : ℤ :=
  let l := List.ofFn (fun i => (N i).degree a)
  l.tail.foldl max (l.headD 0)

/-- `SameBounds`, cad.py:310-324 -/
def sameBounds (N : Fin m → Nrb K d) (axes : List (Fin d)) : Res (Fin m → Nrb K d) :=
  seqFin (fun i => axes.foldlM (fun X (a : Fin d) =>
    X.remap (a : ℤ) (some (listMin (List.ofFn (fun j => (N j).lo a))))
      (some (listMax (List.ofFn (fun j => (N j).hi a))))) (N i))

/-- `SameDegree`, cad.py:325-335 -/
def sameDegree (eps : K) (M : Fin m → Fin (d + 1) → Mem K d) (N : Fin m → Nrb K (d + 1))
    (axes : List (Fin (d + 1))) : Res (Fin m → Nrb K (d + 1)) :=
  seqFin (fun i => axes.foldlM (fun X (a : Fin (d + 1)) =>
    X.elevate eps (M i a).k (M i a).e (M i a).b (a : ℤ) (some (degMax N a - (N i).degree a))) (N i))

/-- `u[1:-1]` (cad.py:345-346) -/
def inner {α : Type} (l : List α) : List α := l.tail.dropLast

/-- multiplicity recorded for `x` in breaks with multiplicities, 0 for other values.  (cad.py:350-352 and
357 pick the entries with a boolean mask; both arrays are increasing, so the entries that
correspond are those with the same value.) -/
def multIn (bs : List (K × ℤ)) (x : K) : ℤ := ((bs.find? (fun q => q.1 = x)).map Prod.snd).getD 0

/-- the knots to insert in each object on one axis, cad.py:348-359; `bs i` are the interior breaks
and multiplicities of object `i` -/
def mergeVals (bs : Fin m → List (K × ℤ)) (i : Fin m) : List K :=
  let u := Nrb.npUnique (List.ofFn (fun j => (bs j).map Prod.fst)).flatten
  u.flatMap (fun x =>
    let s := (List.ofFn (fun j => multIn (bs j) x)).foldl max 0
    List.replicate (s - multIn (bs i) x).toNat x)

/-- interior breaks with multiplicities of all objects on axis `a`, cad.py:341-346 -/
def innerBreaks (eps : K) (N : Fin m → Nrb K d) (a : Fin d) : Res (Fin m → List (K × ℤ)) :=
  seqFin (fun i => do
    let us ← (N i).breakMults eps (a : ℤ)
    pure ((inner us.1).zip (inner us.2)))

/-- `MergeKnots`, cad.py:337-364 -/
def mergeKnots (eps : K) (M : Fin m → Fin (d + 1) → Mem K d) (N : Fin m → Nrb K (d + 1))
    (axes : List (Fin (d + 1))) : Res (Fin m → Nrb K (d + 1)) := do
  let ins ← axes.mapM (fun a => do
    let bs ← innerBreaks eps N a
    pure (a, mergeVals bs))
  seqFin (fun i => ins.foldlM (fun X q =>
    X.refine eps (M i q.1).k (M i q.1).e (q.1 : ℤ) (q.2 i)) (N i))

/-- the argument `axes`, cad.py:374-382 -/
def compatAxes (d : ℕ) (axes : Option (List ℤ)) : Res (List (Fin d)) :=
  match axes with
  | none => pure (List.finRange d)
  | some l => l.mapM (normAxis d)

/-- `cad.compat`, cad.py:296-389.  `M1`, `M2` are the contents of the arrays allocated by the elevations
and by the refinements. -/
def compat (eps : K) (M1 M2 : Fin m → Fin (d + 1) → Mem K d) (N : Fin m → Nrb K (d + 1))
    (axes : Option (List ℤ)) : Res (Fin m → Nrb K (d + 1)) :=
  if m < 2 then pure N
  else do
    let axes ← compatAxes (d + 1) axes
    if axes = [] then pure N
    else do
      let N1 ← sameBounds N axes
      let N2 ← sameDegree eps M1 N1 axes
      mergeKnots eps M2 N2 axes

/-- `cad.ruled`, cad.py:506-524 -/
def ruled (eps : K) (M1 M2 : Fin 2 → Fin (d + 1) → Mem K d) (N1 N2 : Nrb K (d + 1)) :
    Res (Nrb K (d + 2)) := do
  pyAssert (d + 1 ≤ 2)
  let N ← compat eps M1 M2 ![N1, N2] none
  Nrb.ctor ((N 0).knotsWith unitKnots)
    (.arr ((N 0).netWith 2 4 (fun idx j c => if j = 0 then (N 0).P idx c else (N 1).P idx c))) none none

end Cad
end Igakit
