import Verif.Model.BSp
import Mathlib.Data.Fin.Tuple.Basic
import Mathlib.Data.Fin.VecNotation
import Mathlib.Data.List.Sort
import Mathlib.Data.Fintype.Pi
import Mathlib.Data.Int.Interval
import Mathlib.Algebra.Module.Pi

/-!
# Model of class `NURBS` (/repo/igakit/nurbs.py)

A NURBS object is the pair `_array`, `_knots` (nurbs.py:240-242).  `d` is the number of parametric
axes.  Methods that mutate `self` and return it are functions `Nrb K d → Res (Nrb K d)`; the result
is the new state of `self` (aliasing and partially executed methods are the subject of
`Verif.Model.Heap`).

`np.rollaxis(array, axis, 0)` followed by `reshape((shape[0], -1))` turns the net into rows indexed by
the chosen axis; a row is a function of the remaining indices and of the component.  The inverse
pair is `np.rollaxis(Qw, 0, axis+1)`.

Methods with an axis argument need at least one axis (`range(0)[axis]` raises), hence `d + 1`.
-/

namespace Igakit

variable {K : Type} [Field K] [LinearOrder K]

/-- state of a NURBS object (nurbs.py:240-242) -/
structure Nrb (K : Type) (d : ℕ) where
  /-- `array.shape[:-1]` -/
  shape : Fin d → ℤ
  /-- `array.shape[-1]`: 4 homogeneous coordinates and then fields -/
  nc : ℕ
  /-- `len(knots[a])` -/
  len : Fin d → ℤ
  /-- `knots[a][j]` -/
  U : Fin d → ℤ → K
  /-- `array[idx..., c]` -/
  P : (Fin d → ℤ) → ℕ → K

/-- Python `assert` (as in nurbs.py:776) -/
def pyAssert (c : Prop) [Decidable c] : Res Unit := if c then .ok () else .error .assertion

/-- `range(self.dim)[axis]`: negative indices count from the end, IndexError outside (nurbs.py:771) -/
def normAxis (d : ℕ) (axis : ℤ) : Res (Fin d) :=
  if h : 0 ≤ axis ∧ axis < d then .ok ⟨axis.toNat, by omega⟩
  else if h : axis < 0 ∧ 0 ≤ axis + d then .ok ⟨(axis + d).toNat, by omega⟩
  else .error .index

namespace Nrb

variable {d : ℕ}

/-- number of the last control point along an axis: `n = shape - 1` (nurbs.py:264, and f2py) -/
def n (N : Nrb K d) (a : Fin d) : ℤ := N.shape a - 1

/-- `degree`, nurbs.py:260-266: `m - n - 1` with `m = len(k)-1`, `n = shape-1` -/
def degree (N : Nrb K d) (a : Fin d) : ℤ := (N.len a - 1) - (N.shape a - 1) - 1

/-- `U[p]` (nurbs.py:776, 1226) -/
def lo (N : Nrb K d) (a : Fin d) : K := N.U a (N.degree a)

/-- `U[-p-1]`, a negative Python index (nurbs.py:776, 1228) -/
def hi (N : Nrb K d) (a : Fin d) : K := N.U a (N.len a + (-N.degree a - 1))

/-- rows of the net along axis `a` (`np.rollaxis(array, axis, 0)`, `reshape((shape[0], -1))`) (nurbs.py:785-787) -/
def row (N : Nrb K (d + 1)) (a : Fin (d + 1)) : ℤ → (Fin d → ℤ) → ℕ → K :=
  fun i o => N.P (a.insertNth i o)

/-- put new knots and rows on axis `a` (`np.rollaxis(Qw, 0, axis+1)`, `knots[axis] = V`,
assignment of `self._array` and `self._knots`) (nurbs.py:789-794) -/
def setAxis (N : Nrb K (d + 1)) (a : Fin (d + 1)) (shape len : ℤ) (V : ℤ → K)
    (Q : ℤ → (Fin d → ℤ) → ℕ → K) : Nrb K (d + 1) where
  shape := Function.update N.shape a shape
  nc := N.nc
  len := Function.update N.len a len
  U := Function.update N.U a V
  P := fun idx => Q (idx a) (a.removeNth idx)

/-- `NURBS.insert`, nurbs.py:768-795 -/
def insert (eps : K) (jk : ℤ → K) (je : ℤ → (Fin d → ℤ) → ℕ → K) (N : Nrb K (d + 1)) (axis : ℤ)
    (value : K) (times : Option ℤ) : Res (Nrb K (d + 1)) := do
  let a ← normAxis (d + 1) axis
  let p := N.degree a
  let U := N.U a
  pyAssert (N.lo a ≤ value ∧ value ≤ N.hi a)
  let m ← BSp.FindMult eps p (N.len a - 1) U value
  let mult := min m p
  let times := times.getD (p - mult)
  pyAssert (times + mult ≤ p)
  if times = 0 then pure N
  else do
    let VQ ← BSp.InsertKnot eps jk je (N.n a) p U (N.row a) value times
    pure (N.setAxis a (N.shape a + times) (N.len a + times) VQ.1 VQ.2)

/-- the flags `l, r` computed from `side`, nurbs.py:923-927 and 989-993 -/
def sideFlags (side : Option ℤ) : Res (Bool × Bool) :=
  match side with
  | none => pure (true, true)
  | some s => do
    pyAssert (s = 0 ∨ s = 1)
    pure (if s = 0 then (true, false) else (false, true))

/-- `NURBS.clamp`, nurbs.py:917-940 -/
def clamp (eps : K) (je : ℤ → (Fin d → ℤ) → ℕ → K) (N : Nrb K (d + 1)) (axis : ℤ)
    (side : Option ℤ) : Res (Nrb K (d + 1)) := do
  let a ← normAxis (d + 1) axis
  let lr ← sideFlags side
  let VQ ← BSp.Clamp eps je (N.n a) (N.degree a) (N.U a) (N.row a) lr.1 lr.2
  pure (N.setAxis a (N.shape a) (N.len a) VQ.1 VQ.2)

/-- the argument `continuity` of `NURBS.unclamp`, nurbs.py:995-998 -/
def contArg (p : ℤ) (continuity : Option ℤ) : Res ℤ :=
  match continuity with
  | none => pure (p - 1)
  | some c => do
    pyAssert (0 ≤ c ∧ c ≤ p - 1)
    pure c

/-- `NURBS.unclamp`, nurbs.py:984-1011 -/
def unclamp (eps : K) (je : ℤ → (Fin d → ℤ) → ℕ → K) (N : Nrb K (d + 1)) (axis : ℤ)
    (side : Option ℤ) (continuity : Option ℤ) : Res (Nrb K (d + 1)) := do
  let a ← normAxis (d + 1) axis
  let lr ← sideFlags side
  let C ← contArg (N.degree a) continuity
  let VQ ← BSp.Unclamp eps je (N.n a) (N.degree a) (N.U a) (N.row a) C lr.1 lr.2
  pure (N.setAxis a (N.shape a) (N.len a) VQ.1 VQ.2)

/-- entries `lo..hi` of an array as a list (`U[i0:i1+1]`, nurbs.py:1258) -/
def slab (U : ℤ → K) (lo hi : ℤ) : List K :=
  (List.range (hi + 1 - lo).toNat).map (fun i : ℕ => U (lo + i))

/-- list as array; positions outside hold 0 and are never read by the code (nurbs.py:1067) -/
def ofList (l : List K) : ℤ → K := fun i => l.getD i.toNat 0

/-- `Arg` inside `NURBS.refine`, nurbs.py:1056-1064: sorts, checks the range, checks that no value of
`values + U[1:-1]` occurs more than `p` times (`unique` with `bincount`) -/
def refineArg (p : ℤ) (U : ℤ → K) (len : ℤ) (values : List K) : Res (List K) := do
  let u := values.mergeSort (fun x y => decide (x ≤ y))
  pyAssert (∀ x ∈ u.head?, U p ≤ x)
  pyAssert (∀ x ∈ u.getLast?, x ≤ U (len + (-p - 1)))
  let tmp := u ++ slab U 1 (len - 2)
  pyAssert (∀ x ∈ tmp, (tmp.count x : ℤ) ≤ p)
  pure u

/-- `NURBS.refine`, nurbs.py:1066-1087 (`values = None` behaves as the empty list) -/
def refine (eps : K) (jk : ℤ → K) (je : ℤ → (Fin d → ℤ) → ℕ → K) (N : Nrb K (d + 1)) (axis : ℤ)
    (values : List K) : Res (Nrb K (d + 1)) :=
  if values = [] then pure N
  else do
    let a ← normAxis (d + 1) axis
    let u ← refineArg (N.degree a) (N.U a) (N.len a) values
    let VQ ← BSp.RefineKnotVector eps jk je (N.n a) (N.degree a) (N.U a) (N.row a)
      (u.length - 1) (ofList u)
    pure (N.setAxis a (N.shape a + u.length) (N.len a + u.length) VQ.1 VQ.2)

/-- `U.searchsorted(v, 'r')` on a nondecreasing array of length `m`: number of entries `≤ v` (nurbs.py:1252) -/
def searchR (U : ℤ → K) (m : ℤ) (v : K) : ℤ :=
  ((Finset.Ico 0 m).filter (fun i => U i ≤ v)).card

/-- `U.searchsorted(v, 'l')` on a nondecreasing array of length `m`: number of entries `< v` (nurbs.py:1253) -/
def searchL (U : ℤ → K) (m : ℤ) (v : K) : ℤ :=
  ((Finset.Ico 0 m).filter (fun i => U i < v)).card

/-- knots built by `slice`, nurbs.py:1257-1261: `p` copies of `U[i0]`, then `U[i0..i1]`, then `p`
copies of `U[i1]` -/
def sliceKnots (p i0 i1 : ℤ) (U : ℤ → K) : ℤ → K := fun j =>
  if j < p then U i0 else if j ≤ p + (i1 - i0) then U (i0 + (j - p)) else U i1

/-- `NURBS.slice`, nurbs.py:1224-1266 -/
def slice (eps : K) (jk : ℤ → K) (je : ℤ → (Fin d → ℤ) → ℕ → K) (N : Nrb K (d + 1)) (axis : ℤ)
    (start stop : Option K) : Res (Nrb K (d + 1)) := do
  let a ← normAxis (d + 1) axis
  let p := N.degree a
  let U := N.U a
  let u0 := start.getD (N.lo a)
  let u1 := stop.getD (N.hi a)
  pyAssert (N.lo a ≤ u0)
  pyAssert (u1 ≤ N.hi a)
  pyAssert (u0 < u1)
  let s0 ← BSp.FindMult eps p (N.len a - 1) U u0
  let t0 := max 0 (p - s0)
  let s1 ← BSp.FindMult eps p (N.len a - 1) U u1
  let t1 := max 0 (p - s1)
  let N' ← refine eps jk je N (a : ℤ) (List.replicate t0.toNat u0 ++ List.replicate t1.toNat u1)
  let V := N'.U a
  let i0 := searchR V (N'.len a) u0 - 1
  let i1 := searchL V (N'.len a) u1
  pure (N'.setAxis a (i1 - (i0 - p)) (p + (i1 + 1 - i0) + p) (sliceKnots p i0 i1 V)
    (fun i => N'.row a (i + (i0 - p))))

/-- `NURBS.extract`, nurbs.py:1319-1341 -/
def extract (eps : K) (je : ℤ → (Fin d → ℤ) → ℕ → K) (N : Nrb K (d + 1)) (axis : ℤ)
    (value : K) : Res (Nrb K d) := do
  let a ← normAxis (d + 1) axis
  pyAssert (N.lo a ≤ value)
  pyAssert (value ≤ N.hi a)
  let Cw ← BSp.Extract eps je (N.n a) (N.degree a) (N.U a) (N.row a) value
  pure { shape := a.removeNth N.shape, nc := N.nc, len := a.removeNth N.len, U := a.removeNth N.U,
         P := Cw }

/-- `NURBS.boundary`, nurbs.py:1343-1364 -/
def boundary (eps : K) (je : ℤ → (Fin d → ℤ) → ℕ → K) (N : Nrb K (d + 1)) (axis : ℤ)
    (side : ℤ) : Res (Nrb K d) := do
  pyAssert (side = 0 ∨ side = 1)
  let a ← normAxis (d + 1) axis
  extract eps je N (a : ℤ) (if side = 0 then N.lo a else N.hi a)

/-- `KntRev`, nurbs.py:643-645; `U[::-1]` has entry `j` equal to `U[len-1-j]` -/
def kntRev (p len : ℤ) (U : ℤ → K) : ℤ → K :=
  fun j => (U (len + (-p - 1)) + U p) - U (len - 1 - j)

/-- one round of the loop of `NURBS.reverse`, nurbs.py:652-654 (`CntRev` is nurbs.py:638-642) -/
def reverse1 (N : Nrb K d) (a : Fin d) : Nrb K d :=
  { N with
    U := Function.update N.U a (kntRev (N.degree a) (N.len a) (N.U a))
    P := fun idx => N.P (Function.update idx a (N.shape a - 1 - idx a)) }

/-- `NURBS.reverse`, nurbs.py:646-658 (no axes means all) -/
def reverse (N : Nrb K d) (axes : List ℤ) : Res (Nrb K d) := do
  let axes := if axes = [] then (List.finRange d).map (fun a : Fin d => ((a : ℕ) : ℤ)) else axes
  axes.foldlM (fun N axis => do
    let a ← normAxis d axis
    pure (reverse1 N a)) N

/-- `NURBS.remap`, nurbs.py:700-719 -/
def remap (N : Nrb K d) (axis : ℤ) (start stop : Option K) : Res (Nrb K d) := do
  let a ← normAxis d axis
  let U := N.U a
  let a0 := N.lo a
  let b0 := N.hi a
  let c := start.getD a0
  let e := stop.getD b0
  if a0 = c ∧ b0 = e then pure N
  else do
    pyAssert (c < e)
    pure { N with U := Function.update N.U a (fun j => (U j - a0) * ((e - c) / (b0 - a0)) + c) }

/-- `NURBS.swap`, nurbs.py:597-606 -/
def swap (N : Nrb K d) (axis1 axis2 : ℤ) : Res (Nrb K d) := do
  let a ← normAxis d axis1
  let b ← normAxis d axis2
  let σ := Equiv.swap a b
  pure { shape := N.shape ∘ σ, nc := N.nc, len := N.len ∘ σ, U := N.U ∘ σ, P := fun idx => N.P (idx ∘ σ) }

/-- normalisation of an axis by `ndarray.transpose` on an array with `m` axes (nurbs.py:557) -/
def npAxis (m : ℕ) (axis : ℤ) : Res ℕ :=
  if 0 ≤ axis ∧ axis < m then .ok axis.toNat
  else if axis < 0 ∧ 0 ≤ axis + m then .ok (axis + m).toNat
  else .error .value

/-- `array.transpose(caxes)` and `[knots[i] for i in axes]`, nurbs.py:555-561, for axis numbers `c`
(control net) and `k` (knots) that are already nonnegative: entry `idx` of the result is the entry of
the original whose index on axis `c i` is `idx i` -/
def relabel (N : Nrb K d) (c k : Fin d → Fin d) : Nrb K d where
  shape := N.shape ∘ c
  nc := N.nc
  len := N.len ∘ k
  U := N.U ∘ k
  P := fun idx => N.P (fun j => match (List.finRange d).find? (fun i => c i = j) with
    | some i => idx i
    | none => 0)

/-- `NURBS.transpose`, nurbs.py:545-562.  The control net is transposed by numpy with
`axes + [dim]` on an array with `dim + 1` axes (negative numbers count from the component axis;
repeated axes raise ValueError); the knots are picked by list indexing with the same numbers
(negative numbers count from the last knot vector). -/
def transpose (N : Nrb K d) (axes : Option (List ℤ)) : Res (Nrb K d) := do
  let axes := axes.getD ((List.finRange d).reverse.map (fun a : Fin d => ((a : ℕ) : ℤ)))
  pyAssert (axes.length = d)
  let caxes ← (axes ++ [(d : ℤ)]).mapM (npAxis (d + 1))
  if ¬ caxes.Nodup then throw .value
  let kaxes ← axes.mapM (normAxis d)
  if h : (∀ i : Fin d, caxes.getD i 0 < d) ∧ kaxes.length = d then
    let c : Fin d → Fin d := fun i => ⟨caxes.getD i 0, h.1 i⟩
    let k : Fin d → Fin d := fun i => kaxes[i.val]'(by omega)
    pure (relabel N c k)
  else throw .value

/-- `array[...,:4] = np.dot(control, M.T)`: `NURBS.transform`, nurbs.py:488-493 with
`transform.__call__`, transform.py:17-18 -/
def transform (N : Nrb K d) (M : Fin 4 → Fin 4 → K) : Nrb K d :=
  { N with P := fun idx c =>
      if h : c < 4 then N.P idx 0 * M ⟨c, h⟩ 0 + N.P idx 1 * M ⟨c, h⟩ 1 + N.P idx 2 * M ⟨c, h⟩ 2 +
        N.P idx 3 * M ⟨c, h⟩ 3
      else N.P idx c }

/-- `_bsp.EvaluateN` called by `NURBS.__call__`, nurbs.py:1432-1439: homogeneous values on the grid of
parameters `X a 0, ..., X a (r a)`.  There is no `Evaluate` for more than three axes. -/
def evaluateH (jk : ℤ → K) (je : ℤ → ℕ → K) :
    {d : ℕ} → Nrb K d → (Fin d → ℤ) → (Fin d → ℤ → K) → Res ((Fin d → ℤ) → ℕ → K)
  | 0, N, _, _ => .ok (fun _ => N.P ![])
  | 1, N, r, X => .ok (fun i =>
      BSp.evaluate1 jk je (N.n 0) (N.degree 0) (N.U 0) (fun j => N.P ![j]) (r 0) (X 0) (i 0))
  | 2, N, r, X => .ok (fun i =>
      BSp.evaluate2 jk (fun _ => je) (N.n 0) (N.degree 0) (N.U 0) (N.n 1) (N.degree 1) (N.U 1)
        (fun j k => N.P ![j, k]) (r 0) (X 0) (r 1) (X 1) (i 0) (i 1))
  | 3, N, r, X => .ok (fun i =>
      BSp.evaluate3 jk (fun _ _ => je) (N.n 0) (N.degree 0) (N.U 0) (N.n 1) (N.degree 1) (N.U 1)
        (N.n 2) (N.degree 2) (N.U 2) (fun j k l => N.P ![j, k, l]) (r 0) (X 0) (r 1) (X 1)
        (r 2) (X 2) (i 0) (i 1) (i 2))
  | _ + 4, _, _, _ => .error .index

/-- checks of `Arg` in `NURBS.__call__`, nurbs.py:1391-1395: `u.min()` raises ValueError on an empty
array; all parameters in the domain (the order of the checks between axes is not modelled) -/
def callArg (N : Nrb K d) (r : Fin d → ℤ) (X : Fin d → ℤ → K) : Res Unit := do
  if ∃ a, r a < 0 then throw .value
  pyAssert (∀ a ∈ List.finRange d, ∀ x ∈ slab (X a) 0 (r a), N.lo a ≤ x)
  pyAssert (∀ a ∈ List.finRange d, ∀ x ∈ slab (X a) 0 (r a), x ≤ N.hi a)

/-- `NURBS.__call__(..., fields=True)`, nurbs.py:1398-1451: points `CwF[...,:3] / w` and fields
`CwF[...,4:] / w` on the grid of parameters.  Squeezing of scalar arguments is not modelled. -/
def call (jk : ℤ → K) (je : ℤ → ℕ → K) (N : Nrb K d) (r : Fin d → ℤ) (X : Fin d → ℤ → K) :
    Res ((Fin d → ℤ) → (ℕ → K) × (ℕ → K)) := do
  callArg N r X
  let CwF ← evaluateH jk je N r X
  pure (fun i => (fun c => CwF i c / CwF i 3, fun c => CwF i (4 + c) / CwF i 3))

end Nrb
end Igakit
