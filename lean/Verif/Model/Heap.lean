import Verif.Model.Transform
import Verif.Model.Io
import Verif.Model.Remove
import Verif.Model.Elevate

/-!
# Model of the storage behind `NURBS` objects (/repo/igakit/nurbs.py)

The methods of `NURBS` again, this time statement by statement on a heap of arrays: an object is a pair of references
`_array`, `_knots` (nurbs.py:240-242), a method reads arrays, allocates new ones and assigns the references.  An exception
leaves the heap as it is at the point where it is raised.

Only memory that can be shared is modelled: views of a whole array are the array (`array.view()`, `rollaxis`, `reshape` of
arrays that are only read), and the arrays made in between (`Pw`, `Qw` before `ascontiguousarray`) are not kept.  The
extension module reads its inputs and returns new arrays.  Garbage is not collected.
-/

namespace Igakit

variable {K : Type} [Field K] [LinearOrder K]

/-- an object: references to its array and to its knot vectors, nurbs.py:240-242 -/
structure Obj where
  d : ℕ
  arr : ℕ
  knots : Fin d → ℕ

/-- arrays and objects; handles below `na`, `no` are in use (the objects of nurbs.py:241-242) -/
structure Heap (K : Type) where
  arr : ℕ → Nd K
  na : ℕ
  obj : ℕ → Obj
  no : ℕ

/-- a statement: a value or an exception, and the heap afterwards (for example nurbs.py:792-795) -/
def HM (K α : Type) := Heap K → Res α × Heap K

instance : Monad (HM K) where
  pure x := fun H => (.ok x, H)
  bind m f := fun H => match m H with
    | (.ok x, H') => f x H'
    | (.error e, H') => (.error e, H')

/-- uninitialised memory of one call
(of the compiled routines, igalib.pyf:91-92, 108-109, 123-124, 137-138, 150-151, 163-164) -/
structure Scratch (K : Type) where
  k : ℤ → K
  e : ℤ → List ℤ → ℕ → K
  b : ℤ → ℤ → K

/-- the same as rows of a net (igalib.pyf:92) -/
def Scratch.rows {d : ℕ} (j : Scratch K) : ℤ → (Fin d → ℤ) → ℕ → K := fun i o c => j.e i (List.ofFn o) c

/-- constants of the extension module: `epsilon` (igalib.f90), and the test of `RemoveKnot` with the tolerance computed by
`NURBS.remove`, nurbs.py:870-874 (`Nrb.removeTol`, `rowDist` for real numbers) -/
structure Env (K : Type) where
  eps : K
  near : {d : ℕ} → Nrb K (d + 1) → Fin (d + 1) → K → ((Fin d → ℤ) → ℕ → K) → ((Fin d → ℤ) → ℕ → K) → Prop

/-- real numbers (nurbs.py:870-875 with exact square roots) -/
noncomputable def Env.real (eps : ℝ) : Env ℝ where
  eps := eps
  near := fun N a dev P1 P2 => rowDist (a.removeNth N.shape) N.nc P1 P2 ≤ N.removeTol a dev

/-- `remove`, nurbs.py:850-885, with any test in place of the distance (`Nrb.remove` is the case of real numbers) -/
noncomputable def Nrb.removeNear {d : ℕ} (eps : K) (jt : ℤ → (Fin d → ℤ) → ℕ → K)
    (near : Nrb K (d + 1) → Fin (d + 1) → K → ((Fin d → ℤ) → ℕ → K) → ((Fin d → ℤ) → ℕ → K) → Prop) (N : Nrb K (d + 1))
    (axis : ℤ) (value : K) (times : Option ℤ) (deviation : K) : Res (Nrb K (d + 1)) := do
  let a ← normAxis (d + 1) axis
  let p := N.degree a
  let U := N.U a
  pyAssert (N.lo a ≤ value ∧ value ≤ N.hi a)
  let m ← BSp.FindMult eps p (N.len a - 1) U value
  let mult := min m p
  let times := min (times.getD mult) mult
  pyAssert (times ≥ 0)
  if times = 0 then pure N
  else if value ≤ N.lo a then pure N
  else if value ≥ N.hi a then pure N
  else do
    let tVQ ← BSp.RemoveKnot eps jt (near N a deviation) (N.n a) p U (N.row a) value times
    pure (N.setAxis a (N.shape a - tVQ.1) (N.len a - tVQ.1) tVQ.2.1 tVQ.2.2)

namespace Heap

/-! ## statements -/

/-- expressions that do not touch the heap (as in nurbs.py:776) -/
def lift {α : Type} (r : Res α) : HM K α := fun H => (r, H)

/-- reading (as in nurbs.py:772-775) -/
def look {α : Type} (f : Heap K → α) : HM K α := fun H => (.ok (f H), H)

/-- a new array (as in nurbs.py:492) -/
def alloc (A : Nd K) : HM K ℕ := fun H => (.ok H.na, { H with arr := Function.update H.arr H.na A, na := H.na + 1 })

/-- new arrays, one for each axis (as in nurbs.py:438) -/
def allocAll {d : ℕ} (f : Fin d → Nd K) : HM K (Fin d → ℕ) := fun H =>
  (.ok (fun a => H.na + a),
    { H with arr := fun i => if h : H.na ≤ i ∧ i < H.na + d then f ⟨i - H.na, by omega⟩ else H.arr i, na := H.na + d })

/-- `self.array`, `self.knots`: the references (nurbs.py:268-280) -/
def getObj (o : ℕ) : HM K Obj := fun H => if o < H.no then (.ok (H.obj o), H) else (.error .index, H)

/-- a new object (`NURBS.__new__(type(self))`, nurbs.py:436, 465) -/
def newObj (x : Obj) : HM K ℕ := fun H => (.ok H.no, { H with obj := Function.update H.obj H.no x, no := H.no + 1 })

/-- `self._array = A` (nurbs.py:437, 793) -/
def setArr (o A : ℕ) : HM K Unit := fun H =>
  (.ok (), { H with obj := Function.update H.obj o { H.obj o with arr := A } })

/-- `self._knots = tuple(knots)` (nurbs.py:438, 794) -/
def setKnots (o : ℕ) {d : ℕ} (k : Fin d → ℕ) : HM K Unit := fun H =>
  (.ok (), { H with obj := Function.update H.obj o ⟨d, (H.obj o).arr, k⟩ })

/-- the numbers an object refers to (nurbs.py:268-280) -/
def nrb (H : Heap K) (x : Obj) : Nrb K x.d where
  shape := fun a => (H.arr x.arr).shape.getD a 0
  nc := ((H.arr x.arr).shape.getLastD 0).toNat
  len := fun a => (H.arr (x.knots a)).shape.headD 0
  U := fun a j => (H.arr (x.knots a)).get [j]
  P := fun idx c => (H.arr x.arr).get (List.ofFn idx ++ [(c : ℤ)])

/-- the numbers of `self.array` and `self.knots` (nurbs.py:268-280) -/
def contents (x : Obj) : HM K (Nrb K x.d) := fun H => (.ok (H.nrb x), H)

/-- the array of a control net (nurbs.py:241) -/
def netArr {d : ℕ} (N : Nrb K d) : Nd K where
  shape := List.ofFn N.shape ++ [(N.nc : ℤ)]
  get := fun l => N.P (fun a => l.getD a 0) (l.getLastD 0).toNat

/-- the array of a knot vector (nurbs.py:242) -/
def knotArr (len : ℤ) (V : ℤ → K) : Nd K where
  shape := [len]
  get := fun l => V (l.headD 0)

/-- `self._array = np.ascontiguousarray(array)`, `knots[axis] = V`, `self._knots = tuple(knots)`: the last lines of the
methods that change one axis (nurbs.py:790-795, 880-885, 935-940, 1006-1011, 1082-1087, 1159-1164); `N` has the new net and
the new knots on axis `a` -/
def assign (o : ℕ) {d : ℕ} (k : Fin d → ℕ) (a : Fin d) (N : Nrb K d) : HM K Unit := do
  let V ← alloc (knotArr (N.len a) (N.U a))
  let A ← alloc (netArr N)
  setArr o A
  setKnots o (Function.update k a V)

/-! ## methods that change the object -/

/-- `transform`, nurbs.py:488-493, and `translate`, `move`, `scale`, `rotate`, nurbs.py:495-509; `M` is the matrix or the
exception raised when it is made (`transform(trans)`, `transform().translate(...)` and so on) -/
def transform (o : ℕ) (M : Res (Fin 4 → Fin 4 → K)) : HM K Unit := do
  let x ← getObj o
  let M ← lift M
  let N ← contents x
  let A ← alloc (netArr (N.transform M))
  setArr o A

/-- `transpose`, nurbs.py:549-562 -/
def transpose (o : ℕ) (axes : Option (List ℤ)) : HM K Unit := do
  let x ← getObj o
  let N ← contents x
  let axes := axes.getD ((List.finRange x.d).reverse.map (fun a : Fin x.d => ((a : ℕ) : ℤ)))
  lift (pyAssert (axes.length = x.d))
  let caxes ← lift ((axes ++ [(x.d : ℤ)]).mapM (Nrb.npAxis (x.d + 1)))
  if ¬ caxes.Nodup then lift (throw .value)
  else do
    let kaxes ← lift (axes.mapM (normAxis x.d))
    if h : (∀ i : Fin x.d, caxes.getD i 0 < x.d) ∧ kaxes.length = x.d then do
      let c : Fin x.d → Fin x.d := fun i => ⟨caxes.getD i 0, h.1 i⟩
      let k : Fin x.d → Fin x.d := fun i => kaxes[i.val]'(by omega)
      let A ← alloc (netArr (N.relabel c k))
      setArr o A
      setKnots o (x.knots ∘ k)
    else lift (throw .value)

/-- `swap`, nurbs.py:598-606 -/
def swap (o : ℕ) (axis1 axis2 : ℤ) : HM K Unit := do
  let x ← getObj o
  let N ← contents x
  let a ← lift (normAxis x.d axis1)
  let b ← lift (normAxis x.d axis2)
  let σ := Equiv.swap a b
  let A ← alloc (netArr (⟨N.shape ∘ σ, N.nc, N.len ∘ σ, N.U ∘ σ, fun idx => N.P (idx ∘ σ)⟩ : Nrb K x.d))
  setArr o A
  setKnots o (x.knots ∘ σ)

/-- state of the loop of `reverse`: `array` (as a view, with the number of times each axis was reversed) and `knots`
(nurbs.py:648-649) -/
structure RevSt (K : Type) (d : ℕ) where
  N : Nrb K d
  knots : Fin d → ℕ
  flips : Fin d → ℕ

/-- one round of the loop of `reverse`, nurbs.py:652-654 -/
def revStep {d : ℕ} (s : RevSt K d) (axis : ℤ) : HM K (RevSt K d) := do
  let a ← lift (normAxis d axis)
  let k ← alloc (knotArr (s.N.len a) ((s.N.reverse1 a).U a))
  pure ⟨s.N.reverse1 a, Function.update s.knots a k, Function.update s.flips a (s.flips a + 1)⟩

/-- the loop of nurbs.py:651-654 -/
def revLoop {d : ℕ} : List ℤ → RevSt K d → HM K (RevSt K d)
  | [], s => pure s
  | axis :: l, s => do
    let s' ← revStep s axis
    revLoop l s'

/-- `reverse`, nurbs.py:646-658.  If every axis was reversed an even number of times the view is contiguous and
`ascontiguousarray` returns it: the object keeps its array.  (So it does if the axes reversed an odd number of times have a
single control point; the model makes a copy then.) -/
def reverse (o : ℕ) (axes : List ℤ) : HM K Unit := do
  let x ← getObj o
  let N ← contents x
  let axes := if axes = [] then (List.finRange x.d).map (fun a : Fin x.d => ((a : ℕ) : ℤ)) else axes
  let s ← revLoop axes ⟨N, x.knots, fun _ => 0⟩
  if ∀ a, s.flips a % 2 = 0 then do
    setArr o x.arr
    setKnots o s.knots
  else do
    let A ← alloc (netArr s.N)
    setArr o A
    setKnots o s.knots

/-- `remap`, nurbs.py:700-719 -/
def remap (o : ℕ) (axis : ℤ) (start stop : Option K) : HM K Unit := do
  let x ← getObj o
  let N ← contents x
  let a ← lift (normAxis x.d axis)
  let a0 := N.lo a
  let b0 := N.hi a
  let c := start.getD a0
  let e := stop.getD b0
  if a0 = c ∧ b0 = e then pure ()
  else do
    lift (pyAssert (c < e))
    let V ← alloc (knotArr (N.len a) (fun j => (N.U a j - a0) * ((e - c) / (b0 - a0)) + c))
    setKnots o (Function.update x.knots a V)

/-- `insert`, nurbs.py:768-795 -/
def insert (env : Env K) (jn : Scratch K) (o : ℕ) (axis : ℤ) (value : K) (times : Option ℤ) : HM K Unit := do
  let x ← getObj o
  match x with
  | ⟨0, _, _⟩ => lift (throw .index)
  | ⟨d + 1, A, k⟩ => do
    let a ← lift (normAxis (d + 1) axis)
    let N ← contents ⟨d + 1, A, k⟩
    let p := N.degree a
    lift (pyAssert (N.lo a ≤ value ∧ value ≤ N.hi a))
    let m ← lift (BSp.FindMult env.eps p (N.len a - 1) (N.U a) value)
    let mult := min m p
    let times := times.getD (p - mult)
    lift (pyAssert (times + mult ≤ p))
    if times = 0 then pure ()
    else do
      let VQ ← lift (BSp.InsertKnot env.eps jn.k jn.rows (N.n a) p (N.U a) (N.row a) value times)
      assign o k a (N.setAxis a (N.shape a + times) (N.len a + times) VQ.1 VQ.2)

/-- `remove`, nurbs.py:850-885 -/
noncomputable def remove (env : Env K) (jn : Scratch K) (o : ℕ) (axis : ℤ) (value : K) (times : Option ℤ) (deviation : K) :
    HM K Unit := do
  let x ← getObj o
  match x with
  | ⟨0, _, _⟩ => lift (throw .index)
  | ⟨d + 1, A, k⟩ => do
    let a ← lift (normAxis (d + 1) axis)
    let N ← contents ⟨d + 1, A, k⟩
    let p := N.degree a
    lift (pyAssert (N.lo a ≤ value ∧ value ≤ N.hi a))
    let m ← lift (BSp.FindMult env.eps p (N.len a - 1) (N.U a) value)
    let mult := min m p
    let times := min (times.getD mult) mult
    lift (pyAssert (times ≥ 0))
    if times = 0 then pure ()
    else if value ≤ N.lo a then pure ()
    else if value ≥ N.hi a then pure ()
    else do
      let tVQ ← lift (BSp.RemoveKnot env.eps jn.rows (env.near N a deviation) (N.n a) p (N.U a) (N.row a) value times)
      assign o k a (N.setAxis a (N.shape a - tVQ.1) (N.len a - tVQ.1) tVQ.2.1 tVQ.2.2)

/-- `clamp`, nurbs.py:917-940 -/
def clamp (env : Env K) (jn : Scratch K) (o : ℕ) (axis : ℤ) (side : Option ℤ) : HM K Unit := do
  let x ← getObj o
  match x with
  | ⟨0, _, _⟩ => lift (throw .index)
  | ⟨d + 1, A, k⟩ => do
    let a ← lift (normAxis (d + 1) axis)
    let N ← contents ⟨d + 1, A, k⟩
    let lr ← lift (Nrb.sideFlags side)
    let VQ ← lift (BSp.Clamp env.eps jn.rows (N.n a) (N.degree a) (N.U a) (N.row a) lr.1 lr.2)
    assign o k a (N.setAxis a (N.shape a) (N.len a) VQ.1 VQ.2)

/-- `unclamp`, nurbs.py:984-1011 -/
def unclamp (env : Env K) (jn : Scratch K) (o : ℕ) (axis : ℤ) (side continuity : Option ℤ) : HM K Unit := do
  let x ← getObj o
  match x with
  | ⟨0, _, _⟩ => lift (throw .index)
  | ⟨d + 1, A, k⟩ => do
    let a ← lift (normAxis (d + 1) axis)
    let N ← contents ⟨d + 1, A, k⟩
    let lr ← lift (Nrb.sideFlags side)
    let C ← lift (Nrb.contArg (N.degree a) continuity)
    let VQ ← lift (BSp.Unclamp env.eps jn.rows (N.n a) (N.degree a) (N.U a) (N.row a) C lr.1 lr.2)
    assign o k a (N.setAxis a (N.shape a) (N.len a) VQ.1 VQ.2)

/-- the argument `values` of `refine`: numbers that `np.asarray(values, dtype='d').ravel()` copies (lists, scalars, integer
arrays, views with gaps), or `count` consecutive entries, from number `start` in C order, of an array of doubles, which it
does not copy (nurbs.py:1067) -/
inductive ValArg (K : Type) where
  | fresh (l : List K)
  | block (A start count : ℕ)

/-- the entries of a block (nurbs.py:1067: `ravel` of a contiguous view is a view) -/
def block (H : Heap K) (A start count : ℕ) : List K := ((ravelC (H.arr A)).drop start).take count

/-- `values` as a list; a handle that does not exist or a block outside of the array is refused (there is no such view)
(nurbs.py:1067) -/
def readVals : ValArg K → HM K (List K)
  | .fresh l => pure l
  | .block A start count => fun H =>
    if A < H.na ∧ start + count ≤ (ravelC (H.arr A)).length then (.ok (H.block A start count), H) else (.error .index, H)

/-- an array with the entries number `start`, `start + 1`, ... in C order replaced
(`u.sort` in place, nurbs.py:1057) -/
def putBlock (A : Nd K) (start : ℕ) (l : List K) : Nd K where
  shape := A.shape
  get := fun idx =>
    let t := (offsetF A.shape.reverse idx.reverse).toNat
    if start ≤ t ∧ t < start + l.length then l.getD (t - start) 0 else A.get idx

/-- `u.sort(kind='heapsort')`, nurbs.py:1057: in place -/
def sortVals : ValArg K → HM K Unit
  | .fresh _ => pure ()
  | .block A start count => fun H =>
    let u := (H.block A start count).mergeSort (fun x y => decide (x ≤ y))
    (.ok (), { H with arr := Function.update H.arr A (putBlock (H.arr A) start u) })

/-- `refine`, nurbs.py:1056-1087: the values are sorted in place before they are checked -/
def refine (env : Env K) (jn : Scratch K) (o : ℕ) (axis : ℤ) (values : ValArg K) : HM K Unit := do
  let x ← getObj o
  let vals ← readVals values
  if vals = [] then pure ()
  else
    match x with
    | ⟨0, _, _⟩ => lift (throw .index)
    | ⟨d + 1, A, k⟩ => do
      let a ← lift (normAxis (d + 1) axis)
      sortVals values
      let N ← contents ⟨d + 1, A, k⟩
      let u ← lift (Nrb.refineArg (N.degree a) (N.U a) (N.len a) vals)
      let VQ ← lift (BSp.RefineKnotVector env.eps jn.k jn.rows (N.n a) (N.degree a) (N.U a) (N.row a)
        (u.length - 1) (Nrb.ofList u))
      assign o k a (N.setAxis a (N.shape a + u.length) (N.len a + u.length) VQ.1 VQ.2)

/-- `elevate`, nurbs.py:1141-1164 -/
def elevate (env : Env K) (jn : Scratch K) (o : ℕ) (axis : ℤ) (times : Option ℤ) : HM K Unit := do
  let x ← getObj o
  match times with
  | none => pure ()
  | some t => do
    lift (pyAssert (t ≥ 0))
    if t = 0 then pure ()
    else
      match x with
      | ⟨0, _, _⟩ => lift (throw .index)
      | ⟨d + 1, A, k⟩ => do
        let a ← lift (normAxis (d + 1) axis)
        let N ← contents ⟨d + 1, A, k⟩
        let oVQ ← lift (BSp.DegreeElevate env.eps jn.k jn.rows jn.b (N.n a) (N.degree a) (N.U a) (N.row a) t)
        assign o k a (N.setAxis a (oVQ.1 + 1) (oVQ.1 + (N.degree a + t) + 2) oVQ.2.1 oVQ.2.2)

/-! ## methods that make a new object -/

/-- `copy`, nurbs.py:436-439 -/
def copy (o : ℕ) : HM K ℕ := do
  let x ← getObj o
  let A ← fun H => alloc (H.arr x.arr) H
  let k ← fun H => allocAll (fun a => H.arr (x.knots a)) H
  newObj ⟨x.d, A, k⟩

/-- `clone`, nurbs.py:465-468 -/
def clone (o : ℕ) : HM K ℕ := do
  let x ← getObj o
  newObj x

/-- `slice`, nurbs.py:1223-1266 -/
def slice (env : Env K) (jn : Scratch K) (o : ℕ) (axis : ℤ) (start stop : Option K) : HM K ℕ := do
  let x ← getObj o
  match x with
  | ⟨0, _, _⟩ => lift (throw .index)
  | ⟨d + 1, A, k⟩ => do
    let a ← lift (normAxis (d + 1) axis)
    let N ← contents ⟨d + 1, A, k⟩
    let p := N.degree a
    let u0 := start.getD (N.lo a)
    let u1 := stop.getD (N.hi a)
    lift (pyAssert (N.lo a ≤ u0))
    lift (pyAssert (u1 ≤ N.hi a))
    lift (pyAssert (u0 < u1))
    let s0 ← lift (BSp.FindMult env.eps p (N.len a - 1) (N.U a) u0)
    let s1 ← lift (BSp.FindMult env.eps p (N.len a - 1) (N.U a) u1)
    let o' ← clone o
    refine env jn o' (a : ℤ)
      (.fresh (List.replicate (max 0 (p - s0)).toNat u0 ++ List.replicate (max 0 (p - s1)).toNat u1))
    let x' ← getObj o'
    match x' with
    | ⟨0, _, _⟩ => lift (throw .index)
    | ⟨d' + 1, A', k'⟩ => do
      let a' ← lift (normAxis (d' + 1) (a : ℤ))
      let N' ← contents ⟨d' + 1, A', k'⟩
      let i0 := Nrb.searchR (N'.U a') (N'.len a') u0 - 1
      let i1 := Nrb.searchL (N'.U a') (N'.len a') u1
      let S := N'.setAxis a' (i1 - (i0 - p)) (p + (i1 + 1 - i0) + p) (Nrb.sliceKnots p i0 i1 (N'.U a'))
        (fun i => N'.row a' (i + (i0 - p)))
      let B ← alloc (netArr S)
      let V ← alloc (knotArr (S.len a') (S.U a'))
      newObj ⟨d' + 1, B, Function.update k' a' V⟩

/-- `extract`, nurbs.py:1321-1341 -/
def extract (env : Env K) (jn : Scratch K) (o : ℕ) (axis : ℤ) (value : K) : HM K ℕ := do
  let x ← getObj o
  match x with
  | ⟨0, _, _⟩ => lift (throw .index)
  | ⟨d + 1, A, k⟩ => do
    let a ← lift (normAxis (d + 1) axis)
    let N ← contents ⟨d + 1, A, k⟩
    lift (pyAssert (N.lo a ≤ value))
    lift (pyAssert (value ≤ N.hi a))
    let Cw ← lift (BSp.Extract env.eps jn.rows (N.n a) (N.degree a) (N.U a) (N.row a) value)
    let B ← alloc (netArr (⟨a.removeNth N.shape, N.nc, a.removeNth N.len, a.removeNth N.U, Cw⟩ : Nrb K d))
    newObj ⟨d, B, a.removeNth k⟩

/-- `boundary`, nurbs.py:1356-1364 -/
def boundary (env : Env K) (jn : Scratch K) (o : ℕ) (axis : ℤ) (side : ℤ) : HM K ℕ := do
  let x ← getObj o
  lift (pyAssert (side = 0 ∨ side = 1))
  let a ← lift (normAxis x.d axis)
  let N ← contents x
  extract env jn o (a : ℤ) (if side = 0 then N.lo a else N.hi a)

/-- an array-like argument of the constructor: numbers that `np.asarray(..., dtype='d')` copies, or an array of doubles in
C order, which it returns (nurbs.py:167, 178) -/
inductive ArrRef (K : Type) where
  | fresh (A : Nd K)
  | ref (A : ℕ)

/-- the values of an argument array, nurbs.py:167, 178 -/
def readArr : ArrRef K → HM K (Nd K)
  | .fresh A => pure A
  | .ref A => fun H => if A < H.na then (.ok (H.arr A), H) else (.error .index, H)

/-- the array that `np.asarray` gives (nurbs.py:167, 178, 180, 182) -/
def asArray : ArrRef K → HM K ℕ
  | .fresh A => alloc A
  | .ref A => fun H => if A < H.na then (.ok A, H) else (.error .index, H)

/-- one knot vector after the other (nurbs.py:167) -/
def asArrays : {d : ℕ} → (Fin d → ArrRef K) → HM K (Fin d → ℕ)
  | 0, _ => pure Fin.elim0
  | _ + 1, r => do
    let A ← asArray (r 0)
    let As ← asArrays (fun a => r a.succ)
    pure (Fin.cons A As)

/-- argument `control` of the constructor (nurbs.py:174-182) -/
inductive CtrlRef (K : Type) where
  | none
  | arr (C : ArrRef K)

/-- `__init__`, nurbs.py:162-242, for arguments `knots`, `control`, `fields`, `weights` (not for a pair in place of
`control`).  The values are those of `Nrb.ctor`.  Knot vectors that are arrays of doubles are kept as they are; so is an
array of control points with four components, if there are no fields (nurbs.py:218-219, 234-239, 241-242). -/
def new {d : ℕ} (knots : Fin d → ArrRef K) (control : CtrlRef K) (fields weights : Option (Nd K)) : HM K ℕ := do
  let ks ← asArrays knots
  let U ← look (fun H a => H.arr (ks a))
  match control with
  | .none => do
    let N ← lift (Nrb.ctor U .none fields weights)
    let A ← alloc (netArr N)
    newObj ⟨d, A, ks⟩
  | .arr C => do
    let c ← asArray C
    let D ← look (fun H => H.arr c)
    let N ← lift (Nrb.ctor U (.arr D) fields weights)
    if D.shape.getLastD 0 = 4 ∧ fields.isNone then newObj ⟨d, c, ks⟩
    else do
      let A ← alloc (netArr N)
      newObj ⟨d, A, ks⟩

/-! ## what users do to arrays -/

/-- a new array of the user (an argument for nurbs.py:162) -/
def newArr (A : Nd K) : HM K ℕ := alloc A

/-- `A[idx] = v` (an assignment of the user, through `control` or `array` of nurbs.py:275-287) -/
def write (A : ℕ) (idx : List ℤ) (v : K) : HM K Unit := fun H =>
  let B : Nd K := ⟨(H.arr A).shape, Function.update (H.arr A).get idx v⟩
  if A < H.na then (.ok (), { H with arr := Function.update H.arr A B }) else (.error .index, H)

/-- `self.array[idx] = v`, also through `control` or `weights` (views, nurbs.py:275-294) -/
def writeNet (o : ℕ) (idx : List ℤ) (v : K) : HM K Unit := do
  let x ← getObj o
  write x.arr idx v

/-- `self.knots[a][i] = v` (an assignment of the user, through `knots` of nurbs.py:268-273) -/
def writeKnot (o : ℕ) (axis i : ℤ) (v : K) : HM K Unit := do
  let x ← getObj o
  let a ← lift (normAxis x.d axis)
  write (x.knots a) [i] v

end Heap

/-- methods that change an object (nurbs.py:472-1164) -/
inductive Geo (K : Type) where
  | transform (M : Res (Fin 4 → Fin 4 → K))
  | transpose (axes : Option (List ℤ))
  | swap (axis1 axis2 : ℤ)
  | reverse (axes : List ℤ)
  | remap (axis : ℤ) (start stop : Option K)
  | insert (axis : ℤ) (value : K) (times : Option ℤ)
  | remove (axis : ℤ) (value : K) (times : Option ℤ) (deviation : K)
  | clamp (axis : ℤ) (side : Option ℤ)
  | unclamp (axis : ℤ) (side continuity : Option ℤ)
  | refine (axis : ℤ) (values : Heap.ValArg K)
  | elevate (axis : ℤ) (times : Option ℤ)

/-- a call of a method (nurbs.py:472-1164) -/
noncomputable def Geo.run (env : Env K) (jn : Scratch K) (o : ℕ) : Geo K → HM K Unit
  | .transform M => Heap.transform o M
  | .transpose axes => Heap.transpose o axes
  | .swap i j => Heap.swap o i j
  | .reverse axes => Heap.reverse o axes
  | .remap axis start stop => Heap.remap o axis start stop
  | .insert axis value times => Heap.insert env jn o axis value times
  | .remove axis value times dev => Heap.remove env jn o axis value times dev
  | .clamp axis side => Heap.clamp env jn o axis side
  | .unclamp axis side cont => Heap.unclamp env jn o axis side cont
  | .refine axis values => Heap.refine env jn o axis values
  | .elevate axis times => Heap.elevate env jn o axis times

/-- what a program does with objects and arrays (nurbs.py:162-1364) -/
inductive Cmd (K : Type) where
  | geo (o : ℕ) (g : Geo K)
  | copy (o : ℕ)
  | clone (o : ℕ)
  | slice (o : ℕ) (axis : ℤ) (start stop : Option K)
  | extract (o : ℕ) (axis : ℤ) (value : K)
  | boundary (o : ℕ) (axis side : ℤ)
  | new {d : ℕ} (knots : Fin d → Heap.ArrRef K) (control : Heap.CtrlRef K) (fields weights : Option (Nd K))
  | newArr (A : Nd K)
  | write (A : ℕ) (idx : List ℤ) (v : K)
  | writeNet (o : ℕ) (idx : List ℤ) (v : K)
  | writeKnot (o : ℕ) (axis i : ℤ) (v : K)

/-- the heap after a command, whether it raises or not; new handles are the next free numbers (nurbs.py:162-1364) -/
noncomputable def Cmd.exec (env : Env K) (jn : Scratch K) (H : Heap K) : Cmd K → Heap K
  | .geo o g => (g.run env jn o H).2
  | .copy o => (Heap.copy o H).2
  | .clone o => (Heap.clone o H).2
  | .slice o axis start stop => (Heap.slice env jn o axis start stop H).2
  | .extract o axis value => (Heap.extract env jn o axis value H).2
  | .boundary o axis side => (Heap.boundary env jn o axis side H).2
  | .new knots control fields weights => (Heap.new knots control fields weights H).2
  | .newArr A => (Heap.newArr A H).2
  | .write A idx v => (Heap.write A idx v H).2
  | .writeNet o idx v => (Heap.writeNet o idx v H).2
  | .writeKnot o axis i v => (Heap.writeKnot o axis i v H).2

/-- the heap after a program; every command has its own uninitialised memory (nurbs.py:162-1364) -/
noncomputable def execAll (env : Env K) (H : Heap K) (p : List (Scratch K × Cmd K)) : Heap K :=
  p.foldl (fun H c => c.2.exec env c.1 H) H

end Igakit
