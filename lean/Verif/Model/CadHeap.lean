import Verif.Model.Heap
import Verif.Model.Coons
import Verif.Model.Join
import Verif.Model.CadRefine

/-!
# Model of the storage behind the functions of /repo/igakit/cad.py

The functions of cad.py that take NURBS objects, statement by statement on the heap of `Verif.Model.Heap`: which objects are
cloned, which methods change which object, which arrays the results refer to.  The numbers put into new arrays are those of
`Verif.Model.Cad`, `Compat`, `Coons`, `Join`, `CadRefine`.

Simplification: knot vectors of objects have one axis (the constructor asserts it, nurbs.py:170-172).
-/

namespace Igakit

variable {K : Type} [Field K] [LinearOrder K]

/-- uninitialised memory of one call, for objects with `d + 1` axes
(of the compiled routines called through nurbs.py:933, 1080, 1157) -/
def Scratch.mem (j : Scratch K) {d : ℕ} : Mem K d := ⟨j.k, j.rows, j.b⟩

namespace Heap

/-! ## statements -/

/-- `for x in l: f(x)` (as in cad.py:320-323) -/
def forEach {α : Type} : List α → (α → HM K Unit) → HM K Unit
  | [], _ => pure ()
  | x :: l, f => do
    f x
    forEach l f

/-- `[f(0), f(1), ...]` (as in cad.py:369) -/
def seqH {α : Type} : {m : ℕ} → (Fin m → HM K α) → HM K (Fin m → α)
  | 0, _ => pure Fin.elim0
  | _ + 1, f => do
    let x ← f 0
    let xs ← seqH (fun i => f i.succ)
    pure (Fin.cons x xs)

/-- `for i, nrb in enumerate(nurbs): f(i)` (cad.py:320, 332, 361) -/
def eachFin : {m : ℕ} → (Fin m → HM K Unit) → HM K Unit
  | 0, _ => pure ()
  | _ + 1, f => do
    f 0
    eachFin (fun i => f i.succ)

/-- the numbers of object `o`; `d` axes are asserted (`nrb.control`, `nrb.knots` as in cad.py:417-419) -/
def numbers (d o : ℕ) : HM K (Nrb K d) := fun H =>
  if o < H.no then
    if h : (H.obj o).d = d then (.ok (h ▸ H.nrb (H.obj o)), H) else (.error .assertion, H)
  else (.error .index, H)

/-- `NURBS(nrb.knots + (V,), Cw)` with a new array `Cw` of four components: the knot vectors of `nrb` are kept as they are
(`np.asarray`, nurbs.py:167) -/
def extend (o : ℕ) {e : ℕ} (V : HM K ℕ) (r : Res (Nrb K e)) : HM K ℕ := do
  let x ← getObj o
  let V ← V
  let R ← lift r
  let A ← alloc (netArr R)
  newObj ⟨x.d + 1, A, Fin.snoc (α := fun _ => ℕ) x.knots V⟩

/-- `nrb.knots[0]` (cad.py:550) -/
def knotRef (o : ℕ) : HM K ℕ := do
  let x ← getObj o
  if h : 0 < x.d then pure (x.knots ⟨0, h⟩) else lift (throw .index)

/-- a new object with new arrays (`NURBS(...)` as in cad.py:420) -/
def make {d : ℕ} (r : Res (Nrb K d)) : HM K ℕ := do
  let R ← lift r
  let k ← allocAll (fun a => knotArr (R.len a) (R.U a))
  let A ← alloc (netArr R)
  newObj ⟨d, A, k⟩

namespace Cad

/-! ## compat -/

/-- `SameBounds`, cad.py:310-323 -/
def sameBounds {m : ℕ} (d : ℕ) (os : Fin m → ℕ) (axes : List (Fin d)) : HM K Unit := do
  let N ← seqH (fun i => numbers d (os i))
  eachFin (fun i => forEach axes (fun a =>
    remap (os i) (a : ℤ) (some (Igakit.Cad.listMin (List.ofFn (fun j => (N j).lo a))))
      (some (Igakit.Cad.listMax (List.ofFn (fun j => (N j).hi a))))))

/-- `SameDegree`, cad.py:325-335 -/
def sameDegree {m : ℕ} (env : Env K) (S : Fin m → ℕ → Scratch K) (d : ℕ) (os : Fin m → ℕ) (axes : List (Fin d)) :
    HM K Unit := do
  let N ← seqH (fun i => numbers d (os i))
  eachFin (fun i => forEach axes (fun a =>
    elevate env (S i a) (os i) (a : ℤ) (some (Igakit.Cad.degMax N a - (N i).degree a))))

/-- `MergeKnots`, cad.py:337-364.  The arrays of values are new ones (`np.repeat`, line 358), so that sorting them in place
does not matter. -/
def mergeKnots {m : ℕ} (env : Env K) (S : Fin m → ℕ → Scratch K) (d : ℕ) (os : Fin m → ℕ) (axes : List (Fin d)) :
    HM K Unit := do
  let N ← seqH (fun i => numbers d (os i))
  let ins ← lift (axes.mapM (fun a => do
    let bs ← Igakit.Cad.innerBreaks env.eps N a
    pure (a, Igakit.Cad.mergeVals bs)))
  eachFin (fun i => forEach ins (fun q =>
    refine env (S i q.1) (os i) (q.1 : ℤ) (.fresh (q.2 i))))

/-- `cad.compat`, cad.py:366-389, for objects with `d` axes; `S1`, `S2`: uninitialised memory of the elevations and of the
refinements, for each object and axis -/
def compat {m : ℕ} (env : Env K) (S1 S2 : Fin m → ℕ → Scratch K) (d : ℕ) (os : Fin m → ℕ) (axes : Option (List ℤ)) :
    HM K (Fin m → ℕ) := do
  let cs ← seqH (fun i => clone (os i))
  if m < 2 then pure cs
  else do
    let _ ← seqH (fun i => numbers d (cs i))
    let axes ← lift (Igakit.Cad.compatAxes d axes)
    if axes = [] then pure cs
    else do
      sameBounds d cs axes
      sameDegree env S1 d cs axes
      mergeKnots env S2 d cs axes
      pure cs

/-! ## functions that make an object with one more axis -/

/-- `cad.extrude`, cad.py:414-420 -/
def extrude (o : ℕ) (displ : ArrArg K) (axis : Option ℤ) : HM K ℕ := do
  let x ← getObj o
  let N ← contents x
  extend o (alloc unitKnots) (Igakit.Cad.extrude N displ axis)

/-- `cad.sweep`, cad.py:544-551 -/
def sweep (o1 o2 : ℕ) : HM K ℕ := do
  let x ← getObj o1
  let S ← contents x
  let T ← numbers 1 o2
  extend o1 (knotRef o2) (Igakit.Cad.sweep S T)

/-- `cad.ruled`, cad.py:516-524, for objects with `d + 1` axes -/
def ruled (env : Env K) (S1 S2 : Fin 2 → ℕ → Scratch K) (d : ℕ) (o1 o2 : ℕ) : HM K ℕ := do
  lift (pyAssert (d + 1 ≤ 2))
  let c ← compat env S1 S2 (d + 1) ![o1, o2] none
  let N ← seqH (fun i => numbers (d + 1) (c i))
  extend (c 0) (alloc unitKnots) (Nrb.ctor ((N 0).knotsWith unitKnots)
    (.arr ((N 0).netWith 2 4 (fun idx j c => if j = 0 then (N 0).P idx c else (N 1).P idx c))) none none)

/-- `cad.revolve`, cad.py:442-504: the argument is cloned, the clone is transformed (line 466), the result is transformed back
(line 504) -/
noncomputable def revolve (junk : ℤ → Fin 4 → ℝ) (o : ℕ) (point : ArrArg ℝ) (axis : Transform.AxisArg) (angle : AngleArg) :
    HM ℝ ℕ := do
  let x ← getObj o
  lift (pyAssert (x.d ≤ 2))
  lift (pyAssert (point.toList.length ≤ 3))
  let v ← lift (Igakit.Cad.revAxis axis)
  let T ← lift (Igakit.Cad.revFrame point v)
  let c ← clone o
  transform c (.ok T)
  let y ← getObj c
  let N ← contents y
  let arc ← lift (Igakit.Cad.circle junk 1 none angle)
  let r ← extend c (alloc (knotArr (arc.len 0) (arc.U 0))) (Nrb.ctor (N.knotsWith (arc.knotNd 0))
    (.arr (N.netWith (arc.shape 0) 4 (fun idx j c =>
      Igakit.Cad.revPoint (N.P idx 0) (N.P idx 1) (N.P idx 2) (N.P idx 3) (arc.P ![j]) c))) none none)
  transform r (Transform.inverse T)
  pure r

/-! ## coons -/

/-- uninitialised memory of the calls made in `coons`, as in `Cad.CoonsMem` (cad.py:569-596) -/
structure CoonsScratch (K : Type) where
  pair : Fin 4 → Fin 2 → Fin 2 → ℕ → Scratch K
  three : Fin 2 → Fin 3 → ℕ → Scratch K
  k : ℤ → K
  e : ℤ → ℕ → K

/-- the same as the blocks of `Cad.CoonsMem` (cad.py:569-596) -/
def CoonsScratch.mem (S : CoonsScratch K) : Igakit.Cad.CoonsMem K where
  pair := fun n t i a => (S.pair n t i a).mem
  three := fun t i a => (S.three t i a).mem
  k := S.k
  e := S.e

/-- `cad.coons`, cad.py:565-596; the result keeps the knot vectors of the clone of `B` -/
def coons (env : Env K) (S : CoonsScratch K) (o00 o01 o10 o11 : ℕ) : HM K ℕ := do
  let a ← compat env (S.pair 0 0) (S.pair 0 1) 1 ![o00, o01] none
  let b ← compat env (S.pair 1 0) (S.pair 1 1) 1 ![o10, o11] none
  let A ← seqH (fun i => numbers 1 (a i))
  let B ← seqH (fun i => numbers 1 (b i))
  let P ← lift (Igakit.Cad.endPoints S.k S.e (B 0) (B 1))
  let Q ← lift (Igakit.Cad.endPoints S.k S.e (A 0) (A 1))
  lift (pyAssert (∀ i j : Fin 2, ∀ c : Fin 3, |P j i c - Q i j c| ≤ 1 / 10 ^ 15))
  let r0 ← ruled env (S.pair 2 0) (S.pair 2 1) 0 (a 0) (a 1)
  transpose r0 none
  let r1 ← ruled env (S.pair 3 0) (S.pair 3 1) 0 (b 0) (b 1)
  let bl ← make (Igakit.Cad.multilinear 2 (some (Igakit.Cad.cornerNd (fun i j => P j i))))
  let r ← compat env (S.three 0) (S.three 1) 2 ![r0, r1, bl] none
  let R ← seqH (fun i => numbers 2 (r i))
  let x ← getObj (r 2)
  let N ← lift (Igakit.Cad.addSub (R 0) (R 1) (R 2))
  let A ← alloc (netArr N)
  newObj ⟨x.d, A, x.knots⟩

/-! ## join -/

/-- uninitialised memory of the calls made in `join`, as in `Cad.JoinMem` (cad.py:627-674) -/
structure JoinScratch (K : Type) where
  compat : Fin 2 → Fin 2 → ℕ → Scratch K
  clamp : Fin 2 → Scratch K
  elevate : Fin 2 → Scratch K
  remove : Scratch K

/-- the same as the blocks of `Cad.JoinMem` (cad.py:627-674) -/
def JoinScratch.mem (S : JoinScratch K) {d : ℕ} : Igakit.Cad.JoinMem K d where
  compat := fun t i a => (S.compat t i a).mem
  clamp := fun i => (S.clamp i).rows
  elevate := fun i => (S.elevate i).mem
  remove := S.remove.rows

/-- `cad.join`, cad.py:621-675, for objects with `d + 1` axes: the result keeps the knot vectors of the clone of the first
object on the other axes (lines 667-668, 672).  As in `Cad.join`, `p` in the last statement is the degree of the object. -/
noncomputable def join (env : Env K) (S : JoinScratch K) (d : ℕ) (o1 o2 : ℕ) (axis : ℤ) : HM K ℕ := do
  lift (pyAssert (0 ≤ axis ∧ axis < d + 1))
  let a ← lift (normAxis (d + 1) axis)
  let c ← compat env (S.compat 0) (S.compat 1) (d + 1) ![o1, o2] (some (Igakit.Cad.otherAxes a))
  clamp env (S.clamp 0) (c 0) axis (some 1)
  clamp env (S.clamp 1) (c 1) axis (some 0)
  let X1 ← numbers (d + 1) (c 0)
  let X2 ← numbers (d + 1) (c 1)
  let u := X1.hi a
  remap (c 1) axis (some (X2.lo a + u)) (some (X2.hi a + u))
  let p := max (X1.degree a) (X2.degree a)
  elevate env (S.elevate 0) (c 0) axis (some (p - X1.degree a))
  elevate env (S.elevate 1) (c 1) axis (some (p - X2.degree a))
  let Y1 ← numbers (d + 1) (c 0)
  let Y2 ← numbers (d + 1) (c 1)
  let J ← lift (Igakit.Cad.concat a p u Y1 Y2)
  let x ← getObj (c 0)
  let V ← alloc (knotArr (J.len a) (J.U a))
  let A ← alloc (netArr J)
  let r ← newObj ⟨x.d, A, fun b => if (b : ℕ) = a then V else x.knots b⟩
  remove env S.remove r axis u (some (J.degree a - 1)) (1 / 10 ^ 9)
  pure r

/-! ## refine -/

/-- uninitialised memory of the calls made in `refine`, for each axis, as in `Cad.RefMem` (cad.py:707-764) -/
structure RefScratch (K : Type) where
  clamp : ℕ → Scratch K
  elevate : ℕ → Scratch K
  refine : ℕ → Scratch K

/-- the same as the blocks of `Cad.RefMem` (cad.py:707-764) -/
def RefScratch.mem (S : RefScratch K) {d : ℕ} : Igakit.Cad.RefMem K d where
  clamp := fun a => (S.clamp a).rows
  elevate := fun a => (S.elevate a).mem
  refine := fun a => (S.refine a).mem

/-- `cad.refine`, cad.py:704-766, for objects with `d + 1` axes -/
def refine (env : Env K) (S : RefScratch K) (d : ℕ) (o : ℕ) (factor : PyArg Factor) (degree continuity : PyArg ℤ) :
    HM K ℕ := do
  let c ← clone o
  let axes := List.finRange (d + 1)
  forEach axes (fun a => clamp env (S.clamp a) c ((a : ℕ) : ℤ) none)
  let X ← numbers (d + 1) c
  let deg ← lift (Igakit.Cad.arg degree (fun a => X.degree a))
  lift (pyAssert (∀ a, deg a > 0))
  forEach axes (fun a => do
    let X ← numbers (d + 1) c
    let t := deg a - X.degree a
    if t > 0 then elevate env (S.elevate a) c ((a : ℕ) : ℤ) (some t) else pure ())
  let X ← numbers (d + 1) c
  let fac ← lift (Igakit.Cad.arg factor (fun _ => Factor.all 1))
  lift (pyAssert (∀ a, (fac a).Pos))
  let con ← lift (Igakit.Cad.arg continuity (fun _ => -1))
  let C := fun a => if con a < 0 then con a + X.degree a else con a
  lift (pyAssert (∀ a, C a ≥ 0))
  lift (pyAssert (∀ a, C a < X.degree a))
  forEach axes (fun a => do
    let X ← numbers (d + 1) c
    let us ← lift (X.breakMults env.eps ((a : ℕ) : ℤ))
    lift (pyAssert ((fac a).Fits (us.1.length - 1)))
    Heap.refine env (S.refine a) c ((a : ℕ) : ℤ)
      (.fresh (Igakit.Cad.refineVals (X.degree a) (C a) us.1 us.2 (fac a))))
  pure c

end Cad
end Heap
end Igakit
