import Verif.Model.Transform

/-!
# Model of the storage behind `transform` objects (/repo/igakit/transform.py)

The methods of `transform` again, this time on a heap: an object is a reference `matrix` to an array of numbers.  A method
reads arrays, allocates new ones and assigns the reference of `self`; the only way to change an array that exists is an
assignment by the user, `t.matrix[i, j] = v`.  An exception leaves the heap as it is when it is raised.  The numbers are
those of Model/Transform.lean.
-/

namespace Igakit

/-- arrays of matrices and objects; handles below `nm`, `no` are in use (transform.py:7-15) -/
structure THeap where
  mat : ℕ → Mat4 ℝ
  nm : ℕ
  obj : ℕ → ℕ
  no : ℕ

/-- what may be passed as `matrix`: nothing, a transform, an array of shape (4,4), (3,3) or another shape
(transform.py:7-15, 40-52) -/
inductive TSrc where
  | none
  | trans (o : ℕ)
  | arr4 (M : Mat4 ℝ)
  | arr3 (R : Matrix (Fin 3) (Fin 3) ℝ)
  | other

/-- calls of `transform`, of its methods, and `t.matrix[i, j] = v` (transform.py:7-127) -/
inductive TCmd where
  | new (m : TSrc)
  | copy (o : ℕ)
  | clone (o : ℕ)
  | inverse (o : ℕ)
  | invert (o : ℕ)
  | compose (o : ℕ) (m : TSrc)
  | translate (o : ℕ) (displ : ArrArg ℝ) (axis : Option ℤ)
  | scale (o : ℕ) (s : ArrArg ℝ) (axis : Option ℤ)
  | rotate (o : ℕ) (angle : ℝ) (axis : Transform.AxisArg)
  | write (o : ℕ) (i j : Fin 4) (v : ℝ)

namespace THeap

/-- the numbers of an object (transform.py:15) -/
def val (H : THeap) (o : ℕ) : Mat4 ℝ := H.mat (H.obj o)

/-- a new array (transform.py:9, 11, 13, 25, 37, 52) -/
def alloc (H : THeap) (M : Mat4 ℝ) : ℕ × THeap := (H.nm, { H with mat := Function.update H.mat H.nm M, nm := H.nm + 1 })

/-- `transform.__new__` and `trans.matrix = r`, transform.py:24-26, 29-31 -/
def newObj (H : THeap) (r : ℕ) : Res ℕ × THeap :=
  (.ok H.no, { H with obj := Function.update H.obj H.no r, no := H.no + 1 })

/-- `self.matrix = r` and `return self` (transform.py:15, 25, 30) -/
def setMat (H : THeap) (o r : ℕ) : Res ℕ × THeap := (.ok o, { H with obj := Function.update H.obj o r })

/-- `self.matrix = <new array>`; an exception while the array is computed leaves everything as it is
(transform.py:37-38, 52-53) -/
def assign (H : THeap) (o : ℕ) : Res (Mat4 ℝ) → Res ℕ × THeap
  | .ok M => (H.alloc M).2.setMat o (H.alloc M).1
  | .error e => (.error e, H)

/-- `__init__`, transform.py:7-15: `np.identity`, a copy of the matrix of a transform, `np.array` (a copy) -/
noncomputable def new (H : THeap) : TSrc → Res ℕ × THeap
  | .none => (H.alloc 1).2.newObj (H.alloc 1).1
  | .trans o => if o < H.no then (H.alloc (H.val o)).2.newObj (H.alloc (H.val o)).1 else (.error .index, H)
  | .arr4 M => (H.alloc M).2.newObj (H.alloc M).1
  | .arr3 _ => (.error .assertion, H)
  | .other => (.error .assertion, H)

/-- `invert`, transform.py:36-38: `np.linalg.inv(...)` is a new array, LinAlgError for a singular matrix -/
noncomputable def invert (H : THeap) (o : ℕ) : Res ℕ × THeap := H.assign o (Transform.inverse (H.val o))

/-- the matrix `M` of `compose`, transform.py:41-51; `np.asarray(None, dtype='d')` has shape () -/
noncomputable def composeArg (H : THeap) : TSrc → Res (Mat4 ℝ)
  | .none => .error .assertion
  | .trans o => if o < H.no then .ok (H.val o) else .error .index
  | .arr4 M => .ok M
  | .arr3 R => .ok (Transform.embed3 R)
  | .other => .error .assertion

/-- `compose`, transform.py:40-53: `np.dot` is a new array -/
noncomputable def compose (H : THeap) (o : ℕ) (m : TSrc) : Res ℕ × THeap :=
  H.assign o (do let M ← H.composeArg m; pure (Transform.compose (H.val o) M))

open Classical in
/-- one statement; a name that is not defined raises (transform.py:7-127) -/
noncomputable def exec (H : THeap) : TCmd → Res ℕ × THeap
  | .new m => H.new m
  -- copy, transform.py:23-26
  | .copy o => if o < H.no then (H.alloc (H.val o)).2.newObj (H.alloc (H.val o)).1 else (.error .index, H)
  -- clone, transform.py:28-31: the same array
  | .clone o => if o < H.no then H.newObj (H.obj o) else (.error .index, H)
  -- inverse, transform.py:33-34: `self.clone().invert()`; after an exception nothing refers to the clone
  | .inverse o =>
    if o < H.no then
      match (H.newObj (H.obj o)).2.invert H.no with
      | (.ok r, H') => (.ok r, H')
      | (.error e, _) => (.error e, H)
    else (.error .index, H)
  | .invert o => if o < H.no then H.invert o else (.error .index, H)
  | .compose o m => if o < H.no then H.compose o m else (.error .index, H)
  -- translate, scale, rotate, transform.py:55-127: end with `self.compose(...)`
  | .translate o displ axis => if o < H.no then H.assign o (Transform.translate (H.val o) displ axis) else (.error .index, H)
  | .scale o s axis => if o < H.no then H.assign o (Transform.scale (H.val o) s axis) else (.error .index, H)
  -- rotate by 0.0 returns before `compose`, transform.py:94
  | .rotate o angle axis =>
    if o < H.no then
      if angle = 0 then (.ok o, H) else H.assign o (Transform.rotate (H.val o) angle axis)
    else (.error .index, H)
  -- an assignment by the user
  | .write o i j v =>
    if o < H.no then
      (.ok o, { H with mat := Function.update H.mat (H.obj o) (Matrix.of fun i' j' => if i' = i ∧ j' = j then v else H.val o i' j') })
    else (.error .index, H)

/-- a program; the user catches the exceptions (transform.py:7-127) -/
noncomputable def run (H : THeap) : List TCmd → List (Res ℕ) × THeap
  | [] => ([], H)
  | c :: cs => ((H.exec c).1 :: ((H.exec c).2.run cs).1, ((H.exec c).2.run cs).2)

end THeap

end Igakit
