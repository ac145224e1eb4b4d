import Verif.Model.Nurbs
import Verif.Model.Iga

/-!
# Model of `NURBS.__init__` and the accessors (/repo/igakit/nurbs.py:162-313) and of `cad.grid`

Numpy arrays of arbitrary shape are pairs of a list of extents and a function of index lists.
Conversions of nested Python sequences (`np.asarray(..., dtype='d')`) are not modelled.
-/

namespace Igakit

variable {K : Type} [Field K] [LinearOrder K]

/-- numpy array of doubles with any number of axes (nurbs.py:167, 178-182) -/
structure Nd (K : Type) where
  shape : List ℤ
  get : List ℤ → K

/-- argument `control`: `None`, an array, or a 2-tuple `(control, weights)` (nurbs.py:174-176) -/
inductive CtrlArg (K : Type) where
  | none
  | arr (C : Nd K)
  | pair (C W : Option (Nd K))

/-- homogeneous net during construction: `Cw.shape[:-1]`, `Cw.shape[-1]`, entries (nurbs.py:196, 209, 219) -/
structure HNet (K : Type) where
  shape : List ℤ
  nc : ℕ
  get : List ℤ → ℕ → K

/-- list comprehension over the axes: stops at the first exception (as in nurbs.py:194) -/
def seqFin {α : Type} : {d : ℕ} → (Fin d → Res α) → Res (Fin d → α)
  | 0, _ => .ok Fin.elim0
  | _ + 1, f => do
    let x ← f 0
    let xs ← seqFin (fun i => f i.succ)
    pure (Fin.cons x xs)

/-- `while U[p] == U[p+1]: p += 1`, nurbs.py:190-191; IndexError when `p+1` reaches the length.
`fuel = len` is enough. -/
def degLoop (U : ℤ → K) (len : ℤ) : ℕ → ℤ → Res ℤ
  | 0, _ => .error .index
  | fuel + 1, p =>
    if p + 1 < len then (if U p = U (p + 1) then degLoop U len fuel (p + 1) else .ok p)
    else .error .index

/-- net with coordinate `i` varying along axis `i` only, nurbs.py:196-201 and cad.py:284-290 (at most
three axes) -/
def grevNet {d : ℕ} (X : Fin d → ℤ → K) (idx : List ℤ) (c : ℕ) : K :=
  if h : c < d then X ⟨c, h⟩ (idx.getD c 0) else if c = 3 then 1 else 0

namespace Nrb

variable {d : ℕ}

/-- `control is None`, nurbs.py:184-201 -/
def ctorDefault (len : Fin d → ℤ) (U : Fin d → ℤ → K) : Res (HNet K) := do
  let degs ← seqFin (fun a => degLoop (U a) (len a) (len a).toNat 1)
  let X ← seqFin (fun a => BSp.Greville (degs a) (len a - 1) (U a))
  pure { shape := List.ofFn (fun a => (len a - 1) - (degs a + 1) + 1), nc := 4, get := grevNet X }

/-- `control` given, nurbs.py:203-219 -/
def ctorControl (C : Nd K) (w : Option (Nd K)) : Res (HNet K) := do
  pyAssert (2 ≤ C.shape.length)
  let sdim := C.shape.getLastD 0
  let sh := C.shape.dropLast
  pyAssert (2 ≤ sdim)
  pyAssert (sdim ≤ 4)
  if sdim < 4 then
    match w with
    | some W => do
      pyAssert (W.shape = sh)
      pure { shape := sh, nc := 4, get := fun idx c =>
        if (c : ℤ) < sdim then C.get (idx ++ [(c : ℤ)]) * W.get idx
        else if c = 3 then W.get idx else 0 }
    | none => pure { shape := sh, nc := 4, get := fun idx c =>
        if (c : ℤ) < sdim then C.get (idx ++ [(c : ℤ)]) else if c = 3 then 1 else 0 }
  else do
    pyAssert (w.isNone = true)
    pure { shape := sh, nc := 4, get := fun idx c => C.get (idx ++ [(c : ℤ)]) }

/-- `np.concatenate([Cw, D*w], axis=-1)` (nurbs.py:229-230) -/
def appendFields (H : HNet K) (nf : ℕ) (D : List ℤ → ℕ → K) : HNet K where
  shape := H.shape
  nc := 4 + nf
  get := fun idx c => if c < 4 then H.get idx c else D idx (c - 4) * H.get idx 3

/-- `fields`, nurbs.py:221-232 -/
def ctorFields (H : HNet K) (fields : Option (Nd K)) : Res (HNet K) :=
  match fields with
  | none => pure H
  | some F =>
    if F.shape = H.shape then pure (appendFields H 1 (fun idx _ => F.get idx))
    else do
      pyAssert ((F.shape.length : ℤ) - 1 = H.shape.length)
      pyAssert (F.shape.dropLast = H.shape)
      pure (appendFields H (F.shape.getLastD 0).toNat (fun idx c => F.get (idx ++ [(c : ℤ)])))

/-- the pair (control, weights) after unpacking a 2-tuple, nurbs.py:174-182 -/
def ctorArgs (control : CtrlArg K) (weights : Option (Nd K)) :
    Res (Option (Nd K) × Option (Nd K)) :=
  match control with
  | .none => pure (none, weights)
  | .arr C => pure (some C, weights)
  | .pair C W => do
    pyAssert (weights.isNone = true)
    pure (C, W)

/-- homogeneous net from the arguments, nurbs.py:184-219 -/
def ctorNet (len : Fin d → ℤ) (U : Fin d → ℤ → K) (C W : Option (Nd K)) : Res (HNet K) :=
  match C with
  | none => do
    pyAssert (W.isNone = true)
    ctorDefault len U
  | some C => ctorControl C W

/-- `NURBS.__init__`, nurbs.py:162-242, with `d` knot vectors -/
def ctor (knots : Fin d → Nd K) (control : CtrlArg K) (fields weights : Option (Nd K)) :
    Res (Nrb K d) := do
  pyAssert (1 ≤ d)
  pyAssert (d ≤ 3)
  pyAssert (∀ a, (knots a).shape.length = 1 ∧ 4 ≤ (knots a).shape.headD 0)
  let len := fun a => (knots a).shape.headD 0
  let U := fun a j => (knots a).get [j]
  let cw ← ctorArgs control weights
  let H ← ctorNet len U cw.1 cw.2
  let A ← ctorFields H fields
  pyAssert (A.shape.length = d)
  pyAssert (∀ a : Fin d, 1 ≤ (len a - 1) - (A.shape.getD a 0 - 1) - 1)
  pure { shape := fun a => A.shape.getD a 0, nc := A.nc, len := len, U := U,
         P := fun idx => A.get (List.ofFn idx) }

/-- `weights`, nurbs.py:290-294 -/
def weights (N : Nrb K d) (idx : Fin d → ℤ) : K := N.P idx 3

/-- `points`, nurbs.py:297-303 (components 0, 1, 2) -/
def points (N : Nrb K d) (idx : Fin d → ℤ) (c : Fin 3) : K := N.P idx c / N.weights idx

/-- `fields`, nurbs.py:306-313: `None` or the number of fields and their values -/
def fields (N : Nrb K d) : Option (ℕ × ((Fin d → ℤ) → ℕ → K)) :=
  if N.nc ≤ 4 then none else some (N.nc - 4, fun idx c => N.P idx (4 + c) / N.weights idx)

/-- `spans(axis)`, nurbs.py:317-328 -/
def spans (eps : K) (ji : ℤ → ℤ) (N : Nrb K d) (axis : ℤ) : Res (List ℤ) := do
  let a ← normAxis d axis
  BSp.SpanIndex eps ji (N.degree a) (N.len a - 1) (N.U a)

/-- `_np_unique`: sorted list of the distinct entries (nurbs.py:341) -/
def npUnique (l : List K) : List K := (l.mergeSort (fun x y => decide (x ≤ y))).dedup

/-- `breaks(axis)`, nurbs.py:330-349: `unique(U[p:-p])`, entries `p .. len-p-1` -/
def breaks (N : Nrb K d) (axis : ℤ) : Res (List K) := do
  let a ← normAxis d axis
  pure (npUnique (slab (N.U a) (N.degree a) (N.len a - N.degree a - 1)))

/-- `mults=True` of `breaks`, nurbs.py:344-349; `u` are the breaks.  The count of the first break, then
of the last one, is replaced by the multiplicity found by `FindMult` in the whole vector, capped by `p`.
(With a single break, `u[0]` and `u[-1]` are the same entry.) -/
def breakMults (eps : K) (N : Nrb K d) (axis : ℤ) : Res (List K × List ℤ) := do
  let a ← normAxis d axis
  let p := N.degree a
  let W := slab (N.U a) p (N.len a - p - 1)
  let u := npUnique W
  let s := u.map (fun x => (W.count x : ℤ))
  let m := N.len a - 1
  let n := m - p - 1
  let m0 ← BSp.FindMult eps p m (N.U a) (u.headD 0) p
  let s := s.set 0 (min m0 p)
  let m1 ← BSp.FindMult eps p m (N.U a) (u.getLastD 0) n
  let s := s.set (s.length - 1) (min m1 p)
  pure (u, s)

/-- `greville(axis)`, nurbs.py:351-363: `m - p` values -/
def greville (N : Nrb K d) (axis : ℤ) : Res (ℤ × (ℤ → K)) := do
  let a ← normAxis d axis
  let X ← BSp.Greville (N.degree a) (N.len a - 1) (N.U a)
  pure (N.len a - 1 - N.degree a, X)

end Nrb

/-! ## `cad.grid` -/

/-- a scalar or a sequence argument (anything else has another number of axes and is rejected)
(cad.py:247-250, 255-258, 269-272) -/
inductive BArg (α : Type) where
  | scalar (x : α)
  | vec (l : List α)
  | other

/-- `if x.ndim == 0: x = x.repeat(dim)`, `assert x.shape == (dim,)`, cad.py:248-250, 256-258, 270-272 -/
def BArg.bcast {α : Type} (d : ℕ) : BArg α → Res (Fin d → α)
  | .scalar x => pure (fun _ => x)
  | .vec l => if h : l.length = d then pure (fun a => l[a.val]'(by omega)) else .error .assertion
  | .other => .error .assertion

/-- `continuity`, cad.py:253-260 -/
def gridCont {d : ℕ} (p : Fin d → ℤ) (continuity : Option (BArg ℤ)) : Res (Fin d → ℤ) := do
  let C ← match continuity with
    | none => pure (fun a => p a - 1)
    | some C => C.bcast d
  let C := fun a => if C a < 0 then C a + p a else C a
  pyAssert (∀ a, 0 ≤ C a)
  pyAssert (∀ a, C a < p a)
  pure C

/-- array `limits`: two numbers or one pair per axis, cad.py:263-267 -/
inductive LimArg (K : Type) where
  | two (a b : K)
  | rows (l : List (K × K))
  | other

/-- `limits`, cad.py:262-266 -/
def LimArg.bcast (d : ℕ) : LimArg K → Res (Fin d → K × K)
  | .two a b => pure (fun _ => (a, b))
  | .rows l => if h : l.length = d then pure (fun a => l[a.val]'(by omega)) else .error .assertion
  | .other => .error .assertion

/-- body of `cad.grid` after `shape` has been normalised, cad.py:247-292; `jk` is the uninitialised
output array of `KnotVector` -/
def gridD (jk : ℤ → K) {d : ℕ} (shape : Fin d → ℤ) (degree : BArg ℤ) (continuity : Option (BArg ℤ))
    (limits : LimArg K) (wrap : BArg Bool) : Res (Nrb K d) := do
  let p ← degree.bcast d
  pyAssert (∀ a, 0 < p a)
  let C ← gridCont p continuity
  let lim ← limits.bcast d
  let w ← wrap.bcast d
  let UX ← seqFin (fun a => do
    let U ← iga_KnotVector jk (shape a) (p a) (C a) (lim a).1 (lim a).2 (w a)
    let X ← BSp.Greville (p a) (knotVectorM (shape a) (p a) (C a)) U
    pure (U, X))
  let len := fun a => knotVectorM (shape a) (p a) (C a) + 1
  Nrb.ctor (fun a => { shape := [len a], get := fun i => (UX a).1 (i.headD 0) })
    (.arr { shape := List.ofFn (fun a => len a - 1 - p a) ++ [4],
            get := fun i => grevNet (fun a => (UX a).2) i.dropLast (i.getLastD 0).toNat })
    none none

/-- `cad.grid`, cad.py:223-292; the dimension is the length of `shape` -/
def grid (jk : ℤ → K) (shape degree : BArg ℤ) (continuity : Option (BArg ℤ)) (limits : LimArg K)
    (wrap : BArg Bool) : Res (Σ d, Nrb K d) :=
  match shape with
  | .scalar x => do
    let N ← gridD jk (d := 1) (fun _ => x) degree continuity limits wrap
    pure ⟨1, N⟩
  | .vec l => do
    pyAssert (1 ≤ l.length ∧ l.length ≤ 3)
    let N ← gridD jk (d := l.length) (fun a => l[a.val]) degree continuity limits wrap
    pure ⟨l.length, N⟩
  | .other => .error .assertion

end Igakit
