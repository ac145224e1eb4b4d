import Verif.Model.Ctor
import Mathlib.Algebra.BigOperators.Group.List.Basic

/-!
# Model of class `PetIGA` (/repo/igakit/io.py:6-259)

A file is the list of its bytes.  Integers are big endian two's complement numbers of `w = 4` or `w = 8` bytes
(io.py:23-26).  The encoding of reals is a parameter (`Codec`): any encoding with a fixed number of bytes.  Opening and
closing of files, Python's arbitrary-precision integers beyond the range of the file format and the conversion of the byte
order in memory are not modelled.
-/

namespace Igakit

/-- contents of a file, io.py:84, 118 -/
abbrev Bytes := List UInt8

/-! ## arrays -/

/-- position of an entry in Fortran order: first index fastest (io.py:97) -/
def offsetF : List ℤ → List ℤ → ℤ
  | s :: ss, i :: is => i + s * offsetF ss is
  | _, _ => 0

/-- indices of the entry at a position in Fortran order (io.py:166) -/
def unravelF : List ℤ → ℤ → List ℤ
  | [], _ => []
  | s :: ss, t => (t % s) :: unravelF ss (t / s)

/-- `A.ravel('f')` (io.py:97, 102, 205) -/
def ravelF {K : Type} (A : Nd K) : List K := (List.range A.shape.prod.toNat).map (fun (t : ℕ) => A.get (unravelF A.shape t))

/-- `l.reshape(shape, order='f')`: ValueError if the sizes differ (io.py:166, 187, 232) -/
def reshapeF {K : Type} [Zero K] (l : List K) (shape : List ℤ) : Res (Nd K) :=
  if (l.length : ℤ) = shape.prod then .ok ⟨shape, fun idx => l.getD (offsetF shape idx).toNat 0⟩ else .error .value

/-- `A.ravel()`: last index fastest (io.py:36: `tofile` writes in C order) -/
def ravelC {K : Type} (A : Nd K) : List K :=
  (List.range A.shape.prod.toNat).map (fun (t : ℕ) => A.get (unravelF A.shape.reverse t).reverse)

/-- `l.reshape(shape)` (io.py:203) -/
def reshapeC {K : Type} [Zero K] (l : List K) (shape : List ℤ) : Res (Nd K) :=
  if (l.length : ℤ) = shape.prod then .ok ⟨shape, fun idx => l.getD (offsetF shape.reverse idx.reverse).toNat 0⟩
  else .error .value

/-- `np.rollaxis(A, -1)`: last axis first (io.py:74, 79, 204) -/
def rollFirst {K : Type} (A : Nd K) : Nd K :=
  ⟨A.shape.getLastD 0 :: A.shape.dropLast, fun idx => A.get (idx.tail ++ [idx.headD 0])⟩

/-- `np.rollaxis(A, 0, A.ndim)`: first axis last (io.py:167, 188, 233) -/
def rollLast {K : Type} (A : Nd K) : Nd K :=
  ⟨A.shape.tail ++ [A.shape.headD 0], fun idx => A.get (idx.getLastD 0 :: idx.dropLast)⟩

/-! ## numbers -/

/-- big endian digits (`>i4`, `>i8` of io.py:23-26) -/
def encNat : ℕ → ℕ → Bytes
  | 0, _ => []
  | w + 1, n => encNat w (n / 256) ++ [UInt8.ofNat (n % 256)]

/-- the number with given big endian digits, io.py:23-26, 40 -/
def decNat (bs : Bytes) : ℕ := bs.foldl (fun a b => a * 256 + b.toNat) 0

/-- `np.asarray(x, '>i4').tofile` with `w = 4`, `'>i8'` with `w = 8` (io.py:23-26, 36) -/
def encInt (w : ℕ) (x : ℤ) : Bytes := encNat w (x % 256 ^ w).toNat

/-- the integer read from `w` bytes in two's complement, io.py:40-43 -/
def decInt (w : ℕ) (bs : Bytes) : ℤ :=
  if 2 * decNat bs < 256 ^ w then decNat bs else (decNat bs : ℤ) - 256 ^ w

/-- an encoding of reals by a fixed number of bytes (io.py:19-22: `>f4`, `>f8`) -/
structure Codec (K : Type) where
  size : ℕ
  enc : K → Bytes
  dec : Bytes → K
  size_pos : 0 < size
  length_enc : ∀ x, (enc x).length = size

/-- `>c8`, `>c16` holding a real: real part, then imaginary part; when reading only the real part is used
(`np.real`, io.py:147-148, and the conversion to doubles in the constructor, nurbs.py:177-182) -/
def Codec.complex {K : Type} [Zero K] (R : Codec K) : Codec K where
  size := R.size + R.size
  enc := fun x => R.enc x ++ R.enc 0
  dec := fun bs => R.dec (bs.take R.size)
  size_pos := by have := R.size_pos; omega
  length_enc := fun x => by rw [List.length_append, R.length_enc, R.length_enc]

/-! ## reading -/

/-- a reader: consumes bytes or raises (io.py:38-43) -/
abbrev Rd := StateT Bytes (Except Err)

/-- `assert` while a file is read, for example io.py:121 -/
def rdAssert (c : Prop) [Decidable c] : Rd Unit := fun bs => if c then .ok ((), bs) else .error .assertion

/-- `_read(fid, I)`, io.py:39-40: IndexError at the end of the file -/
def readInt (w : ℕ) : Rd ℤ := fun bs =>
  if bs.length < w then .error .index else .ok (decInt w (bs.take w), bs.drop w)

/-- `_read(fid, dtype, count)`, io.py:41-43: `np.fromfile` gives the complete items that are there, at most `count`; all of
them if `count` is negative -/
def readArr {α : Type} (size : ℕ) (dec : Bytes → α) (count : ℤ) : Rd (List α) := fun bs =>
  let avail := bs.length / size
  let m := if count < 0 then avail else min count.toNat avail
  .ok ((List.range m).map (fun i => dec ((bs.drop (i * size)).take size)),
    if count < 0 ∨ (m : ℤ) < count then [] else bs.drop (m * size))

/-- `_read(fid, dtype, n)` followed by `assert len(A) == n`, io.py:134-135, 145-146, 157-158, 225-226, 253-256 -/
def readExact {α : Type} (size : ℕ) (dec : Bytes → α) (n : ℤ) : Rd (List α) := do
  let A ← readArr size dec n
  rdAssert ((A.length : ℤ) = n)
  pure A

namespace PetIGA

variable {K : Type} [Field K] [LinearOrder K]

/-- io.py:15-17 -/
def VEC_ID : ℤ := 1211214
/-- io.py:16 -/
def MAT_ID : ℤ := 1211216
/-- io.py:17 -/
def IGA_ID : ℤ := 1211299

/-- `_write(fh, R, U)`, io.py:35-36 -/
def encList {V : Type} (c : Codec V) (l : List V) : Bytes := l.flatMap c.enc

/-- `nurbs.control[...,idx]` with the last axis first, io.py:72-74 (and 77-79 for the fields); `comps` are the entries of `idx` -/
def compFirst {d : ℕ} (shape : Fin d → ℤ) (P : (Fin d → ℤ) → ℕ → K) (comps : List ℕ) : Nd K :=
  ⟨(comps.length : ℤ) :: List.ofFn shape, fun idx => P (fun a => idx.tail.getD a 0) (comps.getD (idx.headD 0).toNat 0)⟩

/-- the argument `nsd` with its check, io.py:70-71 -/
def nsdArg (dim : ℕ) (nsd : Option ℤ) : Res ℕ := do
  let n := nsd.getD dim
  pyAssert ((dim : ℤ) ≤ n ∧ n ≤ 3)
  pure n.toNat

/-- a block with a vector: number of components `k`, `VEC_ID`, size, entries in Fortran order, io.py:93-102 -/
def vecBlock (w : ℕ) (S : Codec K) (k : ℤ) (A : Nd K) : Bytes :=
  encInt w k ++ (encInt w VEC_ID ++ (encInt w A.shape.prod ++ encList S (ravelF A)))

/-- degree, number of knots, knots of one axis, io.py:89-92 -/
def axisBlock {d : ℕ} (w : ℕ) (R : Codec K) (N : Nrb K d) (a : Fin d) : Bytes :=
  encInt w (N.degree a) ++ (encInt w (N.len a) ++ encList R ((List.range (N.len a).toNat).map (fun (j : ℕ) => N.U a j)))

/-- `write`, io.py:45-104 -/
def write {d : ℕ} (w : ℕ) (R S : Codec K) (N : Nrb K d) (control fields : Bool) (nsd : Option ℤ) : Res Bytes := do
  let C ← if control then do
      let n ← nsdArg d nsd
      pure (some (compFirst N.shape N.P (List.range n ++ [3])))
    else pure none
  let F := if fields then N.fields.map (fun q => compFirst N.shape q.2 (List.range q.1)) else none
  let info : ℤ := (if C.isSome then 1 else 0) + (if F.isSome then 2 else 0)
  pure (encInt w IGA_ID ++ (encInt w info ++ (encInt w d ++ ((List.finRange d).flatMap (axisBlock w R N) ++
    ((match C with | some A => vecBlock w S (A.shape.headD 0 - 1) A | none => []) ++
     (match F with | some A => vecBlock w S (A.shape.headD 0) A | none => []))))))

/-- one axis, io.py:129-138: degree, number of knots, knots -/
def readAxis (w : ℕ) (R : Codec K) : Rd (ℤ × ℤ × List K) := do
  let p ← readInt w
  rdAssert (1 ≤ p)
  let m ← readInt w
  rdAssert (2 ≤ m - p - 1)
  let U ← readExact R.size R.dec m
  pure (p, m, U)

/-- `for i in range(dim)`, io.py:128-138 -/
def readAxes (w : ℕ) (R : Codec K) : (d : ℕ) → Rd (Fin d → ℤ × ℤ × List K)
  | 0 => pure Fin.elim0
  | d + 1 => do
    let x ← readAxis w R
    let xs ← readAxes w R d
    pure (Fin.cons x xs)

/-- control points, io.py:140-148: number of coordinates and entries -/
def readControl (w : ℕ) (S : Codec K) (dim : ℤ) : Rd (ℤ × List K) := do
  let nsd ← readInt w
  rdAssert (dim ≤ nsd ∧ nsd ≤ 3)
  let id ← readInt w
  rdAssert (id = VEC_ID)
  let n ← readInt w
  let C ← readExact S.size S.dec n
  pure (nsd, C)

/-- fields, io.py:152-158 -/
def readFields (w : ℕ) (S : Codec K) : Rd (ℤ × List K) := do
  let npd ← readInt w
  rdAssert (1 ≤ npd)
  let id ← readInt w
  rdAssert (id = VEC_ID)
  let n ← readInt w
  let D ← readExact S.size S.dec n
  pure (npd, D)

/-- contents of a file (io.py:120-160) -/
structure Raw (K : Type) (d : ℕ) where
  axes : Fin d → ℤ × ℤ × List K
  control : Option (ℤ × List K)
  fields : Option (ℤ × List K)

/-- an optional block (io.py:139-160) -/
def opt {α : Type} (c : Bool) (r : Rd α) : Rd (Option α) :=
  if c then do
    let x ← r
    pure (some x)
  else pure none

/-- the part of `read` working on the file, io.py:118-162; `info & 1` and `info & 2` -/
def readRaw (w : ℕ) (R S : Codec K) : Rd ((d : ℕ) × Raw K d) := do
  let id ← readInt w
  rdAssert (id = IGA_ID)
  let info ← readInt w
  let dim ← readInt w
  rdAssert (1 ≤ dim ∧ dim ≤ 3)
  let axes ← readAxes w R dim.toNat
  let C ← opt (decide (info % 2 = 1)) (readControl w S dim)
  let F ← opt (decide (info / 2 % 2 = 1)) (readFields w S)
  pure ⟨dim.toNat, axes, C, F⟩

variable {d : ℕ}

/-- `sizes`, io.py:132-137 -/
def sizes (r : Raw K d) : List ℤ := List.ofFn (fun a => (r.axes a).2.1 - (r.axes a).1 - 1)

/-- knots of an axis as an array (io.py:92) -/
def knotArr (r : Raw K d) (a : Fin d) : Nd K := ⟨[(r.axes a).2.1], fun idx => (r.axes a).2.2.getD (idx.headD 0).toNat 0⟩

/-- control points, io.py:164-183: from the file or, with coordinate `i` the Greville abscissae of axis `i`, from the knots
(stored in an array of scalars of the file format, hence rounded) -/
def buildControl (S : Codec K) (r : Raw K d) : Res (Nd K) :=
  match r.control with
  | some (nsd, C) => do
    let A ← reshapeF C ((nsd + 1) :: sizes r)
    let A := rollLast A
    pure ⟨sizes r ++ [4], fun idx =>
      let c := idx.getLastD 0
      if c < nsd then A.get idx else if c = 3 then A.get (idx.dropLast ++ [nsd]) else 0⟩
  | none => do
    let X ← seqFin (fun a => BSp.Greville (r.axes a).1 ((r.axes a).2.1 - 1) (fun j => (r.axes a).2.2.getD j.toNat 0))
    pure ⟨sizes r ++ [4], fun idx => grevNet (fun a j => S.dec (S.enc (X a j))) idx.dropLast (idx.getLastD 0).toNat⟩

/-- fields, io.py:185-191 -/
def buildFields (r : Raw K d) : Res (Option (Nd K)) :=
  match r.fields with
  | some (npd, D) => do
    let A ← reshapeF D (npd :: sizes r)
    pure (some (rollLast A))
  | none => pure none

/-- io.py:164-193 -/
def build (S : Codec K) (r : Raw K d) : Res (Nrb K d) := do
  let C ← buildControl S r
  let F ← buildFields r
  Nrb.ctor (knotArr r) (.arr C) F none

/-- `read`, io.py:106-193.  Bytes after the last block are ignored. -/
def read (w : ℕ) (R S : Codec K) (bs : Bytes) : Res ((d : ℕ) × Nrb K d) := do
  let q ← (readRaw w R S).run bs
  let N ← build S q.1.2
  pure ⟨q.1.1, N⟩

/-! ## vectors and matrices

The entries are reals or complex numbers: any type `V` with an encoding. -/

variable {V : Type} [Zero V]

/-- `A.reshape(shape + (-1,))`, io.py:202-203: ValueError if the size is not a multiple -/
def reshapeLast (A : Nd V) (shape : List ℤ) : Res (Nd V) :=
  if shape.prod ≠ 0 ∧ A.shape.prod % shape.prod = 0 then reshapeC (ravelC A) (shape ++ [A.shape.prod / shape.prod])
  else .error .value

/-- `write_vec`, io.py:195-213; without `nurbs` the array is written in its own order -/
def writeVec (w : ℕ) (S : Codec V) (A : Nd V) (nurbs : Option (List ℤ)) : Res Bytes := do
  let l ← match nurbs with
    | none => pure (ravelC A)
    | some shape => do
      let B ← reshapeLast A shape
      pure (ravelF (rollFirst B))
  pure (encInt w VEC_ID ++ (encInt w l.length ++ encList S l))

/-- the part of `read_vec` working on the file, io.py:215-228 -/
def readVecRaw (w : ℕ) (S : Codec V) : Rd (List V) := do
  let id ← readInt w
  rdAssert (id = VEC_ID)
  let n ← readInt w
  let A ← readExact S.size S.dec n
  pure A

/-- indices for the axes that `squeeze` keeps: zeros are put in for the others (io.py:234) -/
def unsqueeze : List ℤ → List ℤ → List ℤ
  | [], _ => []
  | s :: ss, idx => if s = 1 then 0 :: unsqueeze ss idx else idx.headD 0 :: unsqueeze ss idx.tail

/-- `A.squeeze()` (io.py:234) -/
def squeeze (A : Nd V) : Nd V := ⟨A.shape.filter (· ≠ 1), fun idx => A.get (unsqueeze A.shape idx)⟩

/-- `read_vec`, io.py:215-236: a plain vector, or an array over the control points of `nurbs` -/
def readVec (w : ℕ) (S : Codec V) (bs : Bytes) (nurbs : Option (List ℤ)) : Res (Nd V) := do
  let q ← (readVecRaw w S).run bs
  match nurbs with
  | none => pure ⟨[(q.1.length : ℤ)], fun idx => q.1.getD (idx.headD 0).toNat 0⟩
  | some shape =>
    if shape.prod ≠ 0 ∧ (q.1.length : ℤ) % shape.prod = 0 then do
      let A ← reshapeF q.1 ((q.1.length : ℤ) / shape.prod :: shape)
      pure (squeeze (rollLast A))
    else .error .value

/-- partial sums starting with 0, io.py:248-251: `AI[0] = 0`, `np.cumsum(rownz, out=AI[1:])` -/
def rowPtr (l : List ℤ) : List ℤ := l.scanl (· + ·) 0

/-- `read_mat`, io.py:238-259: `(M, N), (AI, AJ, AV)`.  `np.cumsum` with an output of another length raises ValueError
and so does `np.empty` with a negative length; with length zero `AI[0] = 0` raises IndexError.  (`AV` keeps the byte order of
the file, which does not change its values.) -/
def readMat (w : ℕ) (S : Codec V) : Rd ((ℤ × ℤ) × (List ℤ × List ℤ × List V)) := do
  let id ← readInt w
  rdAssert (id = MAT_ID)
  let hd ← readArr w (decInt w) 3
  match hd with
  | [M, N, nz] => do
    if M < -1 then throw .value else if M = -1 then throw .index else do
    let rownz ← readArr w (decInt w) M
    if (rownz.length : ℤ) = M then do
      let AI := rowPtr rownz
      rdAssert (AI.getLastD 0 = nz)
      let AJ ← readExact w (decInt w) nz
      let AV ← readExact S.size S.dec nz
      pure ((M, N), (AI, AJ, AV))
    else throw .value
  | _ => throw .value

end PetIGA
end Igakit
