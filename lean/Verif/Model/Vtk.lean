import Verif.Model.Io

/-!
# Model of `VTK.write` (/repo/igakit/io.py:262-401)

The file is a list of pieces: text and arrays of big endian doubles.  Opening, flushing and closing of the file and names that
are not ASCII are not modelled.
-/

namespace Igakit

/-- what is written by one `fh_write` or `tofile` (io.py:334-398) -/
inductive Chunk (K : Type) where
  | text (s : String)
  | doubles (l : List K)

/-- `scalars`, `vectors`: a sequence of pairs or a dict, io.py:310-314, 320-324 -/
inductive VtkArg (ι : Type) where
  | seq (l : List (String × ι))
  | dict (l : List (String × ι))

/-- a dict is sorted by its keys (io.py:310-314) -/
def VtkArg.items {ι : Type} : VtkArg ι → List (String × ι)
  | .seq l => l
  | .dict l => l.mergeSort (fun x y => decide (x.1 ≤ y.1))

/-- `bool(scalars)`, `bool(vectors)`: io.py:296 -/
def VtkArg.isEmpty {ι : Type} : VtkArg ι → Bool
  | .seq l => l.isEmpty
  | .dict l => l.isEmpty

namespace VTK

variable {K : Type} [Field K] [LinearOrder K] {d : ℕ}

/-- the object with the argument `fields` in place of its own fields, nurbs.py:1413-1424 -/
def withFields (N : Nrb K d) (F : Nd K) : Res (Nrb K d) := do
  let nf ← if F.shape = List.ofFn N.shape then pure 1 else do
    pyAssert ((F.shape.length : ℤ) - 1 = d)
    pyAssert (F.shape.dropLast = List.ofFn N.shape)
    pure (F.shape.getLastD 0).toNat
  pure { N with
    nc := 4 + nf
    P := fun idx c => if c < 4 then N.P idx c else
      (if F.shape = List.ofFn N.shape then F.get (List.ofFn idx) else F.get (List.ofFn idx ++ [((c - 4 : ℕ) : ℤ)])) * N.P idx 3 }

/-- the argument `fields`, io.py:297-298: looked at only if there are scalars or vectors -/
def shown (N : Nrb K d) (fields : Option (Nd K)) (flag : Bool) : Res (Nrb K d) :=
  match fields with
  | some F => if flag then withFields N F else pure N
  | none => pure N

/-- `uvw`, io.py:292-295: the breaks of each axis through the sampler -/
def grid (sampler : List K → List K) (N : Nrb K d) : Res (Fin d → List K) :=
  seqFin (fun a => do
    let u ← N.breaks a
    pure (sampler u))

/-- `nurbs(*uvw, fields=...)` as arrays `C` and `F`, io.py:296-301: the values are computed one by one in the model of
`__call__` -/
def sample (jk : ℤ → K) (je : ℤ → ℕ → K) (N : Nrb K d) (uvw : Fin d → List K) (flag : Bool) : Res (Nd K × Nd K) := do
  let V ← N.call jk je (fun a => ((uvw a).length : ℤ) - 1) (fun a j => (uvw a).getD j.toNat 0)
  let sh := List.ofFn (fun a => ((uvw a).length : ℤ))
  pure (⟨sh ++ [3], fun i => (V (fun a => i.getD a 0)).1 (i.getLastD 0).toNat⟩,
    ⟨sh ++ [if flag then (N.nc : ℤ) - 4 else 0], fun i => (V (fun a => i.getD a 0)).2 (i.getLastD 0).toNat⟩)

/-- `np.rollaxis(A, -1).ravel('f')`, io.py:305-308: all components of the first point, of the second point, ... -/
def flat (A : Nd K) : List K := ravelF (rollFirst A)

/-- numpy index of a column: negative ones count from the end (io.py:317, 327) -/
def column (nf : ℤ) (i : ℤ) : Res ℤ :=
  if 0 ≤ i ∧ i < nf then pure i else if -nf ≤ i ∧ i < 0 then pure (i + nf) else throw .index

/-- entries `fields[:,c]` (io.py:317, 327) -/
def col (F : List K) (np nf : ℤ) (c : ℤ) : List K := (List.range np.toNat).map (fun (t : ℕ) => F.getD (c + nf * t).toNat 0)

/-- `array` of a scalar, io.py:315-318 -/
def scalarData (F : List K) (np nf : ℤ) (x : String × ℤ) : Res (String × List K) := do
  let c ← column nf x.2
  pure (x.1, col F np nf c)

/-- `array` of a vector, io.py:325-328: missing components are zero, more than three do not fit (ValueError).  The entry
`array[t,k]` is number `3*t+k` -/
def vectorData (F : List K) (np nf : ℤ) (x : String × List ℤ) : Res (String × List K) := do
  let cs ← x.2.mapM (column nf)
  if 3 < cs.length then throw .value
  pure (x.1, (List.range (3 * np.toNat)).map (fun (s : ℕ) =>
    if s % 3 < cs.length then F.getD (cs.getD (s % 3) 0 + nf * (s / 3 : ℕ)).toNat 0 else 0))

/-- `name or (attr_type.lower() + str(i))` with blanks replaced, io.py:380-381, 393-394 -/
def attrName (kind : String) (i : ℕ) (name : String) : String :=
  (if name = "" then kind ++ toString i else name).map (fun c => if c = ' ' then '_' else c)

/-- dimensions, io.py:303, 349, 359 -/
def dims (uvw : Fin d → List K) (k : ℕ) : ℕ := if h : k < d then (uvw ⟨k, h⟩).length else 1

/-- coordinates, io.py:304, 361 -/
def coords (uvw : Fin d → List K) (k : ℕ) : List K := if h : k < d then uvw ⟨k, h⟩ else [0]

/-- the geometry, io.py:345-366 -/
def geometry (uvw : Fin d → List K) (points : List K) (control : Bool) : List (Chunk K) :=
  if control then
    [.text "DATASET STRUCTURED_GRID", .text "\n",
     .text s!"DIMENSIONS {dims uvw 0} {dims uvw 1} {dims uvw 2}", .text "\n",
     .text s!"POINTS {points.length / 3} double", .text "\n", .doubles points, .text "\n"]
  else
    [.text "DATASET RECTILINEAR_GRID", .text "\n",
     .text s!"DIMENSIONS {dims uvw 0} {dims uvw 1} {dims uvw 2}", .text "\n"] ++
    [("X", 0), ("Y", 1), ("Z", 2)].flatMap (fun x =>
      [.text s!"{x.1}_COORDINATES {(coords uvw x.2).length} double", .text "\n", .doubles (coords uvw x.2), .text "\n"])

/-- the point data, io.py:374-398 -/
def pointData (np : ℕ) (sc ve : List (String × List K)) : List (Chunk K) :=
  if sc.isEmpty && ve.isEmpty then [] else
    [.text s!"POINT_DATA {np}", .text "\n"] ++
    sc.zipIdx.flatMap (fun x => [.text s!"SCALARS {attrName "scalars" x.2 x.1.1} double", .text "\n",
      .text "LOOKUP_TABLE default", .text "\n", .doubles x.1.2, .text "\n"]) ++
    ve.zipIdx.flatMap (fun x => [.text s!"VECTORS {attrName "vectors" x.2 x.1.1} double", .text "\n", .doubles x.1.2, .text "\n"])

/-- `VTK.write`, io.py:276-401.  `fields` is `None` (the fields of the object) or an array; `fields=False` together with
scalars or vectors is not modelled. -/
def write (title : String) (jk : ℤ → K) (je : ℤ → ℕ → K) (N : Nrb K d) (control : Bool) (fields : Option (Nd K))
    (scalars : VtkArg ℤ) (vectors : VtkArg (List ℤ)) (sampler : List K → List K) : Res (List (Chunk K)) := do
  let uvw ← grid sampler N
  let flag := !(scalars.isEmpty && vectors.isEmpty)
  let N' ← shown N fields flag
  let out ← sample jk je N' uvw flag
  let points := flat out.1
  let F := flat out.2
  let nf := out.2.shape.getLastD 0
  let np := points.length / 3
  let sc ← scalars.items.mapM (scalarData F np nf)
  let ve ← vectors.items.mapM (vectorData F np nf)
  pure ([.text "# vtk DataFile Version 2.0", .text "\n", .text (String.ofList (title.toList.take 255)), .text "\n", .text "BINARY", .text "\n"] ++
    geometry uvw points control ++ pointData np sc ve)

end VTK
end Igakit
