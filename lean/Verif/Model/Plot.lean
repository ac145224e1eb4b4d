import Verif.Model.Eval

/-!
# Model of `Plotter` (/repo/igakit/plot.py:3-278) and of the geometry in the backends plot_mpl.py and plot_myv.py

The model computes the arrays handed to `points3d`, `line3d` and `surf3d` of the backend, and what the two backends make of them:
points, polylines, polygons.  Options and the choice of the backend are in `Model.PlotSession`; figures and titles are not modelled.
The returned handles are not modelled: a method returns the list of what it hands to the backend, in order.
`resolution` (`backend._resolution[1]`, `[2]`: 128, 16 for matplotlib, 256, 128 for mayavi, 64, 32 for null) is a parameter.
If a method raises an exception the parts drawn before are not modelled.
-/

namespace Igakit

/-- uninitialised memory of the calls of compiled code, one block for each of them
(of `Evaluate` and `Extract`, called from plot.py:165, 169) -/
structure PlotMem (K : Type) where
  jk : List ℕ → ℤ → K
  je : List ℕ → ℤ → ℕ → K
  jr : {d : ℕ} → List ℕ → ℤ → (Fin d → ℤ) → ℕ → K

/-- three arrays `x, y, z` handed to the backend (plot.py:22, 177) -/
structure Xyz (K : Type) where
  x : Nd K
  y : Nd K
  z : Nd K

/-- a list comprehension with the number of the round: stops at the first exception (as in plot.py:163-170) -/
def forEach {α β : Type} (f : ℕ → α → Res β) : ℕ → List α → Res (List β)
  | _, [] => .ok []
  | k, x :: l => do
    let y ← f k x
    let ys ← forEach f (k + 1) l
    pure (y :: ys)

namespace Plot

variable {K : Type} [Field K] [LinearOrder K] {d : ℕ}

/-! ## numpy -/

/-- `np.linspace(a, b, num)`: `a + i*step`; with two or more points the last one is `b` itself (plot.py:167) -/
def linspace (a b : K) (num : ℕ) : List K :=
  (List.range num).map (fun (i : ℕ) => if 1 < num ∧ i + 1 = num then b else a + i * ((b - a) / ((num : K) - 1)))

/-- `A.T` (plot.py:22, 177) -/
def transposeNd (A : Nd K) : Nd K := ⟨A.shape.reverse, fun idx => A.get idx.reverse⟩

/-- iteration over an array: first axis (plot.py:22) -/
def rowsNd (A : Nd K) : List (Nd K) :=
  (List.range (A.shape.headD 0).toNat).map (fun (t : ℕ) => ⟨A.shape.tail, fun idx => A.get ((t : ℤ) :: idx)⟩)

/-- `x, y, z = C.T`: ValueError unless there are three (plot.py:22) -/
def unpack3 (C : Nd K) : Res (Xyz K) :=
  match rowsNd (transposeNd C) with
  | [x, y, z] => .ok ⟨x, y, z⟩
  | _ => .error .value

/-- `A.transpose(perm)` (used for plot.py:137) -/
def transposeAxes (A : Nd K) (perm : List ℕ) : Nd K :=
  ⟨perm.map (fun k => A.shape.getD k 0),
    fun idx => A.get ((List.range A.shape.length).map (fun j => idx.getD (perm.idxOf j) 0))⟩

/-- `np.rollaxis(A, axis, -1)`: a negative axis counts from the last axis of `A` (the components) (plot.py:137) -/
def rollaxisEnd (A : Nd K) (axis : ℤ) : Res (Nd K) := do
  let n := A.shape.length
  let ax ← Nrb.npAxis n axis
  let start := if ax < n - 1 then n - 1 - 1 else n - 1
  if ax = start then pure A
  else pure (transposeAxes A (((List.range n).erase ax).insertIdx start ax))

/-- `A.reshape((-1, m, 3))` (plot.py:138) -/
def reshapeLines (A : Nd K) (m : ℤ) : Res (Nd K) :=
  if m * 3 ≠ 0 ∧ A.shape.prod % (m * 3) = 0 then reshapeC (ravelC A) [A.shape.prod / (m * 3), m, 3] else .error .value

/-- `nurbs(*uvw)` with one sequence for each axis (plot.py:169) -/
def callAt (M : PlotMem K) (key : List ℕ) (N : Nrb K d) (uvw : Fin d → List K) : Res (Nd K) := do
  let r ← N.callFull (M.jk key) (M.je key) (fun k => if h : k < d then .seq (uvw ⟨k, h⟩) else .none) .no
  pure r.1

/-- `nurbs.breaks()` (plot.py:104, 128) -/
def allBreaks (N : Nrb K d) : Res (Fin d → List K) := seqFin (fun a => N.breaks ((a : ℕ) : ℤ))

/-- the argument `axes` of `kwire` and `ksurf` (plot.py:123-126, 157-160) -/
inductive AxesArg where
  | none
  | one (axis : ℤ)
  | many (axes : List ℤ)

/-- plot.py:123-126 and 157-160 -/
def AxesArg.list (d : ℕ) : AxesArg → List ℤ
  | .none => ([0, 1, 2] : List ℤ).take d
  | .one axis => [axis]
  | .many axes => axes

/-! ## the plotter -/

/-- `np.atleast_2d(P)` (plot.py:13) -/
def atleast2d (P : Nd K) : Nd K :=
  match P.shape with
  | [] => ⟨[1, 1], fun _ => P.get []⟩
  | [n] => ⟨[1, n], fun idx => P.get idx.tail⟩
  | _ => P

/-- `points`, plot.py:11-22: `np.atleast_2d`, then the missing coordinates are zero -/
def points (P : Nd K) : Res (Xyz K) := do
  let A := atleast2d P
  let dim := A.shape.getLastD 0
  pyAssert (1 ≤ dim)
  pyAssert (dim ≤ 3)
  if dim < 3 then
    unpack3 ⟨A.shape.dropLast ++ [3], fun idx => if idx.getLastD 0 < dim then A.get idx else 0⟩
  else unpack3 A

/-- `quiver`, plot.py:31-61: points and vectors, handed to `quiver3d` -/
def quiver (P V : Nd K) : Res (Xyz K × Xyz K) := do
  let p ← points P
  let v ← points V
  pure (p, v)

/-- `nurbs.points`, nurbs.py:297-303 -/
def pointsNd (N : Nrb K d) : Nd K where
  shape := List.ofFn N.shape ++ [3]
  get := fun idx => N.P (fun a => idx.getD a 0) (idx.getD d 0).toNat / N.P (fun a => idx.getD a 0) 3

/-- `cpoint`, plot.py:66-76: handed to `points3d` -/
def cpoint (N : Nrb K d) : Res (Xyz K) := unpack3 (pointsNd N)

/-- `cwire`, plot.py:84-100: handed to `line3d` -/
def cwire (N : Nrb K d) : Res (List (Xyz K)) := do
  let l ← unpack3 (pointsNd N)
  pure [l]

/-- `kpoint`, plot.py:103-114: handed to `points3d` -/
def kpoint (M : PlotMem K) (N : Nrb K d) : Res (Xyz K) := do
  let uvw ← allBreaks N
  let C ← callAt M [] N uvw
  unpack3 C

/-- one round of the loop of `kwire`, plot.py:131-138 -/
def kwireAxis (M : PlotMem K) (resolution : ℕ) (N : Nrb K d) (uvw : Fin d → List K) (k : ℕ) (axis : ℤ) : Res (List (Nd K)) := do
  let a ← normAxis d axis
  if uvw a = [] then throw .index
  let l := linspace ((uvw a).headD 0) ((uvw a).getLastD 0) resolution
  let C ← callAt M [k] N (Function.update uvw a l)
  let C ← rollaxisEnd C axis
  let C ← reshapeLines C l.length
  pure (rowsNd C)

/-- `kwire`, plot.py:122-153: handed to `line3d` -/
def kwire (M : PlotMem K) (resolution : ℕ) (N : Nrb K d) (axes : AxesArg) : Res (List (Xyz K)) := do
  let uvw ← allBreaks N
  let blocks ← forEach (kwireAxis M resolution N uvw) 0 (axes.list d)
  forEach (fun _ C => unpack3 C) 0 blocks.flatten

/-- `nrb(*uvw)` on `np.linspace(U[p], U[-p-1], resolution)`, plot.py:166-169, 195-197, 229-232 -/
def sampled (M : PlotMem K) (key : List ℕ) (resolution : ℕ) (N : Nrb K d) : Res (Nd K) :=
  callAt M key N (fun a => linspace (N.lo a) (N.hi a) resolution)

/-- one round of the outer loop of `ksurf`, plot.py:164-170 -/
def ksurfAxis (eps : K) (M : PlotMem K) (resolution : ℕ) (N : Nrb K (d + 1)) (k : ℕ) (axis : ℤ) : Res (List (Nd K)) := do
  let us ← N.breaks axis
  forEach (fun i u => do
    let nrb ← N.extract eps (M.jr [k, i]) axis u
    sampled M [k, i] resolution nrb) 0 us

/-- `ksurf`, plot.py:156-178: handed to `surf3d` -/
def ksurf (eps : K) (M : PlotMem K) (resolution : ℕ) (N : Nrb K (d + 1)) (axes : AxesArg) : Res (List (Xyz K)) := do
  let blocks ← forEach (ksurfAxis eps M resolution N) 0 (axes.list (d + 1))
  forEach (fun _ C => unpack3 C) 0 blocks.flatten

/-- the pairs (axis, side) in the order of the loops plot.py:187-190, 220-223 -/
def sides (d : ℕ) : List (ℤ × ℤ) := (List.range d).flatMap (fun (a : ℕ) => [((a : ℤ), 0), ((a : ℤ), 1)])

/-- `nurbs.boundary(axis, side)` for all sides, plot.py:186-190, 219-223 -/
def boundaries (eps : K) (M : PlotMem K) (key : List ℕ) (N : Nrb K (d + 1)) : Res (List (Nrb K d)) :=
  forEach (fun k (s : ℤ × ℤ) => N.boundary eps (M.jr (k :: key)) s.1 s.2) 0 (sides (d + 1))

/-- `curve`, plot.py:183-214: everything handed to `line3d`, in order -/
def curve (eps : K) (M : PlotMem K) (resolution : ℕ) : {d : ℕ} → List ℕ → Nrb K d → Res (List (Xyz K))
  | 0, _, _ => pure []
  | 1, key, N => do
    let C ← sampled M key resolution N
    let l ← unpack3 C
    pure [l]
  | _ + 2, key, N => do
    let bs ← boundaries eps M key N
    let ls ← forEach (fun k nrb => curve eps M resolution (k :: key) nrb) 0 bs
    pure ls.flatten

/-- the loop of `surface`, plot.py:227-241 -/
def surfLoop (M : PlotMem K) (resolution : ℕ) (l : List (Nrb K d)) : Res (List (Xyz K)) := do
  let Cs ← forEach (fun k nrb => sampled M [k] resolution nrb) 0 l
  forEach (fun _ C => unpack3 C) 0 Cs

/-- `surface`, plot.py:216-243: everything handed to `surf3d`; there are no objects with more than three axes -/
def surface (eps : K) (M : PlotMem K) (resolution : ℕ) : {d : ℕ} → Nrb K d → Res (List (Xyz K))
  | 0, _ => pure []
  | 1, _ => pure []
  | 2, N => surfLoop M resolution [N]
  | _ + 3, N => do
    let bs ← boundaries eps M [] N
    surfLoop M resolution bs

/-- `volume`, plot.py:245-253 -/
def volume (eps : K) (M : PlotMem K) (resolution : ℕ) {d : ℕ} (N : Nrb K d) : Res (List (Xyz K)) :=
  if d < 3 then pure [] else surface eps M resolution N

/-- what `plot` hands to the backend: to `line3d`, to `surf3d` (plot.py:271-279) -/
structure Drawn (K : Type) where
  lines : List (Xyz K)
  surfs : List (Xyz K)

/-- `plot`, plot.py:271-278; `r1`, `r2` are the resolutions of curves and of surfaces -/
def plot (eps : K) (M : PlotMem K) (r1 r2 : ℕ) {d : ℕ} (N : Nrb K d) : Res (Drawn K) :=
  if d = 1 then do
    let l ← curve eps M r1 [] N
    pure ⟨l, []⟩
  else if d = 2 then do
    let s ← surface eps M r2 N
    pure ⟨[], s⟩
  else if d = 3 then do
    let s ← volume eps M r2 N
    pure ⟨[], s⟩
  else pure ⟨[], []⟩

/-! ## matplotlib -/

/-- the point of an entry (plot_mpl.py:57) -/
def Xyz.at (l : Xyz K) (idx : List ℤ) : K × K × K := (l.x.get idx, l.y.get idx, l.z.get idx)

/-- `x, y, z = x.T, y.T, z.T`, plot_mpl.py:55, 71, 107 -/
def backT (l : Xyz K) : Xyz K := ⟨transposeNd l.x, transposeNd l.y, transposeNd l.z⟩

/-- `points3d`, plot_mpl.py:55-57: the points of the scatter plot -/
def mplPoints (l : Xyz K) : List (K × K × K) :=
  let l := backT l
  (ravelC l.x).zip ((ravelC l.y).zip (ravelC l.z))

/-- `range(n)` (plot_mpl.py:83) -/
def upTo (n : ℤ) : List ℤ := (List.range n.toNat).map (fun (i : ℕ) => (i : ℤ))

/-- `ax.plot_wireframe` with strides one draws the rows and the columns of its arguments, here of the arrays with entries
`f i j`, `i < r`, `j < c` (plot_mpl.py:79) -/
def wireframe (r c : ℤ) (f : ℤ → ℤ → K × K × K) : List (List (K × K × K)) :=
  (upTo r).map (fun i => (upTo c).map (f i)) ++ (upTo c).map (fun j => (upTo r).map (fun i => f i j))

/-- `line3d`, plot_mpl.py:70-91: the polylines of one triple -/
def mplLine (l : Xyz K) : List (List (K × K × K)) :=
  let l := backT l
  match l.x.shape with
  | [n] => [(upTo n).map (fun i => Xyz.at l [i])]
  | [r, c] => wireframe r c (fun i j => Xyz.at l [i, j])
  | [nI, nJ, nK] =>
    (upTo nI).flatMap (fun i => wireframe nJ nK (fun j k => Xyz.at l [i, j, k])) ++
      (upTo nJ).flatMap (fun j => (upTo nK).map (fun k => (upTo nI).map (fun i => Xyz.at l [i, j, k])))
  | _ => []

/-- `line3d`, plot_mpl.py:70 -/
def mplLines (ls : List (Xyz K)) : List (List (K × K × K)) := ls.flatMap mplLine

/-- `surf3d`, plot_mpl.py:106-119: the polygons of one triple.  `ax.plot_surface` with strides one draws one polygon for each cell of
its arguments.  Nothing is drawn for arrays with one or with three axes. -/
def mplSurf (l : Xyz K) : List (List (K × K × K)) :=
  let l := backT l
  match l.x.shape with
  | [r, c] => (upTo (r - 1)).flatMap (fun i => (upTo (c - 1)).map (fun j =>
      [Xyz.at l [i, j], Xyz.at l [i, j + 1], Xyz.at l [i + 1, j + 1], Xyz.at l [i + 1, j]]))
  | _ => []

/-- `surf3d`, plot_mpl.py:106 -/
def mplSurfs (ls : List (Xyz K)) : List (List (K × K × K)) := ls.flatMap mplSurf

/-! ## mayavi -/

/-- `assert`s and `points`, plot_myv.py:87-93, 145-151 -/
def myvPoints (l : Xyz K) : Res (List (K × K × K)) := do
  pyAssert (l.x.shape.length = l.y.shape.length ∧ l.y.shape.length = l.z.shape.length)
  pyAssert (l.x.shape = l.y.shape)
  pyAssert (l.y.shape = l.z.shape)
  pure ((ravelC l.x).zip ((ravelC l.y).zip (ravelC l.z)))

/-- entry of `grid = np.arange(x.size).reshape(x.shape)`, plot_myv.py:96, 154 -/
def gridNum (shape idx : List ℤ) : ℤ := offsetF shape.reverse idx.reverse

/-- `np.column_stack([grid[c0], grid[c1], ...]).ravel()` where `c` is a tuple of slices, `:-1` (0) or `+1:` (1) on each axis:
for each cell the numbers of its corners `c0`, `c1`, ... (plot_myv.py:104-127) -/
def corners (shape : List ℤ) (verts : List (List ℤ)) : List ℤ :=
  let cells := shape.map (fun n => max (n - 1) 0)
  (List.range cells.prod.toNat).flatMap (fun (t : ℕ) =>
    verts.map (fun c => gridNum shape (List.zipWith (· + ·) (unravelF cells.reverse t).reverse c)))

/-- `verts` for two axes, plot_myv.py:104-108, 156-160 -/
def verts2 : List (List ℤ) := [[0, 0], [1, 0], [1, 1], [0, 1]]

/-- `verts` for three axes, plot_myv.py:114-127, 164-177 -/
def verts3 : List (List ℤ) :=
  let p0 := [0, 0, 0]
  let p1 := [1, 0, 0]
  let p2 := [1, 1, 0]
  let p3 := [0, 1, 0]
  let p4 := [0, 0, 1]
  let p5 := [1, 0, 1]
  let p6 := [1, 1, 1]
  let p7 := [0, 1, 1]
  [p0, p1, p2, p3, p4, p5, p6, p7, p0, p1, p5, p4, p2, p6, p7, p3, p0, p3, p7, p4, p1, p2, p6, p5]

/-- `a.shape = (-1, 4)`; the sizes here are multiples of four (plot_myv.py:179) -/
def rows4 {α : Type} : List α → List (α × α × α × α)
  | a :: b :: c :: d :: l => (a, b, c, d) :: rows4 l
  | _ => []

/-- `polys`, plot_myv.py:152-179 (and 103-129) -/
def polys (shape : List ℤ) : List (ℤ × ℤ × ℤ × ℤ) :=
  match shape with
  | [_, _] => rows4 (corners shape verts2)
  | [_, _, _] => rows4 (corners shape verts3)
  | _ => []

/-- `lines`, plot_myv.py:97-131 -/
def edges (shape : List ℤ) : List (ℤ × ℤ) :=
  match shape with
  | [n] => (List.range (n - 1).toNat).map (fun (t : ℕ) => ((t : ℤ), (t : ℤ) + 1))
  | _ => (polys shape).flatMap (fun q => [(q.1, q.2.1), (q.2.1, q.2.2.1), (q.2.2.1, q.2.2.2), (q.2.2.2, q.1)])

/-- `lines += offset` and `np.row_stack`, plot_myv.py:134-139, 182-187 -/
def stack {α β : Type} (shift : ℤ → α → α) : ℤ → List (List β × List α) → List β × List α
  | _, [] => ([], [])
  | offset, (p, q) :: l =>
    let r := stack shift (offset + p.length) l
    (p ++ r.1, q.map (shift offset) ++ r.2)

/-- `_extract_grid_lines`, plot_myv.py:83-139: points and pairs of numbers of points; `row_stack` of nothing is a ValueError -/
def extractLines (ls : List (Xyz K)) : Res (List (K × K × K) × List (ℤ × ℤ)) := do
  let l ← forEach (fun _ t => do
    let p ← myvPoints t
    pure (p, edges t.x.shape)) 0 ls
  if l.isEmpty then throw .value
  pure (stack (fun o e => (e.1 + o, e.2 + o)) 0 l)

/-- `_extract_grid_polys`, plot_myv.py:141-187 -/
def extractPolys (ls : List (Xyz K)) : Res (List (K × K × K) × List (ℤ × ℤ × ℤ × ℤ)) := do
  let l ← forEach (fun _ t => do
    let p ← myvPoints t
    pure (p, polys t.x.shape)) 0 ls
  if l.isEmpty then throw .value
  pure (stack (fun o q => (q.1 + o, q.2.1 + o, q.2.2.1 + o, q.2.2.2 + o)) 0 l)

end Plot
end Igakit
