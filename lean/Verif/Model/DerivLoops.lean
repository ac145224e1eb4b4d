import Verif.Model.Derivs
import Verif.Model.BoundsEval
import Verif.Model.BoundsApi

/-!
# The derivative routines at the level of their loops and storage

`TensorProd1/2/3`, `Rationalize`, `Interpolate`, `GeometryMap` (/repo/igakit/igalib.f90:661-966), `Gradient1..3`,
`Hessian1..3`, `ThirdDer1..3`, `FourthDer1..3` (1360-2162) again, with the loops, the work arrays and their storage.

The work arrays `N0..N4`, `WW`, `XX`, `FF` are declared with one index per parameter by the callers and with one index
for all local functions by `Rationalize`, `Interpolate` and `GeometryMap`; Fortran passes the storage, column by column.  So
these arrays are storage (`Flat`) here, an element is found by its offset, and every index is checked against the declared
extent and the offset against the size of the storage.  The dummy arguments `iN(ina,0:4)` of `TensorProd1/2/3` are given
tables with fewer columns; here only their first index is checked, and the offset.

Simplifications.  Indices start at 0.  The routines for 1, 2 and 3 parameters have the same text except for the number
of nested loops, the routines for derivatives of order 1 to 4 except for the number of arrays `N0..N4` (`order`); each family
is one definition, the nests are `nestC`.  In `TensorProd1/2/3` the loops are nested in different orders, which does
not matter as no round reads what another writes.  Sums and products begin with 0 and 1.  An array expression such as
`R1(i,:) = ...` is a loop (the right hand sides use an element assigned only at its own place).
-/

namespace Igakit

/-- storage of an array: elements `0..size-1` in the order of Fortran (first index fastest)
(igalib.f90:1376-1382, 1430-1437) -/
structure Flat (α : Type) where
  size : ℤ
  val : ℤ → α

namespace Flat
variable {α : Type}

/-- read the element at an offset (as in igalib.f90:1393) -/
def get (A : Flat α) (o : ℤ) : Chk α := if 0 ≤ o ∧ o < A.size then .ok (A.val o) else .error .oob

/-- write the element at an offset (as in igalib.f90:1393) -/
def set (A : Flat α) (o : ℤ) (v : α) : Chk (Flat α) :=
  if 0 ≤ o ∧ o < A.size then .ok ⟨A.size, upd A.val o v⟩ else .error .oob

end Flat

/-- offset of the element with the given indices in an array with the given extents: list of pairs (index, extent)
(column-major order of the arrays of igalib.f90:1430-1437, which are passed to the dummies of igalib.f90:897-902) -/
def cm : List (ℤ × ℤ) → Chk ℤ
  | [] => .ok 0
  | (i, n) :: l => if 0 ≤ i ∧ i < n then cm l >>= fun o => .ok (i + n * o) else .error .oob

/-- nested loops `do i = 0, hi(1); do j = 0, hi(2); ...` (igalib.f90:1453-1462) -/
def nestC {σ : Type} : (d : ℕ) → (Fin d → ℤ) → ((Fin d → ℤ) → σ → Chk σ) → σ → Chk σ
  | 0, _, f, s => f ![] s
  | d + 1, hi, f, s => forUpC 0 (hi 0) (fun i s => nestC d (fun a => hi a.succ) (fun r => f (Fin.cons i r)) s) s

/-- the same computation for every axis, in turn (igalib.f90:1439-1446) -/
def axesC {α : Type} : (d : ℕ) → (Fin d → Chk α) → Chk (Fin d → α)
  | 0, _ => .ok ![]
  | d + 1, f => f 0 >>= fun x => axesC d (fun a => f a.succ) >>= fun r => .ok (Fin.cons x r)

/-- the storage of a table `M(lo1:hi1,lo2:hi2)` (`Mx(:,:,ix)`, igalib.f90:1400) -/
def Arr2.flat {α : Type} (A : Arr2 α) : Flat α :=
  ⟨(A.hi1 - A.lo1 + 1) * (A.hi2 - A.lo2 + 1),
    fun o => A.val (A.lo1 + o % (A.hi1 - A.lo1 + 1)) (A.lo2 + o / (A.hi1 - A.lo1 + 1))⟩

variable {K : Type} [Field K] [LinearOrder K]

/-- `sum(f(0:n-1))` (igalib.f90:909, 912) -/
def sumC (n : ℤ) (f : ℤ → Chk K) : Chk K :=
  forUpC 0 (n - 1) (fun a s => f a >>= fun x => .ok (s + x)) 0

/-- the product of the factors of one entry in `TensorProd1/2/3`, igalib.f90:672-890: `iN(ia,e1) * jN(ja,e2) * kN(ka,e3)` -/
def tensorEntryC {d : ℕ} (na : Fin d → ℤ) (M : Fin d → Flat K) (e : List ℕ) (loc : Fin d → ℤ) : Chk K :=
  (List.finRange d).foldlM (fun v a => do
    let o ← cm [(loc a, na a)]
    let x ← (M a).get (o + na a * (e.getD a 0 : ℕ))
    .ok (v * x)) 1

/-- `TensorProd1/2/3`, igalib.f90:661-892: the loops of `N0`, `N1`, ... up to the last array present.  The entries of one
array are assigned in the order of the source, which is the order of storage. -/
def tensorProdC {d : ℕ} (na : Fin d → ℤ) (M : Fin d → Flat K) (order : ℕ) (N : ℕ → Flat K) : Chk (ℕ → Flat K) :=
  forUpC 0 order (fun k N => do
    let Nk ← nestC d (fun a => na a - 1) (fun loc Nk =>
      forUpC 0 ((d : ℤ) ^ k.toNat - 1) (fun c Nk => do
        let v ← tensorEntryC na M ((tpTable d k.toNat).getD c.toNat []) loc
        let o ← cm ((c, (d : ℤ) ^ k.toNat) :: List.ofFn (fun a => (loc a, na a)))
        Nk.set o v) Nk) (N k.toNat)
    .ok (Function.update N k.toNat Nk)) N

/-- the products subtracted in `Rationalize` for the derivative in directions `i, j, k, l`, igalib.f90:912, 918-919, 925-927
and 934-940, in the order of the source: directions of the factors `R` and `W` -/
def ratTerms {α : Type} : List α → List (List α × List α)
  | [i] => [([], [i])]
  | [i, j] => [([], [i, j]), ([i], [j]), ([j], [i])]
  | [i, j, k] => [([], [i, j, k]), ([i], [j, k]), ([j], [i, k]), ([k], [i, j]), ([j, k], [i]), ([i, k], [j]), ([i, j], [k])]
  | [i, j, k, l] => [([], [i, j, k, l]), ([l], [i, j, k]), ([k], [i, j, l]), ([k, l], [i, j]), ([j], [i, k, l]), ([j, l], [i, k]),
      ([j, k], [i, l]), ([j, k, l], [i]), ([i], [j, k, l]), ([i, l], [j, k]), ([i, k], [j, l]), ([i, k, l], [j]), ([i, j], [k, l]),
      ([i, j, l], [k])]
  | _ => []

/-- offset of `R(i,j,..,a)` in an array `R(dim,dim,..,nen)` (igalib.f90:899-902) -/
def ratOff (d nen : ℤ) (dirs : List ℤ) (a : ℤ) : Chk ℤ := cm (dirs.map (fun i => (i, d)) ++ [(a, nen)])

/-- the round of the loops of `Rationalize` for directions `dirs`, igalib.f90:911-912, 917-919, 924-927, 932-940; state
`(R, Wk)`: `Wk(dirs) = sum(W*R(dirs,:))`, `R(dirs,:) = W*R(dirs,:) - ...`.  `N` are the arrays `R0..R4`, `Wt` the arrays
`W1..W4`. -/
def ratRoundC (d nen : ℤ) (W : Flat K) (k : ℕ) (dirs : List ℤ) (s : (ℕ → Flat K) × (ℕ → Flat K)) :
    Chk ((ℕ → Flat K) × (ℕ → Flat K)) := do
  let w ← sumC nen (fun a => do
    let o ← ratOff d nen dirs a
    let x ← W.get a
    let y ← (s.1 k).get o
    .ok (x * y))
  let o ← cm (dirs.map (fun i => (i, d)))
  let Wk ← (s.2 k).set o w
  let Wt := Function.update s.2 k Wk
  let N ← forUpC 0 (nen - 1) (fun a (N : ℕ → Flat K) => do
    let o ← ratOff d nen dirs a
    let x ← W.get a
    let y ← (N k).get o
    let v ← (ratTerms dirs).foldlM (fun v t => do
      let o1 ← ratOff d nen t.1 a
      let r ← (N t.1.length).get o1
      let o2 ← cm (t.2.map (fun i => (i, d)))
      let w ← (Wt t.2.length).get o2
      .ok (v - r * w)) (x * y)
    let Nk ← (N k).set o v
    .ok (Function.update N k Nk)) s.1
  .ok (N, Wt)

/-- `R = R / W0` (igalib.f90:910, 915, 922, 930, 943) -/
def ratDivC (W0 : K) (R : Flat K) : Chk (Flat K) :=
  forUpC 0 (R.size - 1) (fun o (R : Flat K) => do
    let x ← R.get o
    R.set o (x / W0)) R

/-- `Rationalize`, igalib.f90:893-944; the loops over directions run with the last direction outermost -/
def rationalizeC (d : ℕ) (nen : ℤ) (W : Flat K) (order : ℕ) (Wt N : ℕ → Flat K) : Chk (ℕ → Flat K) := do
  let R0 ← forUpC 0 (nen - 1) (fun a (R : Flat K) => do
    let x ← W.get a
    let y ← R.get a
    R.set a (x * y)) (N 0)
  let W0 ← sumC nen R0.get
  let R0 ← ratDivC W0 R0
  let s ← forUpC 1 order (fun k s => do
    let s ← nestC k.toNat (fun _ => (d : ℤ) - 1) (fun q s => ratRoundC d nen W k.toNat (List.ofFn q).reverse s) s
    let Rk ← ratDivC W0 (s.1 k.toNat)
    .ok (Function.update s.1 k.toNat Rk, s.2)) (Function.update N 0 R0, Wt)
  .ok s.1

/-- `Interpolate`, igalib.f90:959-966: `V(dim,dof) = matmul(N(dim,nen), transpose(U(dof,nen)))` -/
def interpolateC (nen dim dof : ℤ) (N U V : Flat K) : Chk (Flat K) :=
  forUpC 0 (dof - 1) (fun c V => forUpC 0 (dim - 1) (fun i (V : Flat K) => do
    let v ← sumC nen (fun a => do
      let o ← cm [(i, dim), (a, nen)]
      let x ← N.get o
      let o ← cm [(c, dof), (a, nen)]
      let y ← U.get o
      .ok (x * y))
    let o ← cm [(i, dim), (c, dof)]
    V.set o v) V) V

/-- `GeometryMap`, igalib.f90:945-958: `X1 = matmul(X,transpose(N1))`, `G = matmul(transpose(inverse(X1)),G)` -/
def geometryMapC (d : ℕ) (nen dof : ℤ) (N1 X G : Flat K) : Chk (Flat K) := do
  let X1 ← axesC d (fun i => axesC d (fun j => sumC nen (fun a => do
    let o ← cm [(((i : ℕ) : ℤ), (d : ℤ)), (a, nen)]
    let x ← X.get o
    let o ← cm [(((j : ℕ) : ℤ), (d : ℤ)), (a, nen)]
    let y ← N1.get o
    .ok (x * y))))
  let E1 := inverse d X1
  let G0 := G
  forUpC 0 (dof - 1) (fun c G => (List.finRange d).foldlM (fun (G : Flat K) (i : Fin d) => do
    let v ← (List.finRange d).foldlM (fun v (j : Fin d) => do
      let o ← cm [(((j : ℕ) : ℤ), (d : ℤ)), (c, dof)]
      let y ← G0.get o
      .ok (v + E1 j i * y)) 0
    let o ← cm [(((i : ℕ) : ℤ), (d : ℤ)), (c, dof)]
    G.set o v) G) G

/-- tables of one axis, e.g. igalib.f90:1384-1387: `spanx(0:rx)` and `Mx(0:px,0:order,0:rx)`, the latter as an array of tables -/
def dersTablesC (J : Junk K) (n p : ℤ) (U : Arr K) (order : ℕ) (r : ℤ) (X : Arr K) : Chk (Arr ℤ × Arr (Arr2 K)) :=
  forUpC 0 r (fun ix (t : Arr ℤ × Arr (Arr2 K)) => do
    let x ← X.get ix
    let k ← findSpanC n p x U
    let span ← t.1.set ix k
    let k ← span.get ix
    let x ← X.get ix
    let M ← t.2.get ix
    let M ← dersBasisFunsC J.k1 J.ndu J.a k x p order U M
    let M ← t.2.set ix M
    .ok (span, M)) (⟨0, r, fun _ => 0⟩, ⟨0, r, fun _ => ⟨0, p, 0, order, J.ders⟩⟩)

/-- an array with one index `0..hi(a)` for each parameter (the indices of Python) (`G`, igalib.f90:1425) -/
structure Grid (d : ℕ) (α : Type) where
  hi : Fin d → ℤ
  val : (Fin d → ℤ) → α

namespace Grid
variable {d : ℕ} {α : Type}

/-- read an element (as in igalib.f90:1455-1459) -/
def get (A : Grid d α) (g : Fin d → ℤ) : Chk α := if ∀ a, 0 ≤ g a ∧ g a ≤ A.hi a then .ok (A.val g) else .error .oob

/-- write an element (igalib.f90:1405, 1469) -/
def set (A : Grid d α) (g : Fin d → ℤ) (v : α) : Chk (Grid d α) :=
  if ∀ a, 0 ≤ g a ∧ g a ≤ A.hi a then .ok ⟨A.hi, Function.update A.val g v⟩ else .error .oob

end Grid

/-- work arrays of `GradientN` etc.: `FF`, `WW`, `XX`, `N0..N4` and the arrays `W1..W4` of `Rationalize`
(igalib.f90:1376-1382, 904-905) -/
structure DerivWork (K : Type) where
  FF : Flat K
  WW : Flat K
  XX : Flat K
  N : ℕ → Flat K
  Wt : ℕ → Flat K
  GG : Flat K

/-- the loops which collect the local control points, e.g. igalib.f90:1453-1462 -/
def gatherC {d : ℕ} (map : Bool) (dof : ℤ) (na o : Fin d → ℤ) (Pw F : Grid d (ℕ → K)) (s : DerivWork K) : Chk (DerivWork K) :=
  nestC d (fun a => na a - 1) (fun loc (s : DerivWork K) => do
    let f ← F.get (fun a => o a + loc a)
    let FF ← forUpC 0 (dof - 1) (fun c (FF : Flat K) => do
      let q ← cm ((c, dof) :: List.ofFn (fun a => (loc a, na a)))
      FF.set q (f c.toNat)) s.FF
    let P ← Pw.get (fun a => o a + loc a)
    let q ← cm (List.ofFn (fun a => (loc a, na a)))
    let WW ← s.WW.set q (P 3)
    let XX ← (if map then
      forUpC 0 ((d : ℤ) - 1) (fun i (XX : Flat K) => do
        let w ← WW.get q
        let q ← cm ((i, (d : ℤ)) :: List.ofFn (fun a => (loc a, na a)))
        XX.set q (P i.toNat / w)) s.XX
      else .ok s.XX)
    .ok { s with FF := FF, WW := WW, XX := XX }) s

/-- the body of the loops over the grid, e.g. igalib.f90:1448-1471, for the point with spans `k` and tables `M` -/
def derivPointC {d : ℕ} (map : Bool) (order : ℕ) (dof : ℤ) (p k : Fin d → ℤ) (M : Fin d → Arr2 K) (Pw F : Grid d (ℕ → K))
    (s : DerivWork K) : Chk (DerivWork K) := do
  let na := fun a => p a + 1
  let nen := ∏ a, na a
  let s ← gatherC map dof na (fun a => k a - p a) Pw F s
  let N ← tensorProdC na (fun a => (M a).flat) order s.N
  let N ← rationalizeC d nen s.WW order s.Wt N
  let GG ← interpolateC nen ((d : ℤ) ^ order) dof (N order) s.FF s.GG
  let GG ← (if map then geometryMapC d nen dof (N 1) s.XX GG else .ok GG)
  .ok { s with N := N, GG := GG }

/-- `GradientN`, `HessianN`, `ThirdDerN`, `FourthDerN` (`order` 1 to 4), igalib.f90:1360-2162; the result at a grid point is the
storage of `GG(dim,..,dim,d)`.  `map` only with `order = 1`. -/
def derivLoopsC {d : ℕ} (J : Junk K) (map : Bool) (order : ℕ) (dof : ℤ) (n p : Fin d → ℤ) (U : Fin d → Arr K)
    (Pw F : Grid d (ℕ → K)) (r : Fin d → ℤ) (X : Fin d → Arr K) (s : DerivWork K) (G : Grid d (Flat K)) :
    Chk (Grid d (Flat K)) := do
  let t ← axesC d (fun a => dersTablesC J (n a) (p a) (U a) order (r a) (X a))
  let u ← nestC d r (fun g (u : DerivWork K × Grid d (Flat K)) => do
    let k ← axesC d (fun a => (t a).1.get (g a))
    let M ← axesC d (fun a => (t a).2.get (g a))
    let s ← derivPointC map order dof p k M Pw F u.1
    let G ← u.2.set g s.GG
    .ok (s, G)) (s, G)
  .ok u.2

/-- sizes of the work arrays, e.g. igalib.f90:1430-1437 -/
structure DerivWork.Sized (s : DerivWork K) (d : ℕ) (order : ℕ) (dof nen : ℤ) : Prop where
  FF : s.FF.size = dof * nen
  WW : s.WW.size = nen
  XX : s.XX.size = d * nen
  N : ∀ k, k ≤ order → (s.N k).size = (d : ℤ) ^ k * nen
  Wt : ∀ k, 1 ≤ k → k ≤ order → (s.Wt k).size = (d : ℤ) ^ k
  GG : s.GG.size = (d : ℤ) ^ order * dof

/-- the work arrays as they are declared, e.g. igalib.f90:1376-1382 and 705-720; `c` is what the memory holds before -/
def DerivWork.alloc (d : ℕ) (order : ℕ) (dof nen : ℤ) (c : DerivWork K) : DerivWork K where
  FF := ⟨dof * nen, c.FF.val⟩
  WW := ⟨nen, c.WW.val⟩
  XX := ⟨d * nen, c.XX.val⟩
  N := fun k => if k ≤ order then ⟨(d : ℤ) ^ k * nen, (c.N k).val⟩ else ⟨0, (c.N k).val⟩
  Wt := fun k => if 1 ≤ k ∧ k ≤ order then ⟨(d : ℤ) ^ k, (c.Wt k).val⟩ else ⟨0, (c.Wt k).val⟩
  GG := ⟨(d : ℤ) ^ order * dof, c.GG.val⟩

/-- common body of `gradient`, `hessian`, `derivative` (nurbs.py:1526-1578, 1593-1646, 1662-1717) with the checks of
igalib.pyf:233-454, as `Nrb.derivCore`, calling the loops.  `c`, `G` are the contents of work arrays and of the output before. -/
def Nrb.derivCoreC {d : ℕ} (J : Junk K) (c : DerivWork K) (G : (Fin d → ℤ) → Flat K) (N : Nrb K d) (order : ℕ)
    (fields : Option (Nd K)) (mapped : Bool) (r : Fin d → ℤ) (X : Fin d → ℤ → K) : Run (Grid d (Flat K)) := do
  py (Nrb.callArg N r X)
  let F ← py (Nrb.fieldArg N fields)
  if d = 0 ∨ 4 ≤ d then throw (.exc .value)
  if ¬ (1 ≤ F.1 ∧ ∀ a, 1 ≤ N.n a ∧ 1 ≤ N.degree a) then throw (.exc .f2py)
  if mapped = true ∧ 2 ≤ order then throw (.exc .stop)
  ft (derivLoopsC J mapped order F.1 N.n N.degree N.UA ⟨N.n, N.P⟩ ⟨N.n, F.2⟩ r (fun a => ⟨0, r a, X a⟩)
    (DerivWork.alloc d order F.1 (∏ a, (N.degree a + 1)) c) ⟨r, G⟩)

/-- `NURBS.derivative`, nurbs.py:1648-1717, as `Nrb.derivative` -/
def Nrb.derivativeC {d : ℕ} (J : Junk K) (c : DerivWork K) (G : (Fin d → ℤ) → Flat K) (N : Nrb K d) (order : ℤ)
    (fields : Option (Nd K)) (mapped : Bool) (r : Fin d → ℤ) (X : Fin d → ℤ → K) : Run (Grid d (Flat K)) := do
  py (Nrb.callArg N r X)
  let _ ← py (Nrb.fieldArg N fields)
  py (pyAssert (order ≥ 1 ∧ order ≤ 4))
  Nrb.derivCoreC J c G N order.toNat fields mapped r X

end Igakit
