import Verif.Model.Ders
import Verif.Model.Ctor
import Mathlib.Algebra.BigOperators.Group.Finset.Basic
import Mathlib.Data.Fintype.BigOperators

/-!
# Model of the derivative kernels

`TensorProd1/2/3`, `Rationalize`, `GeometryMap`, `Interpolate`, `Determinant`, `Inverse`
(/repo/igakit/igalib.f90:661-1015), the routines `Gradient1..3`, `Hessian1..3`, `ThirdDer1..3`,
`FourthDer1..3` (1360-2162) and the methods `gradient`, `hessian`, `derivative`
(/repo/igakit/nurbs.py:1512-1717).

Simplifications.  The routines for 1, 2 and 3 parameters differ only in the number of index loops, so
they are one definition over `Fin d`; the tables of `TensorProd1/2/3` are transcribed one by one.  Every
grid point is handled by an independent iteration, so the result is given as a function of the grid
point.  Sums over the local functions are finite sums.  The derivative index of the result is the list
of directions `(i, j, k, l)` of the Fortran array (Python stores it in reversed order).  Passing
`Mx(:,:,ix)` with fewer than five columns to a dummy argument `iN(ina,0:4)` is harmless, the extra columns
are not read.  Parameters left `None` (Greville abscissae) and squeezing of scalars are not modelled.
-/

namespace Igakit

/-- exponents of `N0` in `TensorProd1`, igalib.f90:672-672, in source order -/
def tp1N0 : List (List ℕ) :=
  [[0]]

/-- exponents of `N1` in `TensorProd1`, igalib.f90:675-675, in source order -/
def tp1N1 : List (List ℕ) :=
  [[1]]

/-- exponents of `N2` in `TensorProd1`, igalib.f90:679-679, in source order -/
def tp1N2 : List (List ℕ) :=
  [[2]]

/-- exponents of `N3` in `TensorProd1`, igalib.f90:683-683, in source order -/
def tp1N3 : List (List ℕ) :=
  [[3]]

/-- exponents of `N4` in `TensorProd1`, igalib.f90:687-687, in source order -/
def tp1N4 : List (List ℕ) :=
  [[3]]

/-- exponents of `N0` in `TensorProd2`, igalib.f90:702-702, in source order -/
def tp2N0 : List (List ℕ) :=
  [[0, 0]]

/-- exponents of `N1` in `TensorProd2`, igalib.f90:705-706, in source order -/
def tp2N1 : List (List ℕ) :=
  [[1, 0], [0, 1]]

/-- exponents of `N2` in `TensorProd2`, igalib.f90:710-713, in source order -/
def tp2N2 : List (List ℕ) :=
  [[2, 0], [1, 1], [1, 1], [0, 2]]

/-- exponents of `N3` in `TensorProd2`, igalib.f90:717-724, in source order -/
def tp2N3 : List (List ℕ) :=
  [[3, 0], [2, 1], [2, 1], [1, 2], [2, 1], [1, 2], [1, 2], [0, 3]]

/-- exponents of `N4` in `TensorProd2`, igalib.f90:728-743, in source order -/
def tp2N4 : List (List ℕ) :=
  [[4, 0], [3, 1], [3, 1], [2, 2], [3, 1], [2, 2], [2, 2], [1, 3], [3, 1], [2, 2], [2, 2],
   [1, 3], [2, 2], [1, 3], [1, 3], [0, 4]]

/-- exponents of `N0` in `TensorProd3`, igalib.f90:759-759, in source order -/
def tp3N0 : List (List ℕ) :=
  [[0, 0, 0]]

/-- exponents of `N1` in `TensorProd3`, igalib.f90:762-764, in source order -/
def tp3N1 : List (List ℕ) :=
  [[1, 0, 0], [0, 1, 0], [0, 0, 1]]

/-- exponents of `N2` in `TensorProd3`, igalib.f90:768-776, in source order -/
def tp3N2 : List (List ℕ) :=
  [[2, 0, 0], [1, 1, 0], [1, 0, 1], [1, 1, 0], [0, 2, 0], [0, 1, 1], [1, 0, 1], [0, 1, 1],
   [0, 0, 2]]

/-- exponents of `N3` in `TensorProd3`, igalib.f90:780-806, in source order -/
def tp3N3 : List (List ℕ) :=
  [[3, 0, 0], [2, 1, 0], [2, 0, 1], [2, 1, 0], [1, 2, 0], [1, 1, 1], [2, 0, 1], [1, 1, 1],
   [1, 0, 2], [2, 1, 0], [1, 2, 0], [1, 1, 1], [1, 2, 0], [0, 3, 0], [0, 2, 1], [1, 1, 1],
   [0, 2, 1], [0, 1, 2], [2, 0, 1], [1, 1, 1], [1, 0, 2], [1, 1, 1], [0, 2, 1], [0, 1, 2],
   [1, 0, 2], [0, 1, 2], [0, 0, 3]]

/-- exponents of `N4` in `TensorProd3`, igalib.f90:810-890, in source order -/
def tp3N4 : List (List ℕ) :=
  [[4, 0, 0], [3, 1, 0], [3, 0, 1], [3, 1, 0], [2, 2, 0], [2, 1, 1], [3, 0, 1], [2, 1, 1],
   [2, 0, 2], [3, 1, 0], [2, 2, 0], [2, 1, 1], [2, 2, 0], [1, 3, 0], [1, 2, 1], [2, 1, 1],
   [1, 2, 1], [1, 1, 2], [3, 0, 1], [2, 1, 1], [2, 0, 2], [2, 1, 1], [1, 2, 1], [1, 1, 2],
   [2, 0, 2], [1, 1, 2], [1, 0, 3], [3, 1, 0], [2, 2, 0], [2, 1, 1], [2, 2, 0], [1, 3, 0],
   [1, 2, 1], [2, 1, 1], [1, 2, 1], [1, 1, 2], [2, 2, 0], [1, 3, 0], [1, 2, 1], [1, 3, 0],
   [0, 4, 0], [0, 3, 1], [1, 2, 1], [0, 3, 1], [0, 2, 2], [2, 1, 1], [1, 2, 1], [1, 1, 2],
   [1, 2, 1], [0, 3, 1], [0, 2, 2], [1, 1, 2], [0, 2, 2], [0, 1, 3], [3, 0, 1], [2, 1, 1],
   [2, 0, 2], [2, 1, 1], [1, 2, 1], [1, 1, 2], [2, 0, 2], [1, 1, 2], [1, 0, 3], [2, 1, 1],
   [1, 2, 1], [1, 1, 2], [1, 2, 1], [0, 3, 1], [0, 2, 2], [1, 1, 2], [0, 2, 2], [0, 1, 3],
   [2, 0, 2], [1, 1, 2], [1, 0, 3], [1, 1, 2], [0, 2, 2], [0, 1, 3], [1, 0, 3], [0, 1, 3],
   [0, 0, 4]]

/-- all tables of `TensorProd1/2/3` (igalib.f90:662-891) -/
def tpTable : ℕ → ℕ → List (List ℕ)
  | 1, 0 => tp1N0 | 1, 1 => tp1N1 | 1, 2 => tp1N2 | 1, 3 => tp1N3 | 1, 4 => tp1N4
  | 2, 0 => tp2N0 | 2, 1 => tp2N1 | 2, 2 => tp2N2 | 2, 3 => tp2N3 | 2, 4 => tp2N4
  | 3, 0 => tp3N0 | 3, 1 => tp3N1 | 3, 2 => tp3N2 | 3, 3 => tp3N3 | 3, 4 => tp3N4
  | _, _ => []

/-- position of the entry `(i, j, k, l)` in the table (column-major, as in the source) (igalib.f90:710-713) -/
def tpCode {d : ℕ} : List (Fin d) → ℕ
  | [] => 0
  | i :: l => i + d * tpCode l

/-- order of derivation of the factor of axis `a` in the entry for directions `dirs`
(the second index of `iN`, `jN`, `kN` in igalib.f90:672-890) -/
def tpExp {d : ℕ} (dirs : List (Fin d)) (a : Fin d) : ℕ :=
  ((tpTable d dirs.length).getD (tpCode dirs) []).getD a 0

section
variable {K : Type} [Field K] {ι : Type} {d : ℕ}

/-- `sum(W*N)`: `W0 = sum(R0)`, `W1(i)`, `W2(i,j)`, ... in `Rationalize`, igalib.f90:909-933 -/
def ratW (L : Finset ι) (W : ι → K) (N : List (Fin d) → ι → K) (dirs : List (Fin d)) : K :=
  ∑ a ∈ L, W a * N dirs a

/-- `R0`, igalib.f90:906-910 -/
def rat0 (L : Finset ι) (W : ι → K) (N : List (Fin d) → ι → K) (a : ι) : K :=
  W a * N [] a / ratW L W N []

/-- `R1`, igalib.f90:911-915 -/
def rat1 (L : Finset ι) (W : ι → K) (N : List (Fin d) → ι → K) (i : Fin d) (a : ι) : K :=
  (W a * N [i] a - rat0 L W N a * ratW L W N [i]) / ratW L W N []

/-- `R2`, igalib.f90:916-922 -/
def rat2 (L : Finset ι) (W : ι → K) (N : List (Fin d) → ι → K) (i j : Fin d) (a : ι) : K :=
  (W a * N [i, j] a - rat0 L W N a * ratW L W N [i, j]
    - rat1 L W N i a * ratW L W N [j] - rat1 L W N j a * ratW L W N [i]) / ratW L W N []

/-- `R3`, igalib.f90:923-930 -/
def rat3 (L : Finset ι) (W : ι → K) (N : List (Fin d) → ι → K) (i j k : Fin d) (a : ι) : K :=
  (W a * N [i, j, k] a - rat0 L W N a * ratW L W N [i, j, k]
    - rat1 L W N i a * ratW L W N [j, k] - rat1 L W N j a * ratW L W N [i, k]
    - rat1 L W N k a * ratW L W N [i, j]
    - rat2 L W N j k a * ratW L W N [i] - rat2 L W N i k a * ratW L W N [j]
    - rat2 L W N i j a * ratW L W N [k]) / ratW L W N []

/-- `R4`, igalib.f90:931-943 -/
def rat4 (L : Finset ι) (W : ι → K) (N : List (Fin d) → ι → K) (i j k l : Fin d) (a : ι) : K :=
  (W a * N [i, j, k, l] a
    - rat0 L W N a * ratW L W N [i, j, k, l] - rat1 L W N l a * ratW L W N [i, j, k]
    - rat1 L W N k a * ratW L W N [i, j, l] - rat2 L W N k l a * ratW L W N [i, j]
    - rat1 L W N j a * ratW L W N [i, k, l] - rat2 L W N j l a * ratW L W N [i, k]
    - rat2 L W N j k a * ratW L W N [i, l] - rat3 L W N j k l a * ratW L W N [i]
    - rat1 L W N i a * ratW L W N [j, k, l] - rat2 L W N i l a * ratW L W N [j, k]
    - rat2 L W N i k a * ratW L W N [j, l] - rat3 L W N i k l a * ratW L W N [j]
    - rat2 L W N i j a * ratW L W N [k, l] - rat3 L W N i j l a * ratW L W N [k]) / ratW L W N []

/-- `Rationalize`, igalib.f90:893-944 -/
def rationalize (L : Finset ι) (W : ι → K) (N : List (Fin d) → ι → K) : List (Fin d) → ι → K
  | [] => rat0 L W N
  | [i] => rat1 L W N i
  | [i, j] => rat2 L W N i j
  | [i, j, k] => rat3 L W N i j k
  | [i, j, k, l] => rat4 L W N i j k l
  | _ => fun _ => 0

/-- `Interpolate`, igalib.f90:959-966: `matmul(N, transpose(U))` -/
def interpolate (L : Finset ι) (R : ι → K) (F : ι → ℕ → K) (c : ℕ) : K := ∑ a ∈ L, R a * F a c

/-- `Determinant`, igalib.f90:967-984 -/
def determinant : (d : ℕ) → (Fin d → Fin d → K) → K
  | 1, A => A 0 0
  | 2, A => A 0 0 * A 1 1 - A 1 0 * A 0 1
  | 3, A => A 0 0 * (A 1 1 * A 2 2 - A 2 1 * A 1 2)
      - A 1 0 * (A 0 1 * A 2 2 - A 2 1 * A 0 2)
      + A 2 0 * (A 0 1 * A 1 2 - A 1 1 * A 0 2)
  | _, _ => 0

/-- entries of the adjugate computed in `Inverse` before the division, igalib.f90:1001-1010 -/
def adjugate3 (A : Fin 3 → Fin 3 → K) : Fin 3 → Fin 3 → K :=
  ![![A 1 1 * A 2 2 - A 1 2 * A 2 1, -A 0 1 * A 2 2 + A 0 2 * A 2 1, A 0 1 * A 1 2 - A 0 2 * A 1 1],
    ![-A 1 0 * A 2 2 + A 1 2 * A 2 0, A 0 0 * A 2 2 - A 0 2 * A 2 0, -A 0 0 * A 1 2 + A 0 2 * A 1 0],
    ![A 1 0 * A 2 1 - A 1 1 * A 2 0, -A 0 0 * A 2 1 + A 0 1 * A 2 0, A 0 0 * A 1 1 - A 0 1 * A 1 0]]

/-- `Inverse`, igalib.f90:985-1015 -/
def inverse : (d : ℕ) → (Fin d → Fin d → K) → Fin d → Fin d → K
  | 1, A => fun _ _ => 1 / determinant 1 A
  | 2, A => fun i j => (![![A 1 1, -A 0 1], ![-A 1 0, A 0 0]] : Fin 2 → Fin 2 → K) i j / determinant 2 A
  | 3, A => fun i j => adjugate3 A i j / determinant 3 A
  | _, _ => fun _ _ => 0

/-- `GeometryMap`, igalib.f90:945-958 -/
def geometryMap (L : Finset ι) (N1 : Fin d → ι → K) (X : ι → Fin d → K) (G : Fin d → ℕ → K) :
    Fin d → ℕ → K :=
  let X1 : Fin d → Fin d → K := fun i j => ∑ a ∈ L, X a i * N1 j a
  let E1 := inverse d X1
  fun i c => ∑ j, E1 j i * G j c

end

variable {K : Type} [Field K] [LinearOrder K] {d : ℕ}

/-- arbitrary contents of the uninitialised work arrays of `DersBasisFuns` (igalib.f90:82-83) -/
structure Junk (K : Type) where
  k1 : ℤ → K
  ndu : ℤ → ℤ → K
  a : ℤ → ℤ → K
  ders : ℤ → ℤ → K

namespace Nrb

/-- `spanx(ix)`, `spany(iy)`, `spanz(iz)` (igalib.f90:1385, 1440, 1444) -/
def spanAt (N : Nrb K d) (x : Fin d → K) (a : Fin d) : ℤ := findSpan (N.n a) (N.degree a) (x a) (N.U a)

/-- index of the control point of local function `loc`: `(ox+jx, oy+jy, oz+jz)` (igalib.f90:1393, 1455) -/
def ctl (N : Nrb K d) (x : Fin d → K) (loc : Fin d → ℤ) : Fin d → ℤ :=
  fun a => N.spanAt x a - N.degree a + loc a

/-- local functions `0..px`, `0..py`, `0..pz` (igalib.f90:1392, 1453-1454) -/
def locs (N : Nrb K d) : Finset (Fin d → ℤ) := Fintype.piFinset (fun a => Finset.Icc 0 (N.degree a))

/-- `N0, N1, ...`: `DersBasisFuns` on every axis followed by `TensorProdN`, e.g.
igalib.f90:1400, 1464 and 1542 -/
def tensorN (J : Junk K) (N : Nrb K d) (order : ℕ) (x : Fin d → K) (dirs : List (Fin d))
    (loc : Fin d → ℤ) : K :=
  ∏ a, dersBasisFuns J.k1 J.ndu J.a J.ders (N.spanAt x a) (x a) (N.degree a) order (N.U a)
    (loc a) (tpExp dirs a)

/-- body of the loop over the grid in `GradientN`, `HessianN`, `ThirdDerN`, `FourthDerN`, without the
geometric map, e.g. igalib.f90:1384-1402 -/
def derivAt (J : Junk K) (N : Nrb K d) (order : ℕ) (F : (Fin d → ℤ) → ℕ → K) (x : Fin d → K)
    (dirs : List (Fin d)) (c : ℕ) : K :=
  let WW := fun loc => N.P (N.ctl x loc) 3
  interpolate N.locs (rationalize N.locs WW (tensorN J N order x) dirs) (fun loc => F (N.ctl x loc)) c

/-- gradient followed by `GeometryMap`, e.g. igalib.f90:1384-1403 with `map/=0` -/
def mappedAt (J : Junk K) (N : Nrb K d) (F : (Fin d → ℤ) → ℕ → K) (x : Fin d → K) (i : Fin d) (c : ℕ) : K :=
  let WW := fun loc => N.P (N.ctl x loc) 3
  let XX := fun loc (i : Fin d) => N.P (N.ctl x loc) i / WW loc
  geometryMap N.locs (fun j => rationalize N.locs WW (tensorN J N 1 x) [j]) XX
    (fun j => derivAt J N 1 F x [j]) i c

/-- argument `fields`, nurbs.py:1542-1554: number of components and values at the control points -/
def fieldArg (N : Nrb K d) (fields : Option (Nd K)) : Res (ℤ × ((Fin d → ℤ) → ℕ → K)) :=
  match fields with
  | some F =>
    if F.shape = List.ofFn N.shape then pure (1, fun idx _ => F.get (List.ofFn idx))
    else do
      pyAssert ((F.shape.length : ℤ) - 1 = d)
      pyAssert (F.shape.dropLast = List.ofFn N.shape)
      pure (F.shape.getLastD 0, fun idx c => F.get (List.ofFn idx ++ [(c : ℤ)]))
  | none =>
    match N.fields with
    | some (nf, F) => pure (nf, F)
    | none => pure (3, fun idx c => N.P idx c / N.weights idx)

/-- common body of `gradient`, `hessian`, `derivative` (nurbs.py:1526-1578, 1594-1646, 1663-1717) with the
checks of igalib.pyf:233-460; result: grid point, directions, component -/
def derivCore (J : Junk K) (N : Nrb K d) (order : ℕ) (fields : Option (Nd K)) (mapped : Bool)
    (r : Fin d → ℤ) (X : Fin d → ℤ → K) : Res ((Fin d → ℤ) → List (Fin d) → ℕ → K) := do
  callArg N r X
  let F ← fieldArg N fields
  if d = 0 ∨ 4 ≤ d then throw .value
  if ¬ (1 ≤ F.1 ∧ ∀ a, 1 ≤ N.n a ∧ 1 ≤ N.degree a) then throw .f2py
  if mapped = true ∧ 2 ≤ order then throw .stop
  pure (fun g dirs c =>
    let x := fun a => X a (g a)
    if mapped then
      match dirs with
      | [i] => mappedAt J N F.2 x i c
      | _ => 0
    else derivAt J N order F.2 x dirs c)

/-- `NURBS.gradient`, nurbs.py:1512-1578 -/
def gradient (J : Junk K) (N : Nrb K d) (fields : Option (Nd K)) (mapped : Bool)
    (r : Fin d → ℤ) (X : Fin d → ℤ → K) := derivCore J N 1 fields mapped r X

/-- `NURBS.hessian`, nurbs.py:1580-1646 -/
def hessian (J : Junk K) (N : Nrb K d) (fields : Option (Nd K)) (mapped : Bool)
    (r : Fin d → ℤ) (X : Fin d → ℤ → K) := derivCore J N 2 fields mapped r X

/-- `NURBS.derivative`, nurbs.py:1648-1717 (the check of `order` comes after the other checks, all
raise AssertionError) -/
def derivative (J : Junk K) (N : Nrb K d) (order : ℤ) (fields : Option (Nd K)) (mapped : Bool)
    (r : Fin d → ℤ) (X : Fin d → ℤ → K) : Res ((Fin d → ℤ) → List (Fin d) → ℕ → K) := do
  callArg N r X
  let _ ← fieldArg N fields
  pyAssert (order ≥ 1 ∧ order ≤ 4)
  derivCore J N order.toNat fields mapped r X

end Nrb
end Igakit
