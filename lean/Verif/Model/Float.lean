import Verif.Model.Nurbs

/-!
# The same code in floating point arithmetic

`BasisFuns`, `Evaluate1/2/3` and `NURBS.__call__` again, with every arithmetic operation followed by a rounding.  The models in
`Verif.Model.BSpline` and `Verif.Model.BSp` are the case in which the rounding does nothing.

Simplifications: there is no overflow (`rd` is a function from numbers to numbers); infinities and NaN, which arise from a
division by zero, are one value `none`; every operation is rounded by itself (no fused operations, no extended precision).
Comparisons are exact, so that `FindSpan` is the same function as before.
-/

namespace Igakit

variable {K : Type} [Field K] [LinearOrder K]

/-- a floating point number; `none` is an infinity or NaN (`real(kind=8)`, igalib.f90:57-60) -/
abbrev Fp (K : Type) := Option K

namespace Fp

variable (rd : K → K)

/-- an operation and its rounding (as in igalib.f90:63-69) -/
def op (f : K → K → K) : Fp K → Fp K → Fp K
  | some x, some y => some (rd (f x y))
  | _, _ => none

/-- rounded sum, as in igalib.f90:67 -/
def add : Fp K → Fp K → Fp K := op rd (· + ·)
/-- rounded difference, as in igalib.f90:63 -/
def sub : Fp K → Fp K → Fp K := op rd (· - ·)
/-- rounded product, as in igalib.f90:68 -/
def mul : Fp K → Fp K → Fp K := op rd (· * ·)

/-- division; division by zero is `none` (as in igalib.f90:67) -/
def div : Fp K → Fp K → Fp K
  | some x, some y => if y = 0 then none else some (rd (x / y))
  | _, _ => none

/-! ## BasisFuns -/

/-- local state of `BasisFuns` (`N, left, right, saved`, igalib.f90:58-60) -/
structure BasisSt (K : Type) where
  N : ℤ → Fp K
  left : ℤ → Fp K
  right : ℤ → Fp K

/-- inner loop of `BasisFuns` (`do r = 0, j-1`), igalib.f90:66-70; state `(N, saved)` -/
def basisInner (left right : ℤ → Fp K) (j : ℤ) (N : ℤ → Fp K) : (ℤ → Fp K) × Fp K :=
  forUp 0 (j - 1) (fun r (s : (ℤ → Fp K) × Fp K) =>
    let temp := div rd (s.1 r) (add rd (right (r + 1)) (left (j - r)))
    (upd s.1 r (add rd s.2 (mul rd (right (r + 1)) temp)), mul rd (left (j - r)) temp)) (N, some 0)

/-- body of the outer loop of `BasisFuns`, igalib.f90:62-72 -/
def basisOuter (i : ℤ) (uu : K) (U : ℤ → K) (j : ℤ) (s : BasisSt K) : BasisSt K :=
  let left := upd s.left j (sub rd (some uu) (some (U (i + 1 - j))))
  let right := upd s.right j (sub rd (some (U (i + j))) (some uu))
  let ns := basisInner rd left right j s.N
  { N := upd ns.1 j ns.2, left := left, right := right }

/-- `BasisFuns`, igalib.f90:54-72; the initial contents `jk` may be anything, NaN included -/
def basisFuns (jk : ℤ → Fp K) (i : ℤ) (uu : K) (p : ℤ) (U : ℤ → K) : ℤ → Fp K :=
  (forUp 1 p (basisOuter rd i uu U) { N := upd jk 0 (some 1), left := jk, right := jk }).N

/-- `BSp.EvalBasisFuns`, igalib.f90:1055-1068 -/
def EvalBasisFuns (jk : ℤ → Fp K) (p m : ℤ) (U : ℤ → K) (uu : K) (span : ℤ := -1) : Res (ℤ → Fp K) :=
  if p ≥ 1 ∧ m ≥ 2 * p + 1 then
    .ok (basisFuns rd jk (if span ≥ 0 then span else findSpan (m - (p + 1)) p uu U) uu p U)
  else .error .f2py

/-! ## Evaluate1/2/3 -/

/-- `C = C + M * Pw(:,...)`, igalib.f90:1252, 1295, 1347 -/
def accum (M : Fp K) (P : ℕ → K) (C : ℕ → Fp K) : ℕ → Fp K :=
  fun c => add rd (C c) (mul rd M (some (P c)))

/-- `BSp.Evaluate1`, igalib.f90:1233-1258 -/
def evaluate1 (jk : ℤ → Fp K) (je : ℤ → ℕ → Fp K) (n p : ℤ) (U : ℤ → K) (Pw : ℤ → ℕ → K) (r : ℤ) (X : ℤ → K) :
    ℤ → ℕ → Fp K :=
  forUp 0 r (fun i Cw =>
    let span := findSpan n p (X i) U
    let basis := basisFuns rd jk span (X i) p U
    let C := forUp 0 p (fun j C => accum rd (basis j) (Pw (span - p + j)) C) (fun _ => some 0)
    upd Cw i C) je

/-- the tables of `Evaluate2/3`, igalib.f90:1277-1284 -/
def axisTables (jk : ℤ → Fp K) (n p : ℤ) (U : ℤ → K) (r : ℤ) (X : ℤ → K) : (ℤ → ℤ) × (ℤ → ℤ → Fp K) :=
  forUp 0 r (fun ix (t : (ℤ → ℤ) × (ℤ → ℤ → Fp K)) =>
    let span := upd t.1 ix (findSpan n p (X ix) U)
    (span, upd t.2 ix (basisFuns rd jk (span ix) (X ix) p U))) (fun _ => 0, fun _ => jk)

/-- `BSp.Evaluate2`, igalib.f90:1260-1303 -/
def evaluate2 (jk : ℤ → Fp K) (je : ℤ → ℤ → ℕ → Fp K) (nx px : ℤ) (Ux : ℤ → K) (ny py : ℤ) (Uy : ℤ → K)
    (Pw : ℤ → ℤ → ℕ → K) (rx : ℤ) (X : ℤ → K) (ry : ℤ) (Y : ℤ → K) : ℤ → ℤ → ℕ → Fp K :=
  let tx := axisTables rd jk nx px Ux rx X
  let ty := axisTables rd jk ny py Uy ry Y
  forUp 0 rx (fun ix Cw =>
    let ox := tx.1 ix - px
    forUp 0 ry (fun iy Cw =>
      let oy := ty.1 iy - py
      let C := forUp 0 px (fun jx C =>
        forUp 0 py (fun jy C =>
          let M := mul rd (tx.2 ix jx) (ty.2 iy jy)
          accum rd M (Pw (ox + jx) (oy + jy)) C) C) (fun _ => some 0)
      BSp.upd2 Cw ix iy C) Cw) je

/-- `BSp.Evaluate3`, igalib.f90:1305-1358 -/
def evaluate3 (jk : ℤ → Fp K) (je : ℤ → ℤ → ℤ → ℕ → Fp K) (nx px : ℤ) (Ux : ℤ → K) (ny py : ℤ) (Uy : ℤ → K)
    (nz pz : ℤ) (Uz : ℤ → K) (Pw : ℤ → ℤ → ℤ → ℕ → K) (rx : ℤ) (X : ℤ → K) (ry : ℤ) (Y : ℤ → K)
    (rz : ℤ) (Z : ℤ → K) : ℤ → ℤ → ℤ → ℕ → Fp K :=
  let tx := axisTables rd jk nx px Ux rx X
  let ty := axisTables rd jk ny py Uy ry Y
  let tz := axisTables rd jk nz pz Uz rz Z
  forUp 0 rx (fun ix Cw =>
    let ox := tx.1 ix - px
    forUp 0 ry (fun iy Cw =>
      let oy := ty.1 iy - py
      forUp 0 rz (fun iz Cw =>
        let oz := tz.1 iz - pz
        let C := forUp 0 px (fun jx C =>
          forUp 0 py (fun jy C =>
            forUp 0 pz (fun jz C =>
              let M := mul rd (mul rd (tx.2 ix jx) (ty.2 iy jy)) (tz.2 iz jz)
              accum rd M (Pw (ox + jx) (oy + jy) (oz + jz)) C) C) C) (fun _ => some 0)
        BSp.upd3 Cw ix iy iz C) Cw) Cw) je

/-! ## InsertKnot -/

/-- `FindMult`, igalib.f90:32-43; the difference is rounded -/
def findMult (eps : K) (i : ℤ) (uu : K) (p : ℤ) (U : ℤ → K) : ℤ :=
  forUp (-p) (p + 1) (fun j mult => if |rd (uu - U (i + j))| < eps then mult + 1 else mult) 0

/-- one pass of corner cutting, igalib.f90:250-253 -/
def cutPass {ι : Type} (U : ℤ → K) (uu : K) (k idx hi : ℤ) (Rw : ℤ → ι → Fp K) : ℤ → ι → Fp K :=
  forUp 0 hi (fun i Rw =>
    let alpha := div rd (sub rd (some uu) (some (U (idx + i)))) (sub rd (some (U (i + k + 1))) (some (U (idx + i))))
    upd Rw i (fun c => add rd (mul rd alpha (Rw (i + 1) c)) (mul rd (sub rd (some 1) alpha) (Rw i c)))) Rw

/-- new control points of `InsertKnot`, igalib.f90:244-261 -/
def insertKnotQ {ι : Type} (je : ℤ → ι → Fp K) (n p : ℤ) (U : ℤ → K) (Pw : ℤ → ι → K) (uu : K) (k s r : ℤ) :
    ℤ → ι → Fp K :=
  let Qw := fillRange je 0 (k - p) 0 (fun i c => some (Pw i c))
  let Qw := fillRange Qw (k - s) n r (fun i c => some (Pw i c))
  let Rw := fillRange je 0 (p - s) 0 (fun i c => some (Pw (k - p + i) c))
  let RQ := forUp 1 r (fun j (RQ : (ℤ → ι → Fp K) × (ℤ → ι → Fp K)) =>
    let idx := k - p + j
    let Rw := cutPass rd U uu k idx (p - j - s) RQ.1
    let Qw := upd RQ.2 idx (Rw 0)
    let Qw := upd Qw (k + r - j - s) (Rw (p - j - s))
    (Rw, Qw)) (Rw, Qw)
  let idx := k - p + r
  forUp (idx + 1) (k - s - 1) (fun i Qw => upd Qw i (RQ.1 (i - idx))) RQ.2

/-- `BSp.InsertKnot`, igalib.f90:1111-1128, checks igalib.pyf:81-95; the new knots are copies of the old ones and of `uu` -/
def InsertKnot {ι : Type} (eps : K) (jk : ℤ → K) (je : ℤ → ι → Fp K) (n p : ℤ) (U : ℤ → K) (Pw : ℤ → ι → K) (uu : K)
    (r : ℤ) : Res ((ℤ → K) × (ℤ → ι → Fp K)) :=
  if n ≥ 1 ∧ p ≥ 1 ∧ (uu ≥ U p ∧ uu ≤ U (n + 1)) ∧ (r ≥ 0 ∧ r ≤ p) then
    if r = 0 then .ok (fillRange jk 0 (n + p + 1) 0 U, fillRange je 0 n 0 (fun i c => some (Pw i c)))
    else
      let k := findSpan n p uu U
      let s := findMult rd eps k uu p U
      .ok (insertKnotV jk n p U uu k r, insertKnotQ rd je n p U Pw uu k s r)
  else .error .f2py

end Fp

namespace Nrb

/-- `_bsp.EvaluateN` called by `NURBS.__call__`, nurbs.py:1432-1439 -/
def evaluateF (rd : K → K) (jk : ℤ → Fp K) (je : ℤ → ℕ → Fp K) :
    {d : ℕ} → Nrb K d → (Fin d → ℤ) → (Fin d → ℤ → K) → Res ((Fin d → ℤ) → ℕ → Fp K)
  | 0, N, _, _ => .ok (fun _ c => some (N.P ![] c))
  | 1, N, r, X => .ok (fun i =>
      Fp.evaluate1 rd jk je (N.n 0) (N.degree 0) (N.U 0) (fun j => N.P ![j]) (r 0) (X 0) (i 0))
  | 2, N, r, X => .ok (fun i =>
      Fp.evaluate2 rd jk (fun _ => je) (N.n 0) (N.degree 0) (N.U 0) (N.n 1) (N.degree 1) (N.U 1)
        (fun j k => N.P ![j, k]) (r 0) (X 0) (r 1) (X 1) (i 0) (i 1))
  | 3, N, r, X => .ok (fun i =>
      Fp.evaluate3 rd jk (fun _ _ => je) (N.n 0) (N.degree 0) (N.U 0) (N.n 1) (N.degree 1) (N.U 1)
        (N.n 2) (N.degree 2) (N.U 2) (fun j k l => N.P ![j, k, l]) (r 0) (X 0) (r 1) (X 1)
        (r 2) (X 2) (i 0) (i 1) (i 2))
  | _ + 4, _, _, _ => .error .index

/-- `NURBS.__call__(..., fields=True)`, nurbs.py:1398-1451; the knots and control points of the object and the parameters are
floating point numbers, the checks of the arguments are comparisons -/
def callF {d : ℕ} (rd : K → K) (jk : ℤ → Fp K) (je : ℤ → ℕ → Fp K) (N : Nrb K d) (r : Fin d → ℤ) (X : Fin d → ℤ → K) :
    Res ((Fin d → ℤ) → (ℕ → Fp K) × (ℕ → Fp K)) := do
  callArg N r X
  let CwF ← evaluateF rd jk je N r X
  pure (fun i => (fun c => Fp.div rd (CwF i c) (CwF i 3), fun c => Fp.div rd (CwF i (4 + c)) (CwF i 3)))

end Nrb
end Igakit
