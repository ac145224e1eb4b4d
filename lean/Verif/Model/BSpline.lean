import Verif.Model.Loops
import Mathlib.Algebra.Order.Field.Basic
import Mathlib.Algebra.Module.Basic
import Mathlib.Algebra.Order.Group.Unbundled.Abs

/-!
# Model of Fortran module `bspline` (/repo/igakit/igalib.f90, lines 3-652)

Conventions (simplifications that apply to every definition in this file):
* `real(kind=8)` is an arbitrary linearly ordered field `K` (exact arithmetic, no NaN/inf).
* `integer(kind=4)` is `ℤ` (no overflow).
* `Pw(d,0:n)` is `ℤ → E`, `E` a `K`-module: every statement of the code acts on all `d`
  components alike (`Pw(:,i) = ...`).
* `epsilon(uu)` is the parameter `eps`.
* `jk`, `je` are the (arbitrary) initial contents of uninitialised scalar / point arrays
  (`intent(out)` arguments and local arrays).
-/

namespace Igakit

variable {K : Type*} [Field K] [LinearOrder K]
variable {E : Type*} [AddCommGroup E] [Module K E]

/-- local integers of `FindSpan` (`low, high, span`, igalib.f90:10-11) -/
structure SpanSt where
  low : ℤ
  high : ℤ
  span : ℤ
deriving DecidableEq, Repr

/-- loop condition of `FindSpan`, igalib.f90:23 -/
def findSpanCond (uu : K) (U : ℤ → K) (s : SpanSt) : Bool :=
  decide (uu < U s.span) || decide (uu ≥ U (s.span + 1))

/-- loop body of `FindSpan`, igalib.f90:24-29 -/
def findSpanBody (uu : K) (U : ℤ → K) (s : SpanSt) : SpanSt :=
  if uu < U s.span then
    { low := s.low, high := s.span, span := (s.low + s.span).tdiv 2 }
  else
    { low := s.span, high := s.high, span := (s.span + s.high).tdiv 2 }

/-- The `do while` loop of `FindSpan`, igalib.f90:20-30, `none` = not finished within `fuel`. -/
def findSpanLoop (fuel : ℕ) (n p : ℤ) (uu : K) (U : ℤ → K) : Option SpanSt :=
  whileFuel (findSpanCond uu U) (findSpanBody uu U) fuel
    { low := p, high := n + 1, span := (p + (n + 1)).tdiv 2 }

/-- `FindSpan`, igalib.f90:6-31.  The `none` branch is unreachable: `findSpanLoop_terminates`. -/
def findSpan (n p : ℤ) (uu : K) (U : ℤ → K) : ℤ :=
  if uu ≥ U (n + 1) then n
  else if uu ≤ U p then p
  else match findSpanLoop (n + 1 - p).toNat n p uu U with
    | some s => s.span
    | none => n

/-- `FindMult`, igalib.f90:33-43 -/
def findMult (eps : K) (i : ℤ) (uu : K) (p : ℤ) (U : ℤ → K) : ℤ :=
  forUp (-p) (p + 1) (fun j mult => if |uu - U (i + j)| < eps then mult + 1 else mult) 0

/-- local state of `BasisFuns` (`N, left, right, saved`, igalib.f90:58-60) -/
structure BasisSt (K : Type*) where
  N : ℤ → K
  left : ℤ → K
  right : ℤ → K

/-- inner loop of `BasisFuns` (`do r = 0, j-1`), igalib.f90:66-70; state `(N, saved)` -/
def basisInner (left right : ℤ → K) (j : ℤ) (N : ℤ → K) : (ℤ → K) × K :=
  forUp 0 (j - 1) (fun r (s : (ℤ → K) × K) =>
    let temp := s.1 r / (right (r + 1) + left (j - r))
    (upd s.1 r (s.2 + right (r + 1) * temp), left (j - r) * temp)) (N, 0)

/-- body of the outer loop of `BasisFuns`, igalib.f90:62-72 -/
def basisOuter (i : ℤ) (uu : K) (U : ℤ → K) (j : ℤ) (s : BasisSt K) : BasisSt K :=
  let left := upd s.left j (uu - U (i + 1 - j))
  let right := upd s.right j (U (i + j) - uu)
  let ns := basisInner left right j s.N
  { N := upd ns.1 j ns.2, left := left, right := right }

/-- `BasisFuns`, igalib.f90:54-73 -/
def basisFuns (jk : ℤ → K) (i : ℤ) (uu : K) (p : ℤ) (U : ℤ → K) : ℤ → K :=
  (forUp 1 p (basisOuter i uu U) { N := upd jk 0 1, left := jk, right := jk }).N

/-- `CurvePoint`, igalib.f90:137-153 -/
def curvePoint (jk : ℤ → K) (n p : ℤ) (U : ℤ → K) (Pw : ℤ → E) (uu : K) : E :=
  let span := findSpan n p uu U
  let basis := basisFuns jk span uu p U
  forUp 0 p (fun j C => C + basis j • Pw (span - p + j)) 0

/-- `SurfacePoint`, igalib.f90:155-177; `Pw(d,0:m,0:n)`, first index the `V` direction -/
def surfacePoint (jk : ℤ → K) (n p : ℤ) (U : ℤ → K) (m q : ℤ) (V : ℤ → K)
    (Pw : ℤ → ℤ → E) (uu vv : K) : E :=
  let uspan := findSpan n p uu U
  let ubasis := basisFuns jk uspan uu p U
  let vspan := findSpan m q vv V
  let vbasis := basisFuns jk vspan vv q V
  forUp 0 p (fun uj S => forUp 0 q (fun vj S =>
    S + (ubasis uj * vbasis vj) • Pw (vspan - q + vj) (uspan - p + uj)) S) 0

/-- one pass `do i = 0, hi` of corner cutting with base index `idx`, igalib.f90:219-222,
250-253 and 396-399 (the same three statements) -/
def cutPass (U : ℤ → K) (uu : K) (k idx hi : ℤ) (Rw : ℤ → E) : ℤ → E :=
  forUp 0 hi (fun i Rw =>
    let alpha := (uu - U (idx + i)) / (U (i + k + 1) - U (idx + i))
    upd Rw i (alpha • Rw (i + 1) + (1 - alpha) • Rw i)) Rw

/-- the common tail of `CurvePntByCornerCut`, igalib.f90:214-224 -/
def cornerCutTail (je : ℤ → E) (p : ℤ) (U : ℤ → K) (Pw : ℤ → E) (uu : K) (k s : ℤ) : E :=
  let r := p - s
  let Rw := forUp 0 r (fun i Rw => upd Rw i (Pw (k - p + i))) je
  let Rw := forUp 1 r (fun j Rw => cutPass U uu k (k - p + j) (r - j) Rw) Rw
  Rw 0

/-- `CurvePntByCornerCut`, igalib.f90:179-225 -/
def curvePntByCornerCut (eps : K) (je : ℤ → E) (n p : ℤ) (U : ℤ → K) (Pw : ℤ → E) (x : K) : E :=
  if x ≤ U p then
    let uu := U p
    let s := findMult eps p uu p U
    if s ≥ p then Pw 0 else cornerCutTail je p U Pw uu p s
  else if x ≥ U (n + 1) then
    let uu := U (n + 1)
    let s := findMult eps n uu p U
    if s ≥ p then Pw n else cornerCutTail je p U Pw uu (n + 1) s
  else
    let uu := x
    let k := findSpan n p uu U
    let s := findMult eps k uu p U
    if s ≥ p then Pw (k - p) else cornerCutTail je p U Pw uu k s

/-- new knots of `InsertKnot`, igalib.f90:240-242 -/
def insertKnotV (jk : ℤ → K) (n p : ℤ) (U : ℤ → K) (uu : K) (k r : ℤ) : ℤ → K :=
  let V := fillRange jk 0 k 0 (fun i => U i)
  let V := fillRange V 1 r k (fun _ => uu)
  fillRange V (k + 1) (n + p + 1) r (fun i => U i)

/-- new control points of `InsertKnot`, igalib.f90:244-261 -/
def insertKnotQ (je : ℤ → E) (n p : ℤ) (U : ℤ → K) (Pw : ℤ → E) (uu : K) (k s r : ℤ) : ℤ → E :=
  let Qw := fillRange je 0 (k - p) 0 (fun i => Pw i)
  let Qw := fillRange Qw (k - s) n r (fun i => Pw i)
  let Rw := fillRange je 0 (p - s) 0 (fun i => Pw (k - p + i))
  let RQ := forUp 1 r (fun j (RQ : (ℤ → E) × (ℤ → E)) =>
    let idx := k - p + j
    let Rw := cutPass U uu k idx (p - j - s) RQ.1
    let Qw := upd RQ.2 idx (Rw 0)
    let Qw := upd Qw (k + r - j - s) (Rw (p - j - s))
    (Rw, Qw)) (Rw, Qw)
  let idx := k - p + r
  forUp (idx + 1) (k - s - 1) (fun i Qw => upd Qw i (RQ.1 (i - idx))) RQ.2

/-- `InsertKnot`, igalib.f90:227-262 -/
def insertKnot (jk : ℤ → K) (je : ℤ → E) (n p : ℤ) (U : ℤ → K) (Pw : ℤ → E) (uu : K)
    (k s r : ℤ) : (ℤ → K) × (ℤ → E) :=
  (insertKnotV jk n p U uu k r, insertKnotQ je n p U Pw uu k s r)

/-- `KntIns` inside `ClampKnot`, igalib.f90:381-408.  (The write loops over array sections are
`fillRange`.) -/
def kntIns (je : ℤ → E) (n p : ℤ) (U : ℤ → K) (Pw : ℤ → E) (uu : K) (k r : ℤ) : ℤ → E :=
  let Qw := upd je 0 (Pw (k - p))
  let Rw := fillRange je 0 r 0 (fun i => Pw (k - p + i))
  let RQ := forUp 1 r (fun j (RQ : (ℤ → E) × (ℤ → E)) =>
    let idx := k - p + j
    let Rw := cutPass U uu k idx (r - j) RQ.1
    let Qw := upd RQ.2 j (Rw 0)
    let Qw := upd Qw (r + r - j) (Rw (r - j))
    (Rw, Qw)) (Rw, Qw)
  if k = p then fillRange Pw 0 (r - 1) 0 (fun i => RQ.2 (r + i))
  else fillRange Pw (n - r + 1) n 0 (fun i => RQ.2 (i - (n - r)))

/-- left half of `ClampKnot`, igalib.f90:367-373; returns `(U, Pw)` -/
def clampLeft (eps : K) (je : ℤ → E) (n p : ℤ) (U : ℤ → K) (Pw : ℤ → E) :
    (ℤ → K) × (ℤ → E) :=
  let uu := U p
  let s := findMult eps p uu p U
  let Pw := if s < p then kntIns je n p U Pw uu p (p - s) else Pw
  (fillRange U 0 (p - 1) 0 (fun _ => U p), Pw)

/-- right half of `ClampKnot`, igalib.f90:374-380; returns `(U, Pw)` -/
def clampRight (eps : K) (je : ℤ → E) (n p : ℤ) (U : ℤ → K) (Pw : ℤ → E) :
    (ℤ → K) × (ℤ → E) :=
  let uu := U (n + 1)
  let s := findMult eps n uu p U
  let Pw := if s < p then kntIns je n p U Pw uu (n + s) (p - s) else Pw
  (fillRange U (n + 2) (n + p + 1) 0 (fun _ => U (n + 1)), Pw)

/-- `ClampKnot`, igalib.f90:358-409 (in-place; returns the new `(U, Pw)`) -/
def clampKnot (eps : K) (je : ℤ → E) (n p : ℤ) (U : ℤ → K) (Pw : ℤ → E) (l r : Bool) :
    (ℤ → K) × (ℤ → E) :=
  let UP := if l then clampLeft eps je n p U Pw else (U, Pw)
  if r then clampRight eps je n p UP.1 UP.2 else UP

/-- left half of `UnclampKnot`, igalib.f90:421-431 -/
def unclampLeft (n p : ℤ) (U : ℤ → K) (Pw : ℤ → E) (C : ℤ) : (ℤ → K) × (ℤ → E) :=
  let U := forUp 0 C (fun i U => upd U (C - i) (U p - U (n + 1) + U (n - i))) U
  let Pw := forUp (p - C - 1) (p - 2) (fun i Pw =>
    forDown i 0 (fun j Pw =>
      let alpha := (U p - U (p + j - i - 1)) / (U (p + j + 1) - U (p + j - i - 1))
      upd Pw j ((1 - alpha)⁻¹ • (Pw j - alpha • Pw (j + 1)))) Pw) Pw
  (U, Pw)

/-- right half of `UnclampKnot`, igalib.f90:432-443 -/
def unclampRight (n p : ℤ) (U : ℤ → K) (Pw : ℤ → E) (C : ℤ) : (ℤ → K) × (ℤ → E) :=
  let m := n + p + 1
  let U := forUp 0 C (fun i U => upd U (m - C + i) (U (n + 1) - U p + U (p + i + 1))) U
  let Pw := forUp (p - C - 1) (p - 2) (fun i Pw =>
    forDown i 0 (fun j Pw =>
      let alpha := (U (n + 1) - U (n - j)) / (U (n - j + i + 2) - U (n - j))
      upd Pw (n - j) (alpha⁻¹ • (Pw (n - j) - (1 - alpha) • Pw (n - j - 1)))) Pw) Pw
  (U, Pw)

/-- `UnclampKnot`, igalib.f90:411-444 -/
def unclampKnot (n p : ℤ) (U : ℤ → K) (Pw : ℤ → E) (C : ℤ) (l r : Bool) :
    (ℤ → K) × (ℤ → E) :=
  let UP := if l then unclampLeft n p U Pw C else (U, Pw)
  if r then unclampRight n p UP.1 UP.2 C else UP

/-- local state of `RefineKnotVector` (`Ubar, Qw, i, k`, igalib.f90:454-457) -/
structure RefineSt (K E : Type*) where
  i : ℤ
  k : ℤ
  Ubar : ℤ → K
  Qw : ℤ → E

/-- `do while (X(j) <= U(i) .and. i > a)`, igalib.f90:476-481, written as recursion on `i - a`
(the loop variable `i` decreases by one in each pass and the loop stops at `a`). -/
def refineWhile (p : ℤ) (U : ℤ → K) (Pw : ℤ → E) (x : K) (a : ℤ) :
    ℕ → RefineSt K E → RefineSt K E
  | 0, s => s
  | fuel + 1, s =>
    if x ≤ U s.i ∧ s.i > a then
      refineWhile p U Pw x a fuel
        { i := s.i - 1, k := s.k - 1, Ubar := upd s.Ubar s.k (U s.i),
          Qw := upd s.Qw (s.k - p - 1) (Pw (s.i - p - 1)) }
    else s

/-- body of `do l = 1, p`, igalib.f90:483-492 -/
def refineInner (eps : K) (p : ℤ) (U : ℤ → K) (x : K) (i k : ℤ) (Ubar : ℤ → K) (Qw : ℤ → E) :
    ℤ → E :=
  forUp 1 p (fun l Qw =>
    let idx := k - p + l
    let alpha := Ubar (k + l) - x
    if |alpha| < eps then upd Qw (idx - 1) (Qw idx)
    else
      let alpha := alpha / (Ubar (k + l) - U (i - p + l))
      upd Qw (idx - 1) (alpha • Qw (idx - 1) + (1 - alpha) • Qw idx)) Qw

/-- body of `do j = r, 0, -1`, igalib.f90:475-495 -/
def refineOuter (eps : K) (p : ℤ) (U : ℤ → K) (Pw : ℤ → E) (X : ℤ → K) (a : ℤ) (j : ℤ)
    (s : RefineSt K E) : RefineSt K E :=
  let s := refineWhile p U Pw (X j) a (s.i - a).toNat s
  let Qw := upd s.Qw (s.k - p - 1) (s.Qw (s.k - p))
  let Qw := refineInner eps p U (X j) s.i s.k s.Ubar Qw
  { i := s.i, k := s.k - 1, Ubar := upd s.Ubar s.k (X j), Qw := Qw }

/-- `RefineKnotVector`, igalib.f90:446-496 -/
def refineKnotVector (eps : K) (jk : ℤ → K) (je : ℤ → E) (n p : ℤ) (U : ℤ → K) (Pw : ℤ → E)
    (r : ℤ) (X : ℤ → K) : (ℤ → K) × (ℤ → E) :=
  if r < 0 then (fillRange jk 0 (n + p + 1) 0 U, fillRange je 0 n 0 Pw)
  else
    let m := n + p + 1
    let a := findSpan n p (X 0) U
    let b := findSpan n p (X r) U + 1
    let Qw := fillRange je 0 (a - p) 0 (fun j => Pw j)
    let Qw := fillRange Qw (b - 1) n (r + 1) (fun j => Pw j)
    let Ubar := fillRange jk 0 a 0 (fun j => U j)
    let Ubar := fillRange Ubar (b + p) m (r + 1) (fun j => U j)
    let s := forDown r 0 (refineOuter eps p U Pw X a)
      { i := b + p - 1, k := b + p + r, Ubar := Ubar, Qw := Qw }
    (s.Ubar, s.Qw)

/-- `BSp.Greville` and `IGA.Greville`: `sum(U(i+1:i+p))/p`, igalib.f90:1100-1109, 2502-2511 -/
def greville (p : ℤ) (U : ℤ → K) (i : ℤ) : K :=
  forUp (i + 1) (i + p) (fun j s => s + U j) 0 / (p : K)

end Igakit
