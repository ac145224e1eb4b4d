import Verif.Model.Elevate
import Verif.Model.Remove

/-!
# The Fortran routines with the bounds of their arrays

The other models use total functions for arrays.  Here an array carries its declared bounds (igalib.f90, the declarations
of each routine), every element access is checked, and an access outside the bounds is the error `oob`.  A dummy argument
of explicit shape must not be longer than the array it is given.  `.and.` and `.or.` evaluate both operands.

Scalars, points and `eps` are as in `Verif.Model.BSpline`; the index of the components of a point, `Pw(:,i)`, is not checked
(the statements act on all components).  Integers do not overflow.
-/

namespace Igakit

/-- what can go wrong: an access outside the bounds of an array (or arrays of different shape in an assignment), a loop
that is still running when the fuel of the model is used up
(the code has no checks of its own: igalib.f90:6-651 is compiled without bounds checks) -/
inductive Fault where
  | oob
  | timeout
deriving DecidableEq, Repr

/-- a computation with checked array accesses (the statements of igalib.f90:6-651) -/
abbrev Chk (α : Type) := Except Fault α

/-- an array `A(lo:hi)`; igalib.f90, all declarations of rank one (and of points)
(for example igalib.f90:9, 57-60, 231-238) -/
structure Arr (α : Type) where
  lo : ℤ
  hi : ℤ
  val : ℤ → α

namespace Arr
variable {α : Type}

/-- the value `A(i)` in an expression (as in igalib.f90:220) -/
def get (A : Arr α) (i : ℤ) : Chk α := if A.lo ≤ i ∧ i ≤ A.hi then .ok (A.val i) else .error .oob

/-- the assignment `A(i) = v` (as in igalib.f90:68) -/
def set (A : Arr α) (i : ℤ) (v : α) : Chk (Arr α) :=
  if A.lo ≤ i ∧ i ≤ A.hi then .ok ⟨A.lo, A.hi, upd A.val i v⟩ else .error .oob

/-- the array `A` passed to a dummy argument declared `X(0:hi)` (every array passed in this code starts at 0)
(as in igalib.f90:147-148) -/
def arg (A : Arr α) (hi : ℤ) : Chk (Arr α) := if A.lo = 0 ∧ hi ≤ A.hi then .ok ⟨0, hi, A.val⟩ else .error .oob

end Arr

/-- an array `A(lo1:hi1,lo2:hi2)` (igalib.f90:83, 513) -/
structure Arr2 (α : Type) where
  lo1 : ℤ
  hi1 : ℤ
  lo2 : ℤ
  hi2 : ℤ
  val : ℤ → ℤ → α

namespace Arr2
variable {α : Type}

/-- `(i,j)` is inside the bounds (declarations igalib.f90:83, 513) -/
def In (A : Arr2 α) (i j : ℤ) : Prop := A.lo1 ≤ i ∧ i ≤ A.hi1 ∧ A.lo2 ≤ j ∧ j ≤ A.hi2

instance (A : Arr2 α) (i j : ℤ) : Decidable (A.In i j) := inferInstanceAs (Decidable (_ ∧ _))

/-- the value `A(i,j)` in an expression (as in igalib.f90:91) -/
def get (A : Arr2 α) (i j : ℤ) : Chk α := if A.In i j then .ok (A.val i j) else .error .oob

/-- the assignment `A(i,j) = v` (as in igalib.f90:90) -/
def set (A : Arr2 α) (i j : ℤ) (v : α) : Chk (Arr2 α) :=
  if A.In i j then .ok ⟨A.lo1, A.hi1, A.lo2, A.hi2, upd2 A.val i j v⟩ else .error .oob

end Arr2

/-- Fortran `do i = lo, hi` (as in igalib.f90:62, 85, 286) -/
def forUpC {σ : Type} (lo hi : ℤ) (f : ℤ → σ → Chk σ) (s : σ) : Chk σ :=
  forUp lo hi (fun i o => o >>= f i) (.ok s)

/-- Fortran `do i = hi, lo, -1` (as in igalib.f90:475, 568) -/
def forDownC {σ : Type} (hi lo : ℤ) (f : ℤ → σ → Chk σ) (s : σ) : Chk σ :=
  forDown hi lo (fun i o => o >>= f i) (.ok s)

/-- Fortran `do while (c)`, at most `fuel` rounds (as in igalib.f90:23, 293, 476, 546) -/
def whileC {σ : Type} (c : σ → Chk Bool) (b : σ → Chk σ) : ℕ → σ → Chk σ
  | 0, s => do
    let go ← c s
    if go then .error .timeout else .ok s
  | fuel + 1, s => do
    let go ← c s
    if go then do
      let s ← b s
      whileC c b fuel s
    else .ok s

/-- Fortran `forall (i = lo:hi) A(i+sh) = g(i)` and assignments to the section `A(lo+sh:hi+sh)`; in this code the right hand
side never uses an element that is assigned (as in igalib.f90:240-246, 469-472) -/
def fillC {α : Type} (A : Arr α) (lo hi sh : ℤ) (g : ℤ → Chk α) : Chk (Arr α) :=
  forUpC lo hi (fun i A => do
    let v ← g i
    A.set (i + sh) v) A

/-- the assignment `A = B` of whole arrays, which must have the same shape (as in igalib.f90:461-462, 517-518) -/
def copyC {α : Type} (A B : Arr α) : Chk (Arr α) :=
  if A.hi - A.lo = B.hi - B.lo then fillC A A.lo A.hi 0 (fun i => B.get (i - A.lo + B.lo)) else .error .oob

variable {K : Type} [Field K] [LinearOrder K]
variable {E : Type} [AddCommGroup E] [Module K E]

/-- `FindSpan`, igalib.f90:6-31 -/
def findSpanC (n p : ℤ) (uu : K) (U : Arr K) : Chk ℤ := do
  let U ← U.arg (n + p + 1)
  let u1 ← U.get (n + 1)
  if uu ≥ u1 then .ok n
  else do
    let u0 ← U.get p
    if uu ≤ u0 then .ok p
    else do
      let s ← whileC (fun s : SpanSt => do
          let x ← U.get s.span
          let y ← U.get (s.span + 1)
          .ok (decide (uu < x) || decide (uu ≥ y)))
        (fun s : SpanSt => do
          let x ← U.get s.span
          .ok (if uu < x then { low := s.low, high := s.span, span := (s.low + s.span).tdiv 2 }
            else { low := s.span, high := s.high, span := (s.span + s.high).tdiv 2 }))
        (n + 1 - p).toNat { low := p, high := n + 1, span := (p + (n + 1)).tdiv 2 }
      .ok s.span

/-- `FindMult`, igalib.f90:33-43; `U(0:i+p+1)` -/
def findMultC (eps : K) (i : ℤ) (uu : K) (p : ℤ) (U : Arr K) : Chk ℤ := do
  let U ← U.arg (i + p + 1)
  forUpC (-p) (p + 1) (fun j mult => do
    let x ← U.get (i + j)
    .ok (if |uu - x| < eps then mult + 1 else mult)) 0

/-- `FindSpanMult`, igalib.f90:45-52 -/
def findSpanMultC (eps : K) (n p : ℤ) (uu : K) (U : Arr K) : Chk (ℤ × ℤ) := do
  let U ← U.arg (n + p + 1)
  let k ← findSpanC n p uu U
  let s ← findMultC eps k uu p U
  .ok (k, s)

/-- `BasisFuns`, igalib.f90:54-73; `U(0:i+p)`, `N(0:p)`, `left(p)`, `right(p)` -/
def basisFunsC (jk : ℤ → K) (i : ℤ) (uu : K) (p : ℤ) (U : Arr K) (N : Arr K) : Chk (Arr K) := do
  let U ← U.arg (i + p)
  let N ← N.arg p
  let N ← N.set 0 1
  let s ← forUpC 1 p (fun j (s : Arr K × Arr K × Arr K) => do
    let x ← U.get (i + 1 - j)
    let left ← s.2.1.set j (uu - x)
    let y ← U.get (i + j)
    let right ← s.2.2.set j (y - uu)
    let ns ← forUpC 0 (j - 1) (fun r (ns : Arr K × K) => do
      let Nr ← ns.1.get r
      let rt ← right.get (r + 1)
      let lt ← left.get (j - r)
      let temp := Nr / (rt + lt)
      let N ← ns.1.set r (ns.2 + rt * temp)
      .ok (N, lt * temp)) (s.1, 0)
    let N ← ns.1.set j ns.2
    .ok (N, left, right)) (N, ⟨1, p, jk⟩, ⟨1, p, jk⟩)
  .ok s.1

/-- `CurvePoint`, igalib.f90:137-153; `U(0:n+p+1)`, `Pw(d,0:n)`, `basis(0:p)` -/
def curvePointC (jk : ℤ → K) (n p : ℤ) (U : Arr K) (Pw : Arr E) (uu : K) : Chk E := do
  let U ← U.arg (n + p + 1)
  let Pw ← Pw.arg n
  let span ← findSpanC n p uu U
  let basis ← basisFunsC jk span uu p U ⟨0, p, jk⟩
  forUpC 0 p (fun j C => do
    let b ← basis.get j
    let P ← Pw.get (span - p + j)
    .ok (C + b • P)) 0

/-- one pass of corner cutting, igalib.f90:219-222, 250-253 and 396-399 -/
def cutPassC (U : Arr K) (uu : K) (k idx hi : ℤ) (Rw : Arr E) : Chk (Arr E) :=
  forUpC 0 hi (fun i Rw => do
    let x ← U.get (idx + i)
    let y ← U.get (i + k + 1)
    let alpha := (uu - x) / (y - x)
    let R1 ← Rw.get (i + 1)
    let R0 ← Rw.get i
    Rw.set i (alpha • R1 + (1 - alpha) • R0)) Rw

/-- the tail of `CurvePntByCornerCut`, igalib.f90:214-224; `Rw(d,0:p)` -/
def cornerCutTailC (je : ℤ → E) (p : ℤ) (U : Arr K) (Pw : Arr E) (uu : K) (k s : ℤ) : Chk E := do
  let r := p - s
  let Rw ← forUpC 0 r (fun i Rw => do
    let P ← Pw.get (k - p + i)
    Arr.set Rw i P) (⟨0, p, je⟩ : Arr E)
  let Rw ← forUpC 1 r (fun j Rw => cutPassC U uu k (k - p + j) (r - j) Rw) Rw
  Rw.get 0

/-- `CurvePntByCornerCut`, igalib.f90:179-225; `U(0:n+p+1)`, `Pw(d,0:n)` -/
def curvePntByCornerCutC (eps : K) (je : ℤ → E) (n p : ℤ) (U : Arr K) (Pw : Arr E) (x : K) : Chk E := do
  let U ← U.arg (n + p + 1)
  let Pw ← Pw.arg n
  let u0 ← U.get p
  if x ≤ u0 then do
    let s ← findMultC eps p u0 p U
    if s ≥ p then Pw.get 0 else cornerCutTailC je p U Pw u0 p s
  else do
    let u1 ← U.get (n + 1)
    if x ≥ u1 then do
      let s ← findMultC eps n u1 p U
      if s ≥ p then Pw.get n else cornerCutTailC je p U Pw u1 (n + 1) s
    else do
      let k ← findSpanC n p x U
      let s ← findMultC eps k x p U
      if s ≥ p then Pw.get (k - p) else cornerCutTailC je p U Pw x k s

/-- new knots of `InsertKnot`, igalib.f90:240-242 -/
def insertKnotVC (n p : ℤ) (U : Arr K) (uu : K) (k r : ℤ) (V : Arr K) : Chk (Arr K) := do
  let V ← fillC V 0 k 0 (fun i => U.get i)
  let V ← fillC V 1 r k (fun _ => .ok uu)
  fillC V (k + 1) (n + p + 1) r (fun i => U.get i)

/-- new control points of `InsertKnot`, igalib.f90:244-261; `Rw(d,0:p)` -/
def insertKnotQC (je : ℤ → E) (n p : ℤ) (U : Arr K) (Pw : Arr E) (uu : K) (k s r : ℤ) (Qw : Arr E) :
    Chk (Arr E) := do
  let Qw ← fillC Qw 0 (k - p) 0 (fun i => Pw.get i)
  let Qw ← fillC Qw (k - s) n r (fun i => Pw.get i)
  let Rw ← fillC ⟨0, p, je⟩ 0 (p - s) 0 (fun i => Pw.get (k - p + i))
  let RQ ← forUpC 1 r (fun j (RQ : Arr E × Arr E) => do
    let Rw ← cutPassC U uu k (k - p + j) (p - j - s) RQ.1
    let R0 ← Rw.get 0
    let Qw ← RQ.2.set (k - p + j) R0
    let R1 ← Rw.get (p - j - s)
    let Qw ← Qw.set (k + r - j - s) R1
    .ok (Rw, Qw)) (Rw, Qw)
  forUpC (k - p + r + 1) (k - s - 1) (fun i Qw => do
    let R ← RQ.1.get (i - (k - p + r))
    Arr.set Qw i R) RQ.2

/-- `InsertKnot`, igalib.f90:227-262; `U(0:n+p+1)`, `Pw(d,0:n)`, `V(0:n+p+1+r)`, `Qw(d,0:n+r)` -/
def insertKnotC (je : ℤ → E) (n p : ℤ) (U : Arr K) (Pw : Arr E) (uu : K) (k s r : ℤ) (V : Arr K) (Qw : Arr E) :
    Chk (Arr K × Arr E) := do
  let U ← U.arg (n + p + 1)
  let Pw ← Pw.arg n
  let V ← V.arg (n + p + 1 + r)
  let Qw ← Qw.arg (n + r)
  let V ← insertKnotVC n p U uu k r V
  let Qw ← insertKnotQC je n p U Pw uu k s r Qw
  .ok (V, Qw)

/-- `KntIns` inside `ClampKnot`, igalib.f90:382-408; `Rw(d,0:r)`, `Qw(d,0:r+r-1)` -/
def kntInsC (je : ℤ → E) (n p : ℤ) (U : Arr K) (Pw : Arr E) (uu : K) (k r : ℤ) : Chk (Arr E) := do
  let U ← U.arg (n + p + 1)
  let Pw ← Pw.arg n
  let P0 ← Pw.get (k - p)
  let Qw ← Arr.set ⟨0, r + r - 1, je⟩ 0 P0
  let Rw ← fillC ⟨0, r, je⟩ 0 r 0 (fun i => Pw.get (k - p + i))
  let RQ ← forUpC 1 r (fun j (RQ : Arr E × Arr E) => do
    let Rw ← cutPassC U uu k (k - p + j) (r - j) RQ.1
    let R0 ← Rw.get 0
    let Qw ← RQ.2.set j R0
    let R1 ← Rw.get (r - j)
    let Qw ← Qw.set (r + r - j) R1
    .ok (Rw, Qw)) (Rw, Qw)
  if k = p then fillC Pw 0 (r - 1) 0 (fun i => RQ.2.get (r + i))
  else fillC Pw (n - r + 1) n 0 (fun i => RQ.2.get (i - (n - r)))

/-- left half of `ClampKnot`, igalib.f90:367-373 -/
def clampLeftC (eps : K) (je : ℤ → E) (n p : ℤ) (U : Arr K) (Pw : Arr E) : Chk (Arr K × Arr E) := do
  let uu ← U.get p
  let s ← findMultC eps p uu p U
  let Pw ← (if s < p then kntInsC je n p U Pw uu p (p - s) else .ok Pw)
  let up ← U.get p
  let U ← fillC U 0 (p - 1) 0 (fun _ => .ok up)
  .ok (U, Pw)

/-- right half of `ClampKnot`, igalib.f90:374-380 -/
def clampRightC (eps : K) (je : ℤ → E) (n p : ℤ) (U : Arr K) (Pw : Arr E) : Chk (Arr K × Arr E) := do
  let uu ← U.get (n + 1)
  let s ← findMultC eps n uu p U
  let Pw ← (if s < p then kntInsC je n p U Pw uu (n + s) (p - s) else .ok Pw)
  let up ← U.get (n + 1)
  let U ← fillC U (n + 2) (n + p + 1) 0 (fun _ => .ok up)
  .ok (U, Pw)

/-- `ClampKnot`, igalib.f90:358-409; `U(0:n+p+1)`, `Pw(d,0:n)` -/
def clampKnotC (eps : K) (je : ℤ → E) (n p : ℤ) (U : Arr K) (Pw : Arr E) (l r : Bool) : Chk (Arr K × Arr E) := do
  let U ← U.arg (n + p + 1)
  let Pw ← Pw.arg n
  let UP ← (if l then clampLeftC eps je n p U Pw else .ok (U, Pw))
  if r then clampRightC eps je n p UP.1 UP.2 else .ok UP

/-- left half of `UnclampKnot`, igalib.f90:421-431 -/
def unclampLeftC (n p : ℤ) (U : Arr K) (Pw : Arr E) (C : ℤ) : Chk (Arr K × Arr E) := do
  let U ← forUpC 0 C (fun i U => do
    let x ← Arr.get U p
    let y ← U.get (n + 1)
    let z ← U.get (n - i)
    U.set (C - i) (x - y + z)) U
  let Pw ← forUpC (p - C - 1) (p - 2) (fun i Pw =>
    forDownC i 0 (fun j Pw => do
      let x ← U.get p
      let y ← U.get (p + j - i - 1)
      let z ← U.get (p + j + 1)
      let alpha := (x - y) / (z - y)
      let P0 ← Arr.get Pw j
      let P1 ← Pw.get (j + 1)
      Pw.set j ((1 - alpha)⁻¹ • (P0 - alpha • P1))) Pw) Pw
  .ok (U, Pw)

/-- right half of `UnclampKnot`, igalib.f90:432-443 -/
def unclampRightC (n p : ℤ) (U : Arr K) (Pw : Arr E) (C : ℤ) : Chk (Arr K × Arr E) := do
  let m := n + p + 1
  let U ← forUpC 0 C (fun i U => do
    let x ← Arr.get U (n + 1)
    let y ← U.get p
    let z ← U.get (p + i + 1)
    U.set (m - C + i) (x - y + z)) U
  let Pw ← forUpC (p - C - 1) (p - 2) (fun i Pw =>
    forDownC i 0 (fun j Pw => do
      let x ← U.get (n + 1)
      let y ← U.get (n - j)
      let z ← U.get (n - j + i + 2)
      let alpha := (x - y) / (z - y)
      let P0 ← Arr.get Pw (n - j)
      let P1 ← Pw.get (n - j - 1)
      Pw.set (n - j) (alpha⁻¹ • (P0 - (1 - alpha) • P1))) Pw) Pw
  .ok (U, Pw)

/-- `UnclampKnot`, igalib.f90:411-444; `U(0:n+p+1)`, `Pw(d,0:n)` -/
def unclampKnotC (n p : ℤ) (U : Arr K) (Pw : Arr E) (C : ℤ) (l r : Bool) : Chk (Arr K × Arr E) := do
  let U ← U.arg (n + p + 1)
  let Pw ← Pw.arg n
  let UP ← (if l then unclampLeftC n p U Pw C else .ok (U, Pw))
  if r then unclampRightC n p UP.1 UP.2 C else .ok UP

/-- local state of `RefineKnotVector` (igalib.f90:454-459) -/
structure RefineStC (K E : Type) where
  i : ℤ
  k : ℤ
  Ubar : Arr K
  Qw : Arr E

/-- `do while (X(j) <= U(i) .and. i > a)`, igalib.f90:476-481; at most `i - a` rounds -/
def refineWhileC (p : ℤ) (U : Arr K) (Pw : Arr E) (x : K) (a : ℤ) (s : RefineStC K E) : Chk (RefineStC K E) :=
  whileC (fun s : RefineStC K E => do
      let y ← U.get s.i
      .ok (decide (x ≤ y) && decide (s.i > a)))
    (fun s => do
      let P ← Pw.get (s.i - p - 1)
      let Qw ← s.Qw.set (s.k - p - 1) P
      let y ← U.get s.i
      let Ubar ← s.Ubar.set s.k y
      .ok { i := s.i - 1, k := s.k - 1, Ubar := Ubar, Qw := Qw }) (s.i - a).toNat s

/-- `do l = 1, p`, igalib.f90:483-492 -/
def refineInnerC (eps : K) (p : ℤ) (U : Arr K) (x : K) (i k : ℤ) (Ubar : Arr K) (Qw : Arr E) : Chk (Arr E) :=
  forUpC 1 p (fun l Qw => do
    let idx := k - p + l
    let y ← Ubar.get (k + l)
    let alpha := y - x
    if |alpha| < eps then do
      let Q ← Arr.get Qw idx
      Qw.set (idx - 1) Q
    else do
      let z ← U.get (i - p + l)
      let alpha := alpha / (y - z)
      let Q0 ← Arr.get Qw (idx - 1)
      let Q1 ← Qw.get idx
      Qw.set (idx - 1) (alpha • Q0 + (1 - alpha) • Q1)) Qw

/-- body of `do j = r, 0, -1`, igalib.f90:475-495 -/
def refineOuterC (eps : K) (p : ℤ) (U : Arr K) (Pw : Arr E) (X : Arr K) (a : ℤ) (j : ℤ) (s : RefineStC K E) :
    Chk (RefineStC K E) := do
  let x ← X.get j
  let s ← refineWhileC p U Pw x a s
  let Q ← s.Qw.get (s.k - p)
  let Qw ← s.Qw.set (s.k - p - 1) Q
  let Qw ← refineInnerC eps p U x s.i s.k s.Ubar Qw
  let Ubar ← s.Ubar.set s.k x
  .ok { i := s.i, k := s.k - 1, Ubar := Ubar, Qw := Qw }

/-- `RefineKnotVector`, igalib.f90:446-496; `U(0:n+p+1)`, `Pw(d,0:n)`, `X(0:r)`, `Ubar(0:n+r+1+p+1)`, `Qw(d,0:n+r+1)` -/
def refineKnotVectorC (eps : K) (n p : ℤ) (U : Arr K) (Pw : Arr E) (r : ℤ) (X : Arr K) (Ubar : Arr K) (Qw : Arr E) :
    Chk (Arr K × Arr E) := do
  let U ← U.arg (n + p + 1)
  let Pw ← Pw.arg n
  let X ← X.arg r
  let Ubar ← Ubar.arg (n + r + 1 + p + 1)
  let Qw ← Qw.arg (n + r + 1)
  if r < 0 then do
    let Ubar ← copyC Ubar U
    let Qw ← copyC Qw Pw
    .ok (Ubar, Qw)
  else do
    let x0 ← X.get 0
    let a ← findSpanC n p x0 U
    let xr ← X.get r
    let b ← findSpanC n p xr U
    let b := b + 1
    let Qw ← fillC Qw 0 (a - p) 0 (fun j => Pw.get j)
    let Qw ← fillC Qw (b - 1) n (r + 1) (fun j => Pw.get j)
    let Ubar ← fillC Ubar 0 a 0 (fun j => U.get j)
    let Ubar ← fillC Ubar (b + p) (n + p + 1) (r + 1) (fun j => U.get j)
    let s ← forDownC r 0 (refineOuterC eps p U Pw X a) { i := b + p - 1, k := b + p + r, Ubar := Ubar, Qw := Qw }
    .ok (s.Ubar, s.Qw)

/-- the variables of the first inner loop of `RemoveKnot` (`temp, i, ii, j, jj`, igalib.f90:276-278) -/
structure RemStC (E : Type) where
  temp : Arr E
  i : ℤ
  ii : ℤ
  j : ℤ
  jj : ℤ

/-- `alfi`, igalib.f90:294 and 306 -/
def remAlfiC (U : Arr K) (uu : K) (p t i : ℤ) : Chk K := do
  let a ← U.get i
  let b ← U.get (i + (p + 1) + t)
  .ok ((uu - a) / (b - a))

/-- `alfj`, igalib.f90:295 -/
def remAlfjC (U : Arr K) (uu : K) (p t j : ℤ) : Chk K := do
  let a ← U.get (j - t)
  let b ← U.get (j + (p + 1))
  .ok ((uu - a) / (b - a))

/-- body of the loop igalib.f90:293-300 -/
def remBodyC (U : Arr K) (uu : K) (p t : ℤ) (Pw : Arr E) (s : RemStC E) : Chk (RemStC E) := do
  let alfi ← remAlfiC U uu p t s.i
  let alfj ← remAlfjC U uu p t s.j
  let P ← Pw.get s.i
  let T ← s.temp.get (s.ii - 1)
  let temp ← s.temp.set s.ii (alfi⁻¹ • (P - (1 - alfi) • T))
  let P ← Pw.get s.j
  let T ← temp.get (s.jj + 1)
  let temp ← temp.set s.jj ((1 - alfj)⁻¹ • (P - alfj • T))
  .ok ⟨temp, s.i + 1, s.ii + 1, s.j - 1, s.jj - 1⟩

/-- igalib.f90:287-300; at most `last + 1 - first` rounds -/
def remSolvedC (U : Arr K) (uu : K) (p t first last : ℤ) (Pw temp : Arr E) : Chk (RemStC E) := do
  let off := first - 1
  let P ← Pw.get off
  let temp ← temp.set 0 P
  let P ← Pw.get (last + 1)
  let temp ← temp.set (last + 1 - off) P
  whileC (fun s : RemStC E => .ok (decide (s.j - s.i > t))) (remBodyC U uu p t Pw) (last + 1 - first).toNat
    ⟨temp, first, 1, last, last - off⟩

/-- the removal test `remflag`, igalib.f90:301-310 -/
def remFlagC (U : Arr K) (uu : K) (p t : ℤ) (near : E → E → Prop) [DecidableRel near] (Pw : Arr E) (s : RemStC E) :
    Chk Bool :=
  if s.j - s.i < t then do
    let T0 ← s.temp.get (s.ii - 1)
    let T1 ← s.temp.get (s.jj + 1)
    .ok (decide (near T0 T1))
  else do
    let alfi ← remAlfiC U uu p t s.i
    let P ← Pw.get s.i
    let T1 ← s.temp.get (s.ii + t + 1)
    let T0 ← s.temp.get (s.ii - 1)
    .ok (decide (near P (alfi • T1 + (1 - alfi) • T0)))

/-- the loop igalib.f90:314-321: `(i, j, Pw)`; at most `fuel` rounds -/
def remStoreC (t off : ℤ) (temp : Arr E) (fuel : ℕ) (i j : ℤ) (Pw : Arr E) : Chk (ℤ × ℤ × Arr E) :=
  whileC (fun s : ℤ × ℤ × Arr E => .ok (decide (s.2.1 - s.1 > t)))
    (fun s => do
      let T ← temp.get (s.1 - off)
      let Pw ← s.2.2.set s.1 T
      let T ← temp.get (s.2.1 - off)
      let Pw ← Pw.set s.2.1 T
      .ok (s.1 + 1, s.2.1 - 1, Pw)) fuel (i, j, Pw)

/-- the loop `do t = 0,num-1` of igalib.f90:286-325 from counter `t` with `k` rounds left -/
def remLoopC (U : Arr K) (uu : K) (p : ℤ) (near : E → E → Prop) [DecidableRel near] :
    ℕ → (t first last : ℤ) → (Pw temp : Arr E) → Chk (ℤ × Arr E)
  | 0, t, _, _, Pw, _ => .ok (t, Pw)
  | k + 1, t, first, last, Pw, temp => do
    let s ← remSolvedC U uu p t first last Pw temp
    let rem ← remFlagC U uu p t near Pw s
    if rem then do
      let ijP ← remStoreC t (first - 1) s.temp (last + 1 - first).toNat first last Pw
      remLoopC U uu p near k (t + 1) (first - 1) (last + 1) ijP.2.2 s.temp
    else .ok (t, Pw)

/-- the loop igalib.f90:339-342 -/
def remShiftC (n : ℤ) (ij : ℤ × ℤ) (Pw : Arr E) : Chk (Arr E) := do
  let s ← forUpC (ij.1 + 1) n (fun k (s : Arr E × ℤ) => do
    let P ← s.1.get k
    let Pw ← s.1.set s.2 P
    .ok (Pw, s.2 + 1)) (Pw, ij.2)
  .ok s.1

/-- `RemoveKnot`, igalib.f90:264-356; `U(0:n+p+1)`, `Pw(d,0:n)`, `temp(d,0:2*p)` (local, contents `jt`) -/
def removeKnotC (jt : ℤ → E) (near : E → E → Prop) [DecidableRel near] (n p : ℤ) (U : Arr K) (Pw : Arr E) (uu : K)
    (r s num : ℤ) : Chk (ℤ × Arr K × Arr E) := do
  let U ← U.arg (n + p + 1)
  let Pw ← Pw.arg n
  let m := n + p + 1
  let fout := Int.tdiv (2 * r - s - p) 2
  let tP ← remLoopC U uu p near num.toNat 0 (r - p) (r - s) Pw ⟨0, 2 * p, jt⟩
  let t := tP.1
  if t = 0 then .ok (t, U, tP.2)
  else do
    let U ← forUpC (r + 1) m (fun k U => do
      let x ← Arr.get U k
      Arr.set U (k - t) x) U
    let Pw ← remShiftC n (remIdx fout t) tP.2
    .ok (t, U, Pw)

/-- the table `bezalfs(0:p+t,0:p)`, igalib.f90:524-536; `Bin` (641-650) uses no array -/
def elevBezC (jb : ℤ → ℤ → K) (p t : ℤ) : Chk (Arr2 K) := do
  let ph := p + t
  let bz : Arr2 K := ⟨0, ph, 0, p, jb⟩
  let bz ← bz.set 0 0 1
  let bz ← bz.set ph p 1
  let bz ← forUpC 1 (ph / 2) (fun i bz =>
    let den : K := elevBin ph i
    forUpC (max 0 (i - t)) (min p i) (fun j bz => Arr2.set bz i j (elevBin p j * elevBin t (i - j) / den)) bz) bz
  forUpC (ph / 2 + 1) (ph - 1) (fun i bz =>
    forUpC (max 0 (i - t)) (min p i) (fun j bz => do
      let x ← Arr2.get bz (ph - i) (p - j)
      bz.set i j x) bz) bz

/-- the loop igalib.f90:548-551; at most `fuel` rounds -/
def elevRunC (eps : K) (m : ℤ) (U : Arr K) : ℕ → ℤ → Chk ℤ
  | 0, b => if b < m then .error .timeout else .ok b
  | fuel + 1, b =>
    if b < m then do
      let x ← U.get b
      let y ← U.get (b + 1)
      if |x - y| > eps then .ok b else elevRunC eps m U fuel (b + 1)
    else .ok b

/-- the loop igalib.f90:568-570 -/
def elevAlfsC (U : Arr K) (p mul a : ℤ) (ua ub : K) (alfs : Arr K) : Chk (Arr K) :=
  forDownC p (mul + 1) (fun k alfs => do
    let x ← U.get (a + k)
    Arr.set alfs (k - mul - 1) ((ub - ua) / (x - ua))) alfs

/-- the loop igalib.f90:571-578: `(bpts, nextbpts)` -/
def elevCutC (p mul r : ℤ) (alfs : Arr K) (s : Arr E × Arr E) : Chk (Arr E × Arr E) :=
  forUpC 1 r (fun j (s : Arr E × Arr E) => do
    let b ← forDownC p (mul + j) (fun k (b : Arr E) => do
      let x ← alfs.get (k - (mul + j))
      let P1 ← b.get k
      let P0 ← b.get (k - 1)
      b.set k (x • P1 + (1 - x) • P0)) s.1
    let P ← b.get p
    let nx ← s.2.set (r - j) P
    .ok (b, nx)) s

/-- the loop igalib.f90:581-586 -/
def elevPtsC (bz : Arr2 K) (p t lbz : ℤ) (bpts ebpts : Arr E) : Chk (Arr E) :=
  forUpC lbz (p + t) (fun i e => do
    let e ← Arr.set e i 0
    forUpC (max 0 (i - t)) (min p i) (fun j e => do
      let v ← Arr.get e i
      let x ← bz.get i j
      let P ← bpts.get j
      e.set i (v + x • P)) e) ebpts

/-- the variables `Qw, ebpts, i, j, kj` of the knot removal loop (igalib.f90:507-514) -/
structure ElevRemC (E : Type) where
  Qw : Arr E
  ebpts : Arr E
  i : ℤ
  j : ℤ
  kj : ℤ

/-- `Qw(:,i)`, igalib.f90:598-601 -/
def elevRemQC (Uh : Arr K) (ua ub : K) (cind i : ℤ) (Qw : Arr E) : Chk (Arr E) :=
  if i < cind then do
    let x ← Uh.get i
    let alf := (ub - x) / (ua - x)
    let Q1 ← Qw.get i
    let Q0 ← Qw.get (i - 1)
    Qw.set i (alf • Q1 + (1 - alf) • Q0)
  else .ok Qw

/-- `ebpts(:,kj)`, igalib.f90:602-609 -/
def elevRemEC (Uh : Arr K) (ub den bet : K) (ph oldr kind lbz tr j kj : ℤ) (ebpts : Arr E) : Chk (Arr E) :=
  if j ≥ lbz then
    if j - tr ≤ kind - ph + oldr then do
      let x ← Uh.get (j - tr)
      let gam := (ub - x) / den
      let e0 ← ebpts.get kj
      let e1 ← ebpts.get (kj + 1)
      ebpts.set kj (gam • e0 + (1 - gam) • e1)
    else do
      let e0 ← ebpts.get kj
      let e1 ← ebpts.get (kj + 1)
      ebpts.set kj (bet • e0 + (1 - bet) • e1)
  else .ok ebpts

/-- the loop igalib.f90:597-613 -/
def elevRemInC (Uh : Arr K) (ua ub den bet : K) (ph oldr kind cind lbz tr : ℤ) (fuel : ℕ) (s : ElevRemC E) :
    Chk (ElevRemC E) :=
  whileC (fun s : ElevRemC E => .ok (decide (s.j - s.i > tr))) (fun s => do
    let Qw ← elevRemQC Uh ua ub cind s.i s.Qw
    let ebpts ← elevRemEC Uh ub den bet ph oldr kind lbz tr s.j s.kj s.ebpts
    .ok ⟨Qw, ebpts, s.i + 1, s.j - 1, s.kj - 1⟩) fuel s

/-- the knot removal, igalib.f90:588-617 -/
def elevRemAllC (Uh : Arr K) (ua ub : K) (ph oldr kind cind lbz : ℤ) (Qe : Arr E × Arr E) : Chk (Arr E × Arr E) :=
  if oldr > 1 then do
    let den := ub - ua
    let x ← Uh.get (kind - 1)
    let bet := (ub - x) / den
    let s ← forUpC 1 (oldr - 1) (fun tr (s : Arr E × Arr E × ℤ × ℤ) => do
      let i := s.2.2.1
      let j := s.2.2.2
      let q ← elevRemInC Uh ua ub den bet ph oldr kind cind lbz tr (j - i).toNat ⟨s.1, s.2.1, i, j, j - kind + 1⟩
      .ok (q.Qw, q.ebpts, i - 1, j + 1)) (Qe.1, Qe.2, kind - 2, kind)
    .ok (s.1, s.2.1)
  else .ok Qe

/-- the variables of `DegreeElevate` that live across rounds (igalib.f90:506-515) -/
structure ElevStC (K E : Type) where
  a : ℤ
  b : ℤ
  r : ℤ
  kind : ℤ
  cind : ℤ
  ua : K
  Uh : Arr K
  Qw : Arr E
  bpts : Arr E
  ebpts : Arr E
  nextbpts : Arr E
  alfs : Arr K

/-- one round of the main loop, igalib.f90:546-639 -/
def elevStepC (eps : K) (bz : Arr2 K) (n p t : ℤ) (U : Arr K) (Pw : Arr E) (s : ElevStC K E) : Chk (ElevStC K E) := do
  let m := n + p + 1
  let ph := p + t
  let b ← elevRunC eps m U (m - s.b).toNat s.b
  let mul := b - s.b + 1
  let oldr := s.r
  let r := p - mul
  let ub ← U.get b
  let lbz := if oldr > 0 then (oldr + 2) / 2 else 1
  let rbz := if r > 0 then ph - (r + 1) / 2 else ph
  let alfs ← (if r > 0 then elevAlfsC U p mul s.a s.ua ub s.alfs else .ok s.alfs)
  let bn ← (if r > 0 then elevCutC p mul r alfs (s.bpts, s.nextbpts) else .ok (s.bpts, s.nextbpts))
  let ebpts ← elevPtsC bz p t lbz bn.1 s.ebpts
  let Qe ← elevRemAllC s.Uh s.ua ub ph oldr s.kind s.cind lbz (s.Qw, ebpts)
  let Uk ← (if s.a ≠ p then
      forUpC 0 (ph - oldr - 1) (fun _ (Uk : Arr K × ℤ) => do
        let Uh ← Uk.1.set Uk.2 s.ua
        .ok (Uh, Uk.2 + 1)) (s.Uh, s.kind)
    else .ok (s.Uh, s.kind))
  let Qc ← forUpC lbz rbz (fun j (Qc : Arr E × ℤ) => do
    let e ← Qe.2.get j
    let Qw ← Qc.1.set Qc.2 e
    .ok (Qw, Qc.2 + 1)) (Qe.1, s.cind)
  if b < m then do
    let bp ← fillC bn.1 0 (r - 1) 0 (fun i => bn.2.get i)
    let bp ← fillC bp r p 0 (fun i => Pw.get (b - p + i))
    .ok { a := b, b := b + 1, r := r, kind := Uk.2, cind := Qc.2, ua := ub, Uh := Uk.1, Qw := Qc.1,
          bpts := bp, ebpts := Qe.2, nextbpts := bn.2, alfs := alfs }
  else do
    let Uh ← fillC Uk.1 Uk.2 (Uk.2 + ph) 0 (fun _ => .ok ub)
    .ok { a := s.a, b := b, r := r, kind := Uk.2, cind := Qc.2, ua := s.ua, Uh := Uh, Qw := Qc.1,
          bpts := bn.1, ebpts := Qe.2, nextbpts := bn.2, alfs := alfs }

/-- `DegreeElevate`, igalib.f90:498-651; `U(0:n+p+1)`, `Pw(d,0:n)`, `Uh(0:nh+p+t+1)`, `Qw(d,0:nh)`, local arrays
`bezalfs(0:p+t,0:p)`, `bpts(d,0:p)`, `ebpts(d,0:p+t)`, `nextbpts(d,0:p-2)`, `alfs(0:p-2)` (contents `jb, je, jk`) -/
def degreeElevateC (eps : K) (jk : ℤ → K) (je : ℤ → E) (jb : ℤ → ℤ → K) (n p : ℤ) (U : Arr K) (Pw : Arr E) (t nh : ℤ)
    (Uh : Arr K) (Qw : Arr E) : Chk (Arr K × Arr E) := do
  let U ← U.arg (n + p + 1)
  let Pw ← Pw.arg n
  let Uh ← Uh.arg (nh + p + t + 1)
  let Qw ← Qw.arg nh
  if t < 1 then do
    let Uh ← copyC Uh U
    let Qw ← copyC Qw Pw
    .ok (Uh, Qw)
  else do
    let ph := p + t
    let bz ← elevBezC jb p t
    let ua ← U.get p
    let Uh ← fillC Uh 0 ph 0 (fun _ => .ok ua)
    let P ← Pw.get 0
    let Qw ← Qw.set 0 P
    let bpts ← fillC ⟨0, p, je⟩ 0 p 0 (fun i => Pw.get i)
    let s ← whileC (fun s : ElevStC K E => .ok (decide (s.b < n + p + 1))) (elevStepC eps bz n p t U Pw) (n + p + 1).toNat
      { a := p, b := p + 1, r := -1, kind := ph + 1, cind := 1, ua := ua, Uh := Uh, Qw := Qw, bpts := bpts,
        ebpts := ⟨0, ph, je⟩, nextbpts := ⟨0, p - 2, je⟩, alfs := ⟨0, p - 2, jk⟩ }
    .ok (s.Uh, s.Qw)

end Igakit
