import Verif.Model.Float

/-!
# `RefineKnotVector` in floating point arithmetic

Same conventions as in `Verif.Model.Float`: knots and parameters are numbers that exist in the machine, every operation is rounded,
`none` is an infinity or NaN.  The knots are only copied; the control points are combined.
-/

namespace Igakit
namespace Fp

variable {K : Type} [Field K] [LinearOrder K] (rd : K → K)

/-- body of `do l = 1, p`, igalib.f90:483-492 -/
def refineInner {ι : Type} (eps : K) (p : ℤ) (U : ℤ → K) (x : K) (i k : ℤ) (Ubar : ℤ → K) (Qw : ℤ → ι → Fp K) :
    ℤ → ι → Fp K :=
  forUp 1 p (fun l Qw =>
    let idx := k - p + l
    let alpha := rd (Ubar (k + l) - x)
    if |alpha| < eps then upd Qw (idx - 1) (Qw idx)
    else
      let alpha := div rd (some alpha) (sub rd (some (Ubar (k + l))) (some (U (i - p + l))))
      upd Qw (idx - 1) (fun c =>
        add rd (mul rd alpha (Qw (idx - 1) c)) (mul rd (sub rd (some 1) alpha) (Qw idx c)))) Qw

/-- body of `do j = r, 0, -1`, igalib.f90:475-495; the loop `do while` (igalib.f90:476-481) only copies and is the function
`refineWhile` of the exact model -/
def refineOuter {ι : Type} (eps : K) (p : ℤ) (U : ℤ → K) (Pw : ℤ → ι → K) (X : ℤ → K) (a : ℤ) (j : ℤ)
    (s : RefineSt K (ι → Fp K)) : RefineSt K (ι → Fp K) :=
  let s := refineWhile p U (fun i c => some (Pw i c)) (X j) a (s.i - a).toNat s
  let Qw := upd s.Qw (s.k - p - 1) (s.Qw (s.k - p))
  let Qw := refineInner rd eps p U (X j) s.i s.k s.Ubar Qw
  { i := s.i, k := s.k - 1, Ubar := upd s.Ubar s.k (X j), Qw := Qw }

/-- `RefineKnotVector`, igalib.f90:446-496 -/
def refineKnotVector {ι : Type} (eps : K) (jk : ℤ → K) (je : ℤ → ι → Fp K) (n p : ℤ) (U : ℤ → K) (Pw : ℤ → ι → K)
    (r : ℤ) (X : ℤ → K) : (ℤ → K) × (ℤ → ι → Fp K) :=
  if r < 0 then (fillRange jk 0 (n + p + 1) 0 U, fillRange je 0 n 0 (fun j c => some (Pw j c)))
  else
    let m := n + p + 1
    let a := findSpan n p (X 0) U
    let b := findSpan n p (X r) U + 1
    let Qw := fillRange je 0 (a - p) 0 (fun j c => some (Pw j c))
    let Qw := fillRange Qw (b - 1) n (r + 1) (fun j c => some (Pw j c))
    let Ubar := fillRange jk 0 a 0 (fun j => U j)
    let Ubar := fillRange Ubar (b + p) m (r + 1) (fun j => U j)
    let s := forDown r 0 (refineOuter rd eps p U Pw X a)
      { i := b + p - 1, k := b + p + r, Ubar := Ubar, Qw := Qw }
    (s.Ubar, s.Qw)

/-- `BSp.RefineKnotVector`, igalib.f90:1186-1198, checks igalib.pyf:143-154; `r+1` values `X(0:r)` -/
def RefineKnotVector {ι : Type} (eps : K) (jk : ℤ → K) (je : ℤ → ι → Fp K) (n p : ℤ) (U : ℤ → K) (Pw : ℤ → ι → K)
    (r : ℤ) (X : ℤ → K) : Res ((ℤ → K) × (ℤ → ι → Fp K)) :=
  if n ≥ 1 ∧ p ≥ 1 ∧ r > -2 then .ok (refineKnotVector rd eps jk je n p U Pw r X) else .error .f2py

/-- `BSp.FindMult`, igalib.f90:1030-1044, without the argument `span` -/
def FindMult (eps : K) (p m : ℤ) (U : ℤ → K) (uu : K) : Res ℤ :=
  if p ≥ 1 ∧ m ≥ 2 * p + 1 then .ok (findMult rd eps (findSpan (m - (p + 1)) p uu U) uu p U) else .error .f2py

end Fp

/-- state of a NURBS object (nurbs.py:241-242) in which control points may have become infinite or NaN -/
structure FNrb (K : Type) (d : ℕ) where
  shape : Fin d → ℤ
  nc : ℕ
  len : Fin d → ℤ
  U : Fin d → ℤ → K
  P : (Fin d → ℤ) → ℕ → Fp K

namespace Nrb

variable {K : Type} [Field K] [LinearOrder K] {d : ℕ} (rd : K → K)

/-- an object whose control points are numbers (the arguments of nurbs.py:1080) -/
def toF (N : Nrb K d) : FNrb K d := ⟨N.shape, N.nc, N.len, N.U, fun idx c => some (N.P idx c)⟩

/-- `setAxis`: new knots and rows on axis `a`; the remaining indices and the component are one index of the row
(`reshape((shape[0], -1))`) (nurbs.py:1077-1087) -/
def setAxisF (N : Nrb K (d + 1)) (a : Fin (d + 1)) (shape len : ℤ) (V : ℤ → K) (Q : ℤ → (Fin d → ℤ) × ℕ → Fp K) : FNrb K (d + 1) where
  shape := Function.update N.shape a shape
  nc := N.nc
  len := Function.update N.len a len
  U := Function.update N.U a V
  P := fun idx c => Q (idx a) (a.removeNth idx, c)

/-- `NURBS.insert`, nurbs.py:768-795; the checks are comparisons of numbers of the machine -/
def insertF (eps : K) (jk : ℤ → K) (je : ℤ → (Fin d → ℤ) × ℕ → Fp K) (N : Nrb K (d + 1)) (axis : ℤ)
    (value : K) (times : Option ℤ) : Res (FNrb K (d + 1)) := do
  let a ← normAxis (d + 1) axis
  let p := N.degree a
  let U := N.U a
  pyAssert (N.lo a ≤ value ∧ value ≤ N.hi a)
  let m ← Fp.FindMult rd eps p (N.len a - 1) U value
  let mult := min m p
  let times := times.getD (p - mult)
  pyAssert (times + mult ≤ p)
  if times = 0 then pure N.toF
  else do
    let VQ ← Fp.InsertKnot rd eps jk je (N.n a) p U (fun i c => N.row a i c.1 c.2) value times
    pure (N.setAxisF a (N.shape a + times) (N.len a + times) VQ.1 VQ.2)

/-- `NURBS.refine`, nurbs.py:1066-1087 (`values = None` behaves as the empty list); `refineArg` sorts and compares and is the
function of the exact model -/
def refineF (eps : K) (jk : ℤ → K) (je : ℤ → (Fin d → ℤ) × ℕ → Fp K) (N : Nrb K (d + 1)) (axis : ℤ)
    (values : List K) : Res (FNrb K (d + 1)) :=
  if values = [] then pure N.toF
  else do
    let a ← normAxis (d + 1) axis
    let u ← refineArg (N.degree a) (N.U a) (N.len a) values
    let VQ ← Fp.RefineKnotVector rd eps jk je (N.n a) (N.degree a) (N.U a) (fun i c => N.row a i c.1 c.2)
      (u.length - 1) (ofList u)
    pure (N.setAxisF a (N.shape a + u.length) (N.len a + u.length) VQ.1 VQ.2)

end Nrb
end Igakit
