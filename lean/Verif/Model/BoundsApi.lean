import Verif.Model.BoundsEval
import Verif.Model.Ctor

/-!
# The calls that Python makes, with the bounds of the Fortran arrays

The wrappers of module `BSp` with the checks of igalib.pyf, and the methods of `NURBS` that call them.  A run ends with a
value, with a Python exception, or with a fault of the Fortran code.  numpy hands over arrays of the declared sizes: knots
`U(0:n+p+1)`, control points `Pw(0:n)`, outputs as declared in igalib.pyf.
-/

namespace Igakit

/-- how a call can fail: a Python exception or a fault of the compiled code
(nurbs.py:776-788: the assertions are Python, the call is compiled) -/
inductive Out where
  | exc (e : Err)
  | fault (f : Fault)
deriving DecidableEq, Repr

/-- a call from Python (for example nurbs.py:771-795) -/
abbrev Run (α : Type) := Except Out α

/-- the call leaves an array (in the routines called at nurbs.py:778, 788, 876, 933, 1004, 1080, 1157, 1334, 1433) -/
def Run.oob {α : Type} : Run α → Bool
  | .error (.fault .oob) => true
  | _ => false

/-- a step in Python (for example nurbs.py:771-782) -/
def py {α : Type} : Res α → Run α
  | .ok a => .ok a
  | .error e => .error (.exc e)

/-- a step in compiled code (for example nurbs.py:788) -/
def ft {α : Type} : Chk α → Run α
  | .ok a => .ok a
  | .error e => .error (.fault e)

variable {K : Type} [Field K] [LinearOrder K]
variable {E : Type} [AddCommGroup E] [Module K E]

namespace BSp

/-- `BSp.FindMult`, igalib.f90:1030-1044, checks igalib.pyf:29-36 -/
def FindMultC (eps : K) (p m : ℤ) (U : Arr K) (uu : K) (span : ℤ := -1) : Run ℤ :=
  if p ≥ 1 ∧ m ≥ 2 * p + 1 then ft (do
    let k ← (if span ≥ 0 then .ok span else findSpanC (m - (p + 1)) p uu U)
    findMultC eps k uu p U)
  else .error (.exc .f2py)

/-- `BSp.EvalBasisFuns`, igalib.f90:1055-1068 -/
def EvalBasisFunsC (jk : ℤ → K) (p m : ℤ) (U : Arr K) (uu : K) (span : ℤ := -1) : Run (Arr K) :=
  if p ≥ 1 ∧ m ≥ 2 * p + 1 then ft (do
    let i ← (if span ≥ 0 then .ok span else findSpanC (m - (p + 1)) p uu U)
    basisFunsC jk i uu p U ⟨0, p, jk⟩)
  else .error (.exc .f2py)

/-- `BSp.EvalBasisFunsDers`, igalib.f90:1070-1083; the result is the Fortran array `dN(0:p,0:d)` -/
def EvalBasisFunsDersC (jk : ℤ → K) (j2 ja jd : ℤ → ℤ → K) (p m : ℤ) (U : Arr K) (uu : K) (d : ℤ) (span : ℤ := -1) :
    Run (Arr2 K) :=
  if p ≥ 1 ∧ m ≥ 2 * p + 1 ∧ (d ≥ 0 ∧ d ≤ p) then ft (do
    let i ← (if span ≥ 0 then .ok span else findSpanC (m - (p + 1)) p uu U)
    dersBasisFunsC jk j2 ja i uu p d U ⟨0, p, 0, d, jd⟩)
  else .error (.exc .f2py)

/-- `BSp.SpanIndex`, igalib.f90:1085-1098 and igalib.pyf:67-73 -/
def SpanIndexC (eps : K) (ji : ℤ → ℤ) (p m : ℤ) (U : Arr K) : Run (List ℤ) :=
  if p ≥ 1 ∧ m ≥ 2 * p + 1 then ft (do
    let r ← countSpansC (m - p - 1) p U
    let st ← spanIndexC eps p m U r ⟨1, r, ji⟩
    .ok ((List.range r.toNat).map (fun i : ℕ => st.2.1.val (1 + i))))
  else .error (.exc .f2py)

/-- `BSp.Greville`, igalib.f90:1100-1109, checks igalib.pyf:75-80 -/
def GrevilleC (jk : ℤ → K) (p m : ℤ) (U : Arr K) : Run (Arr K) :=
  if p ≥ 1 ∧ m ≥ 2 * p + 1 then ft (grevilleC p m U ⟨0, m - (p + 1), jk⟩) else .error (.exc .f2py)

/-- `BSp.InsertKnot`, igalib.f90:1111-1128, checks igalib.pyf:82-95 (the checks read `U[p]` and `U[n+1]`) -/
def InsertKnotC (eps : K) (jk : ℤ → K) (je : ℤ → E) (n p : ℤ) (U : Arr K) (Pw : Arr E) (uu : K) (r : ℤ) :
    Run (Arr K × Arr E) :=
  if n ≥ 1 ∧ p ≥ 1 then do
    let u0 ← ft (U.get p)
    let u1 ← ft (U.get (n + 1))
    if (uu ≥ u0 ∧ uu ≤ u1) ∧ (r ≥ 0 ∧ r ≤ p) then
      if r = 0 then ft (do
        let V ← copyC ⟨0, n + p + 1, jk⟩ U
        let Qw ← copyC ⟨0, n, je⟩ Pw
        .ok (V, Qw))
      else ft (do
        let ks ← findSpanMultC eps n p uu U
        insertKnotC je n p U Pw uu ks.1 ks.2 r ⟨0, n + p + 1 + r, jk⟩ ⟨0, n + r, je⟩)
    else .error (.exc .f2py)
  else .error (.exc .f2py)

/-- `BSp.RemoveKnot`, igalib.f90:1130-1152, checks igalib.pyf:97-112; after `V = U` and `Qw = Pw` the arrays `V`, `Qw` have
the same bounds and contents as `U`, `Pw` and are not told apart here -/
def RemoveKnotC (eps : K) (jt : ℤ → E) (near : E → E → Prop) [DecidableRel near] (n p : ℤ) (U : Arr K) (Pw : Arr E)
    (uu : K) (r : ℤ) : Run (ℤ × Arr K × Arr E) :=
  if n ≥ 1 ∧ p ≥ 1 then do
    let u0 ← ft (U.get p)
    let u1 ← ft (U.get (n + 1))
    if (uu ≥ u0 ∧ uu ≤ u1) ∧ (r ≥ 0 ∧ r ≤ p) then
      if r = 0 then .ok (0, U, Pw)
      else if uu ≤ u0 then .ok (0, U, Pw)
      else if uu ≥ u1 then .ok (0, U, Pw)
      else ft (do
        let ks ← findSpanMultC eps n p uu U
        removeKnotC jt near n p U Pw uu ks.1 ks.2 r)
    else .error (.exc .f2py)
  else .error (.exc .f2py)

/-- `BSp.Clamp`, igalib.f90:1154-1167; `V`, `Qw` as in `RemoveKnotC` -/
def ClampC (eps : K) (je : ℤ → E) (n p : ℤ) (U : Arr K) (Pw : Arr E) (l r : Bool) : Run (Arr K × Arr E) :=
  if n ≥ 1 ∧ p ≥ 1 then ft (clampKnotC eps je n p U Pw l r) else .error (.exc .f2py)

/-- `BSp.Unclamp`, igalib.f90:1169-1184; `V`, `Qw` as in `RemoveKnotC` -/
def UnclampC (eps : K) (je : ℤ → E) (n p : ℤ) (U : Arr K) (Pw : Arr E) (C : ℤ) (l r : Bool) : Run (Arr K × Arr E) :=
  if n ≥ 1 ∧ p ≥ 1 then ft (do
    let UP ← clampKnotC eps je n p U Pw l r
    unclampKnotC n p UP.1 UP.2 C l r)
  else .error (.exc .f2py)

/-- `BSp.RefineKnotVector`, igalib.f90:1186-1198, checks igalib.pyf:141-152 -/
def RefineKnotVectorC (eps : K) (jk : ℤ → K) (je : ℤ → E) (n p : ℤ) (U : Arr K) (Pw : Arr E) (r : ℤ) (X : Arr K) :
    Run (Arr K × Arr E) :=
  if n ≥ 1 ∧ p ≥ 1 ∧ r > -2 then
    ft (refineKnotVectorC eps n p U Pw r X ⟨0, n + r + 1 + p + 1, jk⟩ ⟨0, n + r + 1, je⟩)
  else .error (.exc .f2py)

/-- `BSp.DegreeElevate`, igalib.f90:1200-1212, checks igalib.pyf:154-165: the sizes of the outputs are computed by
`CountSpans` -/
def DegreeElevateC (eps : K) (jk : ℤ → K) (je : ℤ → E) (jb : ℤ → ℤ → K) (n p : ℤ) (U : Arr K) (Pw : Arr E) (t : ℤ) :
    Run (ℤ × Arr K × Arr E) :=
  if n ≥ 1 ∧ p ≥ 1 ∧ t ≥ 0 then ft (do
    let c ← countSpansC n p U
    let VQ ← degreeElevateC eps jk je jb n p U Pw t (n + t * c) ⟨0, n + t * c + p + t + 1, jk⟩ ⟨0, n + t * c, je⟩
    .ok (n + t * c, VQ.1, VQ.2))
  else .error (.exc .f2py)

/-- `BSp.Extract`, igalib.f90:1214-1224 -/
def ExtractC (eps : K) (je : ℤ → E) (n p : ℤ) (U : Arr K) (Pw : Arr E) (x : K) : Run E :=
  if n ≥ 1 ∧ p ≥ 1 then ft (curvePntByCornerCutC eps je n p U Pw x) else .error (.exc .f2py)

end BSp

/-- `IGA.KnotVector` as called from Python, igalib.pyf:455-465 -/
def iga_KnotVectorC (jk : ℤ → K) (E p C : ℤ) (Ui Uf : K) (wrap : Bool) : Run (Arr K) :=
  if E ≥ 1 ∧ p ≥ 1 ∧ (C ≥ 0 ∧ C < p) then
    ft (knotVectorC E p C Ui Uf wrap (knotVectorM E p C) ⟨0, knotVectorM E p C, jk⟩)
  else .error (.exc .f2py)

namespace Nrb
variable {d : ℕ}

/-- the knots of an axis as an array (`U = knots[axis]`, nurbs.py:775) -/
def UA (N : Nrb K d) (a : Fin d) : Arr K := ⟨0, N.len a - 1, N.U a⟩

/-- the rows of the net along an axis as an array (nurbs.py:785-787) -/
def rowA (N : Nrb K (d + 1)) (a : Fin (d + 1)) : Arr ((Fin d → ℤ) → ℕ → K) := ⟨0, N.shape a - 1, N.row a⟩

/-- `NURBS.insert`, nurbs.py:771-795 -/
def insertC (eps : K) (jk : ℤ → K) (je : ℤ → (Fin d → ℤ) → ℕ → K) (N : Nrb K (d + 1)) (axis : ℤ)
    (value : K) (times : Option ℤ) : Run (Nrb K (d + 1)) := do
  let a ← py (normAxis (d + 1) axis)
  let p := N.degree a
  py (pyAssert (N.lo a ≤ value ∧ value ≤ N.hi a))
  let m ← BSp.FindMultC eps p (N.len a - 1) (N.UA a) value
  let mult := min m p
  let times := times.getD (p - mult)
  py (pyAssert (times + mult ≤ p))
  if times = 0 then pure N
  else do
    let VQ ← BSp.InsertKnotC eps jk je (N.n a) p (N.UA a) (N.rowA a) value times
    pure (N.setAxis a (N.shape a + times) (N.len a + times) VQ.1.val VQ.2.val)

/-- `NURBS.clamp`, nurbs.py:917-940 -/
def clampC (eps : K) (je : ℤ → (Fin d → ℤ) → ℕ → K) (N : Nrb K (d + 1)) (axis : ℤ)
    (side : Option ℤ) : Run (Nrb K (d + 1)) := do
  let a ← py (normAxis (d + 1) axis)
  let lr ← py (sideFlags side)
  let VQ ← BSp.ClampC eps je (N.n a) (N.degree a) (N.UA a) (N.rowA a) lr.1 lr.2
  pure (N.setAxis a (N.shape a) (N.len a) VQ.1.val VQ.2.val)

/-- `NURBS.unclamp`, nurbs.py:984-1011 -/
def unclampC (eps : K) (je : ℤ → (Fin d → ℤ) → ℕ → K) (N : Nrb K (d + 1)) (axis : ℤ)
    (side : Option ℤ) (continuity : Option ℤ) : Run (Nrb K (d + 1)) := do
  let a ← py (normAxis (d + 1) axis)
  let lr ← py (sideFlags side)
  let C ← py (contArg (N.degree a) continuity)
  let VQ ← BSp.UnclampC eps je (N.n a) (N.degree a) (N.UA a) (N.rowA a) C lr.1 lr.2
  pure (N.setAxis a (N.shape a) (N.len a) VQ.1.val VQ.2.val)

/-- `NURBS.refine`, nurbs.py:1066-1087 -/
def refineC (eps : K) (jk : ℤ → K) (je : ℤ → (Fin d → ℤ) → ℕ → K) (N : Nrb K (d + 1)) (axis : ℤ)
    (values : List K) : Run (Nrb K (d + 1)) :=
  if values = [] then pure N
  else do
    let a ← py (normAxis (d + 1) axis)
    let u ← py (refineArg (N.degree a) (N.U a) (N.len a) values)
    let VQ ← BSp.RefineKnotVectorC eps jk je (N.n a) (N.degree a) (N.UA a) (N.rowA a)
      (u.length - 1) ⟨0, u.length - 1, ofList u⟩
    pure (N.setAxis a (N.shape a + u.length) (N.len a + u.length) VQ.1.val VQ.2.val)

/-- `NURBS.slice`, nurbs.py:1224-1266 -/
def sliceC (eps : K) (jk : ℤ → K) (je : ℤ → (Fin d → ℤ) → ℕ → K) (N : Nrb K (d + 1)) (axis : ℤ)
    (start stop : Option K) : Run (Nrb K (d + 1)) := do
  let a ← py (normAxis (d + 1) axis)
  let p := N.degree a
  let u0 := start.getD (N.lo a)
  let u1 := stop.getD (N.hi a)
  py (pyAssert (N.lo a ≤ u0))
  py (pyAssert (u1 ≤ N.hi a))
  py (pyAssert (u0 < u1))
  let s0 ← BSp.FindMultC eps p (N.len a - 1) (N.UA a) u0
  let t0 := max 0 (p - s0)
  let s1 ← BSp.FindMultC eps p (N.len a - 1) (N.UA a) u1
  let t1 := max 0 (p - s1)
  let N' ← refineC eps jk je N (a : ℤ) (List.replicate t0.toNat u0 ++ List.replicate t1.toNat u1)
  let V := N'.U a
  let i0 := searchR V (N'.len a) u0 - 1
  let i1 := searchL V (N'.len a) u1
  pure (N'.setAxis a (i1 - (i0 - p)) (p + (i1 + 1 - i0) + p) (sliceKnots p i0 i1 V)
    (fun i => N'.row a (i + (i0 - p))))

/-- `NURBS.extract`, nurbs.py:1321-1341 -/
def extractC (eps : K) (je : ℤ → (Fin d → ℤ) → ℕ → K) (N : Nrb K (d + 1)) (axis : ℤ)
    (value : K) : Run (Nrb K d) := do
  let a ← py (normAxis (d + 1) axis)
  py (pyAssert (N.lo a ≤ value))
  py (pyAssert (value ≤ N.hi a))
  let Cw ← BSp.ExtractC eps je (N.n a) (N.degree a) (N.UA a) (N.rowA a) value
  pure { shape := a.removeNth N.shape, nc := N.nc, len := a.removeNth N.len, U := a.removeNth N.U,
         P := Cw }

/-- `NURBS.boundary`, nurbs.py:1343-1364 -/
def boundaryC (eps : K) (je : ℤ → (Fin d → ℤ) → ℕ → K) (N : Nrb K (d + 1)) (axis : ℤ)
    (side : ℤ) : Run (Nrb K d) := do
  py (pyAssert (side = 0 ∨ side = 1))
  let a ← py (normAxis (d + 1) axis)
  extractC eps je N (a : ℤ) (if side = 0 then N.lo a else N.hi a)

/-- `NURBS.elevate`, nurbs.py:1141-1164 -/
def elevateC (eps : K) (jk : ℤ → K) (je : ℤ → (Fin d → ℤ) → ℕ → K) (jb : ℤ → ℤ → K) (N : Nrb K (d + 1)) (axis : ℤ)
    (times : Option ℤ) : Run (Nrb K (d + 1)) :=
  match times with
  | none => pure N
  | some t => do
    py (pyAssert (t ≥ 0))
    if t = 0 then pure N
    else do
      let a ← py (normAxis (d + 1) axis)
      let oVQ ← BSp.DegreeElevateC eps jk je jb (N.n a) (N.degree a) (N.UA a) (N.rowA a) t
      pure (N.setAxis a (oVQ.1 + 1) (oVQ.1 + (N.degree a + t) + 2) oVQ.2.1.val oVQ.2.2.val)

open Classical in
/-- `NURBS.remove`, nurbs.py:850-885 -/
noncomputable def removeC (eps : ℝ) (jt : ℤ → (Fin d → ℤ) → ℕ → ℝ) (N : Nrb ℝ (d + 1)) (axis : ℤ)
    (value : ℝ) (times : Option ℤ) (deviation : ℝ) : Run (Nrb ℝ (d + 1)) := do
  let a ← py (normAxis (d + 1) axis)
  let p := N.degree a
  py (pyAssert (N.lo a ≤ value ∧ value ≤ N.hi a))
  let m ← BSp.FindMultC eps p (N.len a - 1) (N.UA a) value
  let mult := min m p
  let times := min (times.getD mult) mult
  py (pyAssert (times ≥ 0))
  if times = 0 then pure N
  else if value ≤ N.lo a then pure N
  else if value ≥ N.hi a then pure N
  else do
    let TOL := N.removeTol a deviation
    let tVQ ← BSp.RemoveKnotC eps jt (fun P1 P2 => rowDist (a.removeNth N.shape) N.nc P1 P2 ≤ TOL) (N.n a) p (N.UA a)
      (N.rowA a) value times
    pure (N.setAxis a (N.shape a - tVQ.1) (N.len a - tVQ.1) tVQ.2.1.val tVQ.2.2.val)

/-- `_bsp.EvaluateN` called by `NURBS.__call__`, nurbs.py:1432-1439; `X a` has the entries `0, ..., r a`.  The values that
Python sees are those inside the bounds of the result. -/
def evaluateHC (jk : ℤ → K) (je : ℤ → ℕ → K) :
    {d : ℕ} → Nrb K d → (Fin d → ℤ) → (Fin d → ℤ → K) → Run ((Fin d → ℤ) → ℕ → K)
  | 0, N, _, _ => .ok (fun _ => N.P ![])
  | 1, N, r, X => do
    let C ← ft (evaluate1C jk (N.n 0) (N.degree 0) (N.UA 0) ⟨0, N.shape 0 - 1, fun j => N.P ![j]⟩ (r 0) ⟨0, r 0, X 0⟩
      ⟨0, r 0, je⟩)
    .ok (fun i => C.val (i 0))
  | 2, N, r, X => do
    let C ← ft (evaluate2C jk (N.n 0) (N.degree 0) (N.UA 0) (N.n 1) (N.degree 1) (N.UA 1)
      ⟨0, N.shape 0 - 1, 0, N.shape 1 - 1, fun j k => N.P ![j, k]⟩ (r 0) ⟨0, r 0, X 0⟩ (r 1) ⟨0, r 1, X 1⟩
      ⟨0, r 0, 0, r 1, fun _ => je⟩)
    .ok (fun i => C.val (i 0) (i 1))
  | 3, N, r, X => do
    let C ← ft (evaluate3C jk (N.n 0) (N.degree 0) (N.UA 0) (N.n 1) (N.degree 1) (N.UA 1) (N.n 2) (N.degree 2) (N.UA 2)
      ⟨0, N.shape 0 - 1, 0, N.shape 1 - 1, 0, N.shape 2 - 1, fun j k l => N.P ![j, k, l]⟩ (r 0) ⟨0, r 0, X 0⟩ (r 1)
      ⟨0, r 1, X 1⟩ (r 2) ⟨0, r 2, X 2⟩ ⟨0, r 0, 0, r 1, 0, r 2, fun _ _ => je⟩)
    .ok (fun i => C.val (i 0) (i 1) (i 2))
  | _ + 4, _, _, _ => .error (.exc .index)

/-- `NURBS.__call__`, nurbs.py:1398-1451 -/
def callC (jk : ℤ → K) (je : ℤ → ℕ → K) (N : Nrb K d) (r : Fin d → ℤ) (X : Fin d → ℤ → K) :
    Run ((Fin d → ℤ) → (ℕ → K) × (ℕ → K)) := do
  py (callArg N r X)
  let CwF ← evaluateHC jk je N r X
  pure (fun i => (fun c => CwF i c / CwF i 3, fun c => CwF i (4 + c) / CwF i 3))

/-- `spans(axis)`, nurbs.py:317-328 -/
def spansC (eps : K) (ji : ℤ → ℤ) (N : Nrb K d) (axis : ℤ) : Run (List ℤ) := do
  let a ← py (normAxis d axis)
  BSp.SpanIndexC eps ji (N.degree a) (N.len a - 1) (N.UA a)

/-- `mults=True` of `breaks`, nurbs.py:344-349 -/
def breakMultsC (eps : K) (N : Nrb K d) (axis : ℤ) : Run (List K × List ℤ) := do
  let a ← py (normAxis d axis)
  let p := N.degree a
  let W := slab (N.U a) p (N.len a - p - 1)
  let u := npUnique W
  let s := u.map (fun x => (W.count x : ℤ))
  let m := N.len a - 1
  let n := m - p - 1
  let m0 ← BSp.FindMultC eps p m (N.UA a) (u.headD 0) p
  let s := s.set 0 (min m0 p)
  let m1 ← BSp.FindMultC eps p m (N.UA a) (u.getLastD 0) n
  let s := s.set (s.length - 1) (min m1 p)
  pure (u, s)

/-- `greville(axis)`, nurbs.py:351-363 -/
def grevilleC (jk : ℤ → K) (N : Nrb K d) (axis : ℤ) : Run (Arr K) := do
  let a ← py (normAxis d axis)
  BSp.GrevilleC jk (N.degree a) (N.len a - 1) (N.UA a)

end Nrb
end Igakit
