import Verif.Model.FloatRefine

/-!
# Sections, parts and clamping in floating point arithmetic

`CurvePntByCornerCut`, `ClampKnot` and the methods `extract`, `boundary`, `slice`, `clamp`, with the conventions of
`Verif.Model.Float`: knots and parameters are numbers of the machine and are only compared and copied, every operation on control
points is rounded, `none` is an infinity or NaN.
-/

namespace Igakit
namespace Fp

variable {K : Type} [Field K] [LinearOrder K] (rd : K → K)

/-- the common tail of `CurvePntByCornerCut`, igalib.f90:214-224 -/
def cornerCutTail {ι : Type} (je : ℤ → ι → Fp K) (p : ℤ) (U : ℤ → K) (Pw : ℤ → ι → K) (uu : K) (k s : ℤ) : ι → Fp K :=
  let r := p - s
  let Rw := forUp 0 r (fun i Rw => upd Rw i (fun c => some (Pw (k - p + i) c))) je
  let Rw := forUp 1 r (fun j Rw => cutPass rd U uu k (k - p + j) (r - j) Rw) Rw
  Rw 0

/-- `CurvePntByCornerCut`, igalib.f90:179-225 -/
def curvePntByCornerCut {ι : Type} (eps : K) (je : ℤ → ι → Fp K) (n p : ℤ) (U : ℤ → K) (Pw : ℤ → ι → K) (x : K) : ι → Fp K :=
  if x ≤ U p then
    let uu := U p
    let s := findMult rd eps p uu p U
    if s ≥ p then fun c => some (Pw 0 c) else cornerCutTail rd je p U Pw uu p s
  else if x ≥ U (n + 1) then
    let uu := U (n + 1)
    let s := findMult rd eps n uu p U
    if s ≥ p then fun c => some (Pw n c) else cornerCutTail rd je p U Pw uu (n + 1) s
  else
    let uu := x
    let k := findSpan n p uu U
    let s := findMult rd eps k uu p U
    if s ≥ p then fun c => some (Pw (k - p) c) else cornerCutTail rd je p U Pw uu k s

/-- `BSp.Extract`, igalib.f90:1214-1224, checks igalib.pyf:167-176 -/
def Extract {ι : Type} (eps : K) (je : ℤ → ι → Fp K) (n p : ℤ) (U : ℤ → K) (Pw : ℤ → ι → K) (x : K) : Res (ι → Fp K) :=
  if n ≥ 1 ∧ p ≥ 1 then .ok (curvePntByCornerCut rd eps je n p U Pw x) else .error .f2py

/-- `KntIns` inside `ClampKnot`, igalib.f90:381-408 -/
def kntIns {ι : Type} (je : ℤ → ι → Fp K) (n p : ℤ) (U : ℤ → K) (Pw : ℤ → ι → Fp K) (uu : K) (k r : ℤ) : ℤ → ι → Fp K :=
  let Qw := upd je 0 (Pw (k - p))
  let Rw := fillRange je 0 r 0 (fun i => Pw (k - p + i))
  let RQ := forUp 1 r (fun j (RQ : (ℤ → ι → Fp K) × (ℤ → ι → Fp K)) =>
    let idx := k - p + j
    let Rw := cutPass rd U uu k idx (r - j) RQ.1
    let Qw := upd RQ.2 j (Rw 0)
    let Qw := upd Qw (r + r - j) (Rw (r - j))
    (Rw, Qw)) (Rw, Qw)
  if k = p then fillRange Pw 0 (r - 1) 0 (fun i => RQ.2 (r + i))
  else fillRange Pw (n - r + 1) n 0 (fun i => RQ.2 (i - (n - r)))

/-- left half of `ClampKnot`, igalib.f90:367-373; returns `(U, Pw)` -/
def clampLeft {ι : Type} (eps : K) (je : ℤ → ι → Fp K) (n p : ℤ) (U : ℤ → K) (Pw : ℤ → ι → Fp K) : (ℤ → K) × (ℤ → ι → Fp K) :=
  let uu := U p
  let s := findMult rd eps p uu p U
  let Pw := if s < p then kntIns rd je n p U Pw uu p (p - s) else Pw
  (fillRange U 0 (p - 1) 0 (fun _ => U p), Pw)

/-- right half of `ClampKnot`, igalib.f90:374-380; returns `(U, Pw)` -/
def clampRight {ι : Type} (eps : K) (je : ℤ → ι → Fp K) (n p : ℤ) (U : ℤ → K) (Pw : ℤ → ι → Fp K) : (ℤ → K) × (ℤ → ι → Fp K) :=
  let uu := U (n + 1)
  let s := findMult rd eps n uu p U
  let Pw := if s < p then kntIns rd je n p U Pw uu (n + s) (p - s) else Pw
  (fillRange U (n + 2) (n + p + 1) 0 (fun _ => U (n + 1)), Pw)

/-- `ClampKnot`, igalib.f90:358-409 -/
def clampKnot {ι : Type} (eps : K) (je : ℤ → ι → Fp K) (n p : ℤ) (U : ℤ → K) (Pw : ℤ → ι → K) (l r : Bool) :
    (ℤ → K) × (ℤ → ι → Fp K) :=
  let P0 : ℤ → ι → Fp K := fun i c => some (Pw i c)
  let UP := if l then clampLeft rd eps je n p U P0 else (U, P0)
  if r then clampRight rd eps je n p UP.1 UP.2 else UP

/-- `BSp.Clamp`, igalib.f90:1154-1167, checks igalib.pyf:114-125 -/
def Clamp {ι : Type} (eps : K) (je : ℤ → ι → Fp K) (n p : ℤ) (U : ℤ → K) (Pw : ℤ → ι → K) (l r : Bool) :
    Res ((ℤ → K) × (ℤ → ι → Fp K)) :=
  if n ≥ 1 ∧ p ≥ 1 then .ok (clampKnot rd eps je n p U Pw l r) else .error .f2py

end Fp

/-- new knots and a window of the rows of axis `a` beginning with row `off`: `array[..., off:off+shape, ...]` with the other indices
kept (nurbs.py:1253-1261) -/
def FNrb.window {K : Type} {d : ℕ} (F : FNrb K d) (a : Fin d) (shape len : ℤ) (V : ℤ → K) (off : ℤ) : FNrb K d where
  shape := Function.update F.shape a shape
  nc := F.nc
  len := Function.update F.len a len
  U := Function.update F.U a V
  P := fun idx => F.P (Function.update idx a (idx a + off))

namespace Nrb

variable {K : Type} [Field K] [LinearOrder K] {d : ℕ} (rd : K → K)

/-- `NURBS.clamp`, nurbs.py:917-940 -/
def clampF (eps : K) (je : ℤ → (Fin d → ℤ) × ℕ → Fp K) (N : Nrb K (d + 1)) (axis : ℤ) (side : Option ℤ) :
    Res (FNrb K (d + 1)) := do
  let a ← normAxis (d + 1) axis
  let lr ← sideFlags side
  let VQ ← Fp.Clamp rd eps je (N.n a) (N.degree a) (N.U a) (fun i c => N.row a i c.1 c.2) lr.1 lr.2
  pure (N.setAxisF a (N.shape a) (N.len a) VQ.1 VQ.2)

/-- `NURBS.slice`, nurbs.py:1224-1266 -/
def sliceF (eps : K) (jk : ℤ → K) (je : ℤ → (Fin d → ℤ) × ℕ → Fp K) (N : Nrb K (d + 1)) (axis : ℤ) (start stop : Option K) :
    Res (FNrb K (d + 1)) := do
  let a ← normAxis (d + 1) axis
  let p := N.degree a
  let U := N.U a
  let u0 := start.getD (N.lo a)
  let u1 := stop.getD (N.hi a)
  pyAssert (N.lo a ≤ u0)
  pyAssert (u1 ≤ N.hi a)
  pyAssert (u0 < u1)
  let s0 ← Fp.FindMult rd eps p (N.len a - 1) U u0
  let t0 := max 0 (p - s0)
  let s1 ← Fp.FindMult rd eps p (N.len a - 1) U u1
  let t1 := max 0 (p - s1)
  let F ← refineF rd eps jk je N (a : ℤ) (List.replicate t0.toNat u0 ++ List.replicate t1.toNat u1)
  let V := F.U a
  let i0 := searchR V (F.len a) u0 - 1
  let i1 := searchL V (F.len a) u1
  pure (F.window a (i1 - (i0 - p)) (p + (i1 + 1 - i0) + p) (sliceKnots p i0 i1 V) (i0 - p))

/-- `NURBS.extract`, nurbs.py:1319-1341 -/
def extractF (eps : K) (je : ℤ → (Fin d → ℤ) × ℕ → Fp K) (N : Nrb K (d + 1)) (axis : ℤ) (value : K) : Res (FNrb K d) := do
  let a ← normAxis (d + 1) axis
  pyAssert (N.lo a ≤ value)
  pyAssert (value ≤ N.hi a)
  let Cw ← Fp.Extract rd eps je (N.n a) (N.degree a) (N.U a) (fun i c => N.row a i c.1 c.2) value
  pure { shape := a.removeNth N.shape, nc := N.nc, len := a.removeNth N.len, U := a.removeNth N.U, P := fun idx c => Cw (idx, c) }

/-- `NURBS.boundary`, nurbs.py:1343-1364 -/
def boundaryF (eps : K) (je : ℤ → (Fin d → ℤ) × ℕ → Fp K) (N : Nrb K (d + 1)) (axis : ℤ) (side : ℤ) : Res (FNrb K d) := do
  pyAssert (side = 0 ∨ side = 1)
  let a ← normAxis (d + 1) axis
  extractF rd eps je N (a : ℤ) (if side = 0 then N.lo a else N.hi a)

end Nrb
end Igakit
