import Verif.Model.Ctor
import Verif.Model.Transform
import Mathlib.Analysis.SpecialFunctions.Complex.Arg

/-!
# Model of /repo/igakit/cad.py: primitives, extrusion, revolution, sweep

`grid` is in `Verif.Model.Ctor`; `compat`, `ruled`, `coons`, `join`, `refine` are in
`Verif.Model.Compat`.  Functions using sine, cosine or square root are over the real numbers.
-/

namespace Igakit

section field
variable {K : Type} [Field K] [LinearOrder K] {d : ℕ}

/-- `x.ravel()` of an array argument with at most one axis (cad.py:43-44) -/
def ArrArg.toList : ArrArg K → List K
  | .scalar x => [x]
  | .vec l => l

/-- array with one axis (cad.py:45) -/
def ndVec (l : List K) : Nd K := { shape := [(l.length : ℤ)], get := fun i => l.getD (i.headD 0).toNat 0 }

/-- the list `[0,0,1,1]` of cad.py:45, 167, 190, 218, 419, 523 -/
def unitKnots : Nd K := ndVec [0, 0, 1, 1]

/-- `cad.line`, cad.py:34-46; assigning more than three numbers to a row of length 3 raises ValueError -/
def Cad.line (p0 p1 : ArrArg K) : Res (Nrb K 1) :=
  let l0 := p0.toList
  let l1 := p1.toList
  if 3 < l0.length ∨ 3 < l1.length then .error .value
  else Nrb.ctor (fun _ => unitKnots)
    (.arr { shape := [2, 3], get := fun i =>
      if i.getD 0 0 = 0 then l0.getD (i.getD 1 0).toNat 0 else l1.getD (i.getD 1 0).toNat 0 }) none none

/-- default points of `linear`, `bilinear`, `trilinear`: coordinate `c < d` is `-1/2` or `1/2`
(cad.py:160-163, 181-186, 208-214); they have two coordinates, or three for `trilinear` -/
def Cad.cornerPoints (d : ℕ) : Nd K :=
  { shape := List.replicate d 2 ++ [max (d : ℤ) 2], get := fun i =>
      let c := (i.getD d 0).toNat
      if c < d then (if i.getD c 0 = 0 then -(1 / 2) else 1 / 2) else 0 }

/-- `cad.linear` (cad.py:154-168), `cad.bilinear` (170-191) and `cad.trilinear` (193-221) are the cases
`d = 1, 2, 3` -/
def Cad.multilinear (d : ℕ) (points : Option (Nd K)) : Res (Nrb K d) := do
  let points ← match points with
    | none => pure (Cad.cornerPoints d)
    | some P => do
      pyAssert (P.shape.dropLast = List.replicate d 2)
      pure P
  Nrb.ctor (fun _ => unitKnots) (.arr points) none none

/-- knot vector of an object as array (cad.py:478, 550) -/
def Nrb.knotNd (N : Nrb K d) (a : Fin d) : Nd K := { shape := [N.len a], get := fun i => N.U a (i.headD 0) }

/-- `nrb.knots + (k,)` (cad.py:419, 523) -/
def Nrb.knotsWith (N : Nrb K d) (k : Nd K) : Fin (d + 1) → Nd K :=
  Fin.snoc (α := fun _ => Nd K) (fun a => N.knotNd a) k

/-- array of shape `nrb.shape + (m, nc)` with entries `F idx j c` (cad.py:416, 477, 520, 548) -/
def Nrb.netWith (N : Nrb K d) (m nc : ℤ) (F : (Fin d → ℤ) → ℤ → ℕ → K) : Nd K :=
  { shape := List.ofFn N.shape ++ [m] ++ [nc]
    get := fun i => F (fun a => i.getD a 0) (i.getD d 0) (i.getD (d + 1) 0).toNat }

/-- `cad.extrude`, cad.py:393-420 (`nrb.control` are the first four components) -/
def Cad.extrude (N : Nrb K d) (displ : ArrArg K) (axis : Option ℤ) : Res (Nrb K (d + 1)) := do
  pyAssert (d ≤ 2)
  let T ← Transform.translate 1 displ axis
  Nrb.ctor (N.knotsWith unitKnots)
    (.arr (N.netWith 2 4 (fun idx j c => if j = 0 then N.P idx c else (N.transform T).P idx c))) none none

/-- `cad.sweep`, cad.py:526-551 -/
def Cad.sweep (S : Nrb K d) (T : Nrb K 1) : Res (Nrb K (d + 1)) := do
  pyAssert (1 ≤ d ∧ d ≤ 2)
  let C := S.netWith (T.shape 0) 3 (fun idx j c =>
    S.P idx c / S.weights idx + T.P ![j] c / T.weights ![j])
  let w : Nd K :=
    { shape := List.ofFn S.shape ++ [T.shape 0]
      get := fun i => S.weights (fun a => i.getD a 0) * T.weights ![i.getD d 0] }
  Nrb.ctor (S.knotsWith (T.knotNd 0)) (.pair (some C) (some w)) none none

end field

/-- argument `angle` of `circle` and `revolve` (cad.py:109-114) -/
inductive AngleArg where
  | none
  | one (a : ℝ)
  | pair (start stop : Option ℝ)

namespace Cad

/-- the quadrants of cad.py:117 -/
noncomputable def quadrants : List ℝ := [0, Real.pi / 2, Real.pi, 3 * Real.pi / 2]

open Classical in
/-- `np.searchsorted(quadrants, abs(sweep))`, cad.py:118: number of entries `< |sweep|` -/
noncomputable def arcSpans (sweep : ℝ) : ℕ := (quadrants.filter (fun q => q < |sweep|)).length

/-- `start, end`, cad.py:109-114 -/
noncomputable def arcEnds : AngleArg → ℝ × ℝ
  | .none => (0, 2 * Real.pi)
  | .one a => (0, a)
  | .pair s e => (s.getD 0, e.getD (2 * Real.pi))

/-- the single segment `Ca`, cad.py:121-131 -/
noncomputable def arcSegment (radius alpha : ℝ) : ℤ → Fin 4 → ℝ := fun j =>
  let x := radius * Real.cos alpha
  let y := radius * Real.sin alpha
  let wm := Real.cos alpha
  let xm := x + y * Real.tan alpha
  if j = 0 then ![x, -y, 0, 1] else if j = 1 then ![wm * xm, 0, 0, wm] else ![x, y, 0, 1]

/-- the net of an arc, cad.py:119-141; `junk` is the uninitialised array -/
noncomputable def arcNet (junk : ℤ → Fin 4 → ℝ) (radius start sweep : ℝ) (spans : ℕ) : Res (ℤ → Fin 4 → ℝ) := do
  let alpha := sweep / (2 * spans)
  let Ca := arcSegment radius alpha
  let R ← Transform.rotate 1 (alpha + start) (.int 2)
  let Cw := fillRange junk 0 2 0 (fun j => Transform.call R (Ca j))
  if spans > 1 then do
    let R ← Transform.rotate 1 (2 * alpha) (.int 2)
    pure (forUp 1 ((spans : ℤ) - 1) (fun i Cw =>
      let n := 2 * i + 1
      let a := Transform.call R (Cw (n - 2))
      let b := Transform.call R (Cw (n - 1))
      upd (upd Cw n a) (n + 1) b) Cw)
  else pure Cw

/-- the nine corner points of cad.py:100-102 -/
def circlePts : List (ℤ × ℤ) := [(1, 0), (1, 1), (0, 1), (-1, 1), (-1, 0), (-1, -1), (0, -1), (1, -1), (1, 0)]

/-- the net of the full circle, cad.py:99-105 -/
noncomputable def circleNet (radius : ℝ) : ℤ → Fin 4 → ℝ := fun j =>
  let q := circlePts.getD j.toNat (0, 0)
  let wm := Real.sqrt 2 / 2
  let f : ℝ := if j % 2 = 1 then wm else 1
  ![q.1 * radius * f, q.2 * radius * f, 0 * f, 1 * f]

/-- the knots of cad.py:147-150: `0`, then each of `linspace(0,1,spans+1)` twice, then `1` -/
noncomputable def circleKnots (spans : ℕ) : ℤ → ℝ := fun j =>
  if j ≤ 0 then 0 else if j ≥ 2 * spans + 3 then 1 else (((j - 1) / 2 : ℤ) : ℝ) / spans

/-- number of spans and net, cad.py:96-141.  With an empty sweep the assignment `Cw[0:3,:] = R(Ca)` to an
array with one row raises ValueError. -/
noncomputable def circleData (junk : ℤ → Fin 4 → ℝ) (radius : ℝ) : AngleArg → Res (ℕ × (ℤ → Fin 4 → ℝ))
  | .none => pure (4, circleNet radius)
  | ang =>
    let start := (arcEnds ang).1
    let sweep := (arcEnds ang).2 - start
    let spans := arcSpans sweep
    if spans = 0 then .error .value
    else do
      let C ← arcNet junk radius start sweep spans
      pure (spans, C)

/-- cad.py:142-145 -/
noncomputable def toCenter (C : ℤ → Fin 4 → ℝ) : Option (ArrArg ℝ) → Res (ℤ → Fin 4 → ℝ)
  | none => pure C
  | some c => do
    let T ← Transform.translate 1 c none
    pure (fun j => Transform.call T (C j))

/-- cad.py:146-152 -/
noncomputable def circleObj (spans : ℕ) (Cw : ℤ → Fin 4 → ℝ) : Res (Nrb ℝ 1) :=
  Nrb.ctor (fun _ => { shape := [2 * ((spans : ℤ) + 1) + 2], get := fun i => circleKnots spans (i.headD 0) })
    (.arr { shape := [2 * (spans : ℤ) + 1, 4], get := fun i =>
      if h : (i.getD 1 0).toNat < 4 then Cw (i.getD 0 0) ⟨(i.getD 1 0).toNat, h⟩ else 0 }) none none

/-- `cad.circle`, cad.py:48-152 -/
noncomputable def circle (junk : ℤ → Fin 4 → ℝ) (radius : ℝ) (center : Option (ArrArg ℝ)) (angle : AngleArg) :
    Res (Nrb ℝ 1) := do
  let sC ← circleData junk radius angle
  let Cw ← toCenter sC.2 center
  circleObj sC.1 Cw

/-- the unit vector of the axis, cad.py:446-458 -/
noncomputable def revAxis : Transform.AxisArg → Res (Fin 3 → ℝ)
  | .int a => do
    let a ← normAxis 3 a
    pure (Pi.single a 1)
  | .vec l => do
    pyAssert (1 ≤ l.length ∧ l.length ≤ 3)
    let v : Fin 3 → ℝ := fun i => l.getD i 0
    pyAssert (Transform.norm3 v > 0)
    pure (fun i => v i / Transform.norm3 v)

/-- `-point`, cad.py:463 -/
def _root_.Igakit.ArrArg.neg : ArrArg ℝ → ArrArg ℝ
  | .scalar x => .scalar (-x)
  | .vec l => .vec (l.map (fun x => -x))

/-- the frame of cad.py:461-463 -/
noncomputable def revFrame (point : ArrArg ℝ) (v : Fin 3 → ℝ) : Res (Mat4 ℝ) := do
  let n := [v 1, -v 0, 0]
  let gamma := Real.arccos (v 2)
  let T ← Transform.translate 1 point.neg none
  Transform.rotate T gamma (.vec n)

open Classical in
/-- `theta`, cad.py:471: `arctan2(Y,X)`, moved to `[0,2*pi)` -/
noncomputable def revTheta (X Y : ℝ) : ℝ :=
  let t := Complex.arg (X + Y * Complex.I)
  if t < 0 then t + 2 * Real.pi else t

/-- the control point made from point `(X,Y,Z,W)` and the arc point `A`, cad.py:484-501:
`dot(A, M.T)` with `M = Rz(theta)*Tz(z)*Sxy(rho)`, then the weight is multiplied by `w` -/
noncomputable def revPoint (X Y Z W : ℝ) (A : ℕ → ℝ) : ℕ → ℝ := fun c =>
  let r := Real.sqrt (X * X + Y * Y)
  let rs := r * Real.sin (revTheta X Y)
  let rc := r * Real.cos (revTheta X Y)
  if c = 0 then A 0 * rc + A 1 * -rs
  else if c = 1 then A 0 * rs + A 1 * rc
  else if c = 2 then A 3 * Z
  else A 3 * W

/-- `cad.revolve`, cad.py:422-504 -/
noncomputable def revolve {d : ℕ} (junk : ℤ → Fin 4 → ℝ) (N : Nrb ℝ d) (point : ArrArg ℝ)
    (axis : Transform.AxisArg) (angle : AngleArg) : Res (Nrb ℝ (d + 1)) := do
  pyAssert (d ≤ 2)
  pyAssert (point.toList.length ≤ 3)
  let v ← revAxis axis
  let T ← revFrame point v
  let N := N.transform T
  let arc ← circle junk 1 none angle
  let R ← Nrb.ctor (N.knotsWith (arc.knotNd 0))
    (.arr (N.netWith (arc.shape 0) 4 (fun idx j c =>
      revPoint (N.P idx 0) (N.P idx 1) (N.P idx 2) (N.P idx 3) (arc.P ![j]) c))) none none
  let Ti ← Transform.inverse T
  pure (R.transform Ti)

end Cad
end Igakit
