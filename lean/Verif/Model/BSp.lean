import Verif.Model.BSpline

/-!
# Model of Fortran module `BSp` (/repo/igakit/igalib.f90, lines 1018-1358) and of the argument
checks that igalib.pyf puts in front of it

Same conventions as `Verif.Model.BSpline`.  Shape agreement between arrays (`len(U) = n+p+2`) is a
precondition enforced by f2py and is implicit here because arrays are total functions.
`Pw(d,0:ny,0:nx)` is written `Pw ix iy` (the C order seen from Python).
-/

namespace Igakit

/-- exceptions raised to the Python caller
(the checks of igalib.pyf:22-177 (f2py), the `assert`s of nurbs.py:168-239, `range(self.dim)[axis]` of nurbs.py:771 (index), the arithmetic of numpy as in nurbs.py:1067 (value) and `stop` of igalib.f90:1600) -/
inductive Err where
  | f2py        -- a `check(...)` of igalib.pyf failed
  | assertion   -- a Python `assert` failed
  | index       -- IndexError
  | value       -- ValueError and other errors raised by numpy or by int()/float()
  | stop        -- Fortran `stop`
deriving DecidableEq, Repr

/-- result of a call: a value or one of the exceptions above (igalib.pyf:22-177, nurbs.py:168-239) -/
abbrev Res (α : Type*) := Except Err α

variable {K : Type*} [Field K] [LinearOrder K]
variable {E : Type*} [AddCommGroup E] [Module K E]

namespace BSp

/-- `BSp.FindSpan`, igalib.f90:1021-1028; check `p>=1`, `m>=2*p+1` (igalib.pyf:21-27) -/
def FindSpan (p m : ℤ) (U : ℤ → K) (uu : K) : Res ℤ :=
  if p ≥ 1 ∧ m ≥ 2 * p + 1 then .ok (findSpan (m - (p + 1)) p uu U) else .error .f2py

/-- `BSp.FindMult`, igalib.f90:1030-1044 (`span` defaults to -1 in igalib.pyf) -/
def FindMult (eps : K) (p m : ℤ) (U : ℤ → K) (uu : K) (span : ℤ := -1) : Res ℤ :=
  if p ≥ 1 ∧ m ≥ 2 * p + 1 then
    .ok (findMult eps (if span ≥ 0 then span else findSpan (m - (p + 1)) p uu U) uu p U)
  else .error .f2py

/-- `BSp.EvalBasisFuns`, igalib.f90:1055-1068 -/
def EvalBasisFuns (jk : ℤ → K) (p m : ℤ) (U : ℤ → K) (uu : K) (span : ℤ := -1) : Res (ℤ → K) :=
  if p ≥ 1 ∧ m ≥ 2 * p + 1 then
    .ok (basisFuns jk (if span ≥ 0 then span else findSpan (m - (p + 1)) p uu U) uu p U)
  else .error .f2py

/-- `BSp.InsertKnot`, igalib.f90:1111-1128, checks igalib.pyf:82-95 -/
def InsertKnot (eps : K) (jk : ℤ → K) (je : ℤ → E) (n p : ℤ) (U : ℤ → K) (Pw : ℤ → E) (uu : K)
    (r : ℤ) : Res ((ℤ → K) × (ℤ → E)) :=
  if n ≥ 1 ∧ p ≥ 1 ∧ (uu ≥ U p ∧ uu ≤ U (n + 1)) ∧ (r ≥ 0 ∧ r ≤ p) then
    if r = 0 then .ok (fillRange jk 0 (n + p + 1) 0 U, fillRange je 0 n 0 Pw)
    else
      let k := findSpan n p uu U
      let s := findMult eps k uu p U
      .ok (insertKnot jk je n p U Pw uu k s r)
  else .error .f2py

/-- `BSp.Clamp`, igalib.f90:1154-1167 -/
def Clamp (eps : K) (je : ℤ → E) (n p : ℤ) (U : ℤ → K) (Pw : ℤ → E) (l r : Bool) :
    Res ((ℤ → K) × (ℤ → E)) :=
  if n ≥ 1 ∧ p ≥ 1 then .ok (clampKnot eps je n p U Pw l r) else .error .f2py

/-- `BSp.Unclamp`, igalib.f90:1169-1184 (clamps first, then unclamps) -/
def Unclamp (eps : K) (je : ℤ → E) (n p : ℤ) (U : ℤ → K) (Pw : ℤ → E) (C : ℤ) (l r : Bool) :
    Res ((ℤ → K) × (ℤ → E)) :=
  if n ≥ 1 ∧ p ≥ 1 then
    let UP := clampKnot eps je n p U Pw l r
    .ok (unclampKnot n p UP.1 UP.2 C l r)
  else .error .f2py

/-- `BSp.RefineKnotVector`, igalib.f90:1186-1198; `r+1` values `X(0:r)` -/
def RefineKnotVector (eps : K) (jk : ℤ → K) (je : ℤ → E) (n p : ℤ) (U : ℤ → K) (Pw : ℤ → E)
    (r : ℤ) (X : ℤ → K) : Res ((ℤ → K) × (ℤ → E)) :=
  if n ≥ 1 ∧ p ≥ 1 ∧ r > -2 then .ok (refineKnotVector eps jk je n p U Pw r X) else .error .f2py

/-- `BSp.Extract`, igalib.f90:1214-1224 -/
def Extract (eps : K) (je : ℤ → E) (n p : ℤ) (U : ℤ → K) (Pw : ℤ → E) (x : K) : Res E :=
  if n ≥ 1 ∧ p ≥ 1 then .ok (curvePntByCornerCut eps je n p U Pw x) else .error .f2py

/-- `BSp.Evaluate1`, igalib.f90:1233-1258 -/
def evaluate1 (jk : ℤ → K) (je : ℤ → E) (n p : ℤ) (U : ℤ → K) (Pw : ℤ → E) (r : ℤ) (X : ℤ → K) :
    ℤ → E :=
  forUp 0 r (fun i Cw =>
    let span := findSpan n p (X i) U
    let basis := basisFuns jk span (X i) p U
    let C := forUp 0 p (fun j C => C + basis j • Pw (span - p + j)) 0
    upd Cw i C) je

/-- the loops `do ix = 0, rx; spanx(ix) = ...; basisx(:,ix) = ...` of `Evaluate2/3`,
igalib.f90:1277-1280; returns `(span, basis)` with `basis ix j` for `basisx(j,ix)` -/
def axisTables (jk : ℤ → K) (n p : ℤ) (U : ℤ → K) (r : ℤ) (X : ℤ → K) :
    (ℤ → ℤ) × (ℤ → ℤ → K) :=
  forUp 0 r (fun ix (t : (ℤ → ℤ) × (ℤ → ℤ → K)) =>
    let span := upd t.1 ix (findSpan n p (X ix) U)
    (span, upd t.2 ix (basisFuns jk (span ix) (X ix) p U))) (fun _ => 0, fun _ => jk)

/-- array assignment to a two dimensional array (`N(:,:,iq,ir) = ...` and similar, igalib.f90:2497) -/
def upd2 {α : Type*} (A : ℤ → ℤ → α) (i j : ℤ) (v : α) : ℤ → ℤ → α := upd A i (upd (A i) j v)

/-- array assignment to a three dimensional array (`Cw(:,iy,ix) = C` and similar, igalib.f90:1298) -/
def upd3 {α : Type*} (A : ℤ → ℤ → ℤ → α) (i j k : ℤ) (v : α) : ℤ → ℤ → ℤ → α :=
  upd A i (upd2 (A i) j k v)

/-- `BSp.Evaluate2`, igalib.f90:1260-1303 -/
def evaluate2 (jk : ℤ → K) (je : ℤ → ℤ → E) (nx px : ℤ) (Ux : ℤ → K) (ny py : ℤ) (Uy : ℤ → K)
    (Pw : ℤ → ℤ → E) (rx : ℤ) (X : ℤ → K) (ry : ℤ) (Y : ℤ → K) : ℤ → ℤ → E :=
  let tx := axisTables jk nx px Ux rx X
  let ty := axisTables jk ny py Uy ry Y
  forUp 0 rx (fun ix Cw =>
    let ox := tx.1 ix - px
    forUp 0 ry (fun iy Cw =>
      let oy := ty.1 iy - py
      let C := forUp 0 px (fun jx C =>
        forUp 0 py (fun jy C =>
          let M := tx.2 ix jx * ty.2 iy jy
          C + M • Pw (ox + jx) (oy + jy)) C) 0
      upd2 Cw ix iy C) Cw) je

/-- `BSp.Evaluate3`, igalib.f90:1305-1358 -/
def evaluate3 (jk : ℤ → K) (je : ℤ → ℤ → ℤ → E) (nx px : ℤ) (Ux : ℤ → K) (ny py : ℤ) (Uy : ℤ → K)
    (nz pz : ℤ) (Uz : ℤ → K) (Pw : ℤ → ℤ → ℤ → E) (rx : ℤ) (X : ℤ → K) (ry : ℤ) (Y : ℤ → K)
    (rz : ℤ) (Z : ℤ → K) : ℤ → ℤ → ℤ → E :=
  let tx := axisTables jk nx px Ux rx X
  let ty := axisTables jk ny py Uy ry Y
  let tz := axisTables jk nz pz Uz rz Z
  forUp 0 rx (fun ix Cw =>
    let ox := tx.1 ix - px
    forUp 0 ry (fun iy Cw =>
      let oy := ty.1 iy - py
      forUp 0 rz (fun iz Cw =>
        let oz := tz.1 iz - pz
        let C := forUp 0 px (fun jx C =>
          forUp 0 py (fun jy C =>
            forUp 0 pz (fun jz C =>
              let M := tx.2 ix jx * ty.2 iy jy * tz.2 iz jz
              C + M • Pw (ox + jx) (oy + jy) (oz + jz)) C) C) 0
        upd3 Cw ix iy iz C) Cw) Cw) je

end BSp
end Igakit
