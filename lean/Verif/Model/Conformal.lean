import Verif.Model.Quad
import Verif.Model.Nurbs
import Mathlib.Algebra.BigOperators.Group.Finset.Basic
import Mathlib.Analysis.Real.Sqrt
import Mathlib.LinearAlgebra.Matrix.NonsingularInverse

/-!
# Model of `demo/conformal.py`: `ConformalProjectionError` and `QuasiConformalProjection`

The loops over elements and quadrature points are finite sums; the local arrays `N`, `dNu`, `dNv`, `Wl`, `R`, `dRu`, `dRv` are
functions of the local numbers `i, j`.
-/

namespace Igakit

section
variable {K : Type} [Field K]

/-- `(outer(Nu[eu,qu,:,l],Nv[ev,qv,:,m]) * F).sum()` for a local array `F`; demo/conformal.py:39-45 -/
def Conf.total (Bu Bv : QuadData K) (pu pv : ℕ) (eu ev qu qv l m : ℕ) (F : ℕ → ℕ → K) : K :=
  ∑ i ∈ Finset.range (pu + 1), ∑ j ∈ Finset.range (pv + 1), Bu.N eu qu i l * Bv.N ev qv j m * F i j

/-- `dRu` (`l, m = 1, 0`) and `dRv` (`l, m = 0, 1`); demo/conformal.py:43-49 -/
def Conf.dR (Bu Bv : QuadData K) (pu pv : ℕ) (W : ℤ → ℤ → K) (eu ev qu qv l m : ℕ) (i j : ℕ) : K :=
  let Wl := fun i j : ℕ => W (Bu.O eu + i) (Bv.O ev + j)
  let w := Conf.total Bu Bv pu pv eu ev qu qv 0 0 Wl
  let dw := Conf.total Bu Bv pu pv eu ev qu qv l m Wl
  let R := Bu.N eu qu i 0 * Bv.N ev qv j 0 * Wl i j / w
  (-R * dw + Bu.N eu qu i l * Bv.N ev qv j m * Wl i j) / w

/-- `(srf.control[Lu:Ru,Lv:Rv,c]*dR).sum()`; demo/conformal.py:51-54 -/
def Conf.dX (Bu Bv : QuadData K) (pu pv : ℕ) (C : ℤ → ℤ → ℕ → K) (eu ev qu qv l m c : ℕ) : K :=
  ∑ i ∈ Finset.range (pu + 1), ∑ j ∈ Finset.range (pv + 1),
    C (Bu.O eu + i) (Bv.O ev + j) c * Conf.dR Bu Bv pu pv (fun i j => C i j 3) eu ev qu qv l m i j

/-- `error` before the square root; demo/conformal.py:28-57.  `C` is `srf.control`, whose last component (3) is `W`; the weight is
`Ju[eu]*Ju[eu]*Wu[qu]*Wv[qv]` as in the source. -/
def Conf.error (Bu Bv : QuadData K) (pu pv : ℕ) (C : ℤ → ℤ → ℕ → K) : K :=
  ∑ eu ∈ Finset.range Bu.r.toNat, ∑ ev ∈ Finset.range Bv.r.toNat,
    ∑ qu ∈ Finset.range (pu + 1), ∑ qv ∈ Finset.range (pv + 1),
      let dXdu := Conf.dX Bu Bv pu pv C eu ev qu qv 1 0 0
      let dXdv := Conf.dX Bu Bv pu pv C eu ev qu qv 0 1 0
      let dYdu := Conf.dX Bu Bv pu pv C eu ev qu qv 1 0 1
      let dYdv := Conf.dX Bu Bv pu pv C eu ev qu qv 0 1 1
      let wgt := Bu.J eu * Bu.J eu * Bu.W qu * Bv.W qv
      ((dXdu - dYdv) ^ 2 + (dXdv + dYdu) ^ 2) * wgt

end

/-- `ConformalProjectionError(srf)`; demo/conformal.py:6-59.  The quadrature data has the default numbers of derivatives (the degree)
and points (one more than the degree); `jo, jk, j2, ja, jd` are the unset arrays of the two calls of `BasisData`. -/
noncomputable def conformalProjectionError (eps : ℝ) (jo : Fin 2 → ℤ → ℤ) (jk : Fin 2 → ℤ → ℝ) (j2 ja jd : Fin 2 → ℤ → ℤ → ℝ)
    (srf : Nrb ℝ 2) : Res ℝ := do
  let Bu ← BasisData eps (jo 0) (jk 0) (j2 0) (ja 0) (jd 0) (srf.degree 0) (srf.len 0 - 1) (srf.U 0) none none
  let Bv ← BasisData eps (jo 1) (jk 1) (j2 1) (ja 1) (jd 1) (srf.degree 1) (srf.len 1 - 1) (srf.U 1) none none
  pure (Real.sqrt (Conf.error Bu Bv (srf.degree 0).toNat (srf.degree 1).toNat fun i j c => srf.P ![i, j] c))

/-! ## `QuasiConformalProjection` -/

section
variable {K : Type} [Field K]

/-- `ind`: the number of the local function `i, j`; demo/conformal.py:119-121 -/
def Conf.ind (Bu Bv : QuadData K) (s0 : ℤ) (eu ev i j : ℕ) : ℤ := (Bv.O ev + j) * s0 + (Bu.O eu + i)

/-- what one quadrature point and one pair of local functions `α`, `β` add to entry `r, c` of `M`; demo/conformal.py:115-126.
The numbers `ind` of the local functions are different, so that the indexed additions of numpy add every pair once. -/
def Conf.entry (Bu Bv : QuadData K) (pu pv : ℕ) (W : ℤ → ℤ → K) (s0 shift : ℤ) (eu ev qu qv : ℕ) (α β : ℕ × ℕ) (r c : ℤ) : K :=
  let dRu := fun x : ℕ × ℕ => Conf.dR Bu Bv pu pv W eu ev qu qv 1 0 x.1 x.2
  let dRv := fun x : ℕ × ℕ => Conf.dR Bu Bv pu pv W eu ev qu qv 0 1 x.1 x.2
  let wgt := Bu.J eu * Bu.J eu * Bu.W qu * Bv.W qv
  let m00 := (dRu α * dRu β + dRv α * dRv β) * wgt
  let m01 := (-(dRu α * dRv β) + dRv α * dRu β) * wgt
  let ia := Conf.ind Bu Bv s0 eu ev α.1 α.2
  let ib := Conf.ind Bu Bv s0 eu ev β.1 β.2
  (if r = ia ∧ c = ib then m00 else 0) - (if r = shift + ia ∧ c = ib then m01 else 0) +
    (if r = ia ∧ c = shift + ib then m01 else 0) + if r = shift + ia ∧ c = shift + ib then m00 else 0

/-- `M` after the loops over elements and quadrature points; demo/conformal.py:85-126.  The loops are sums over tuples. -/
def Conf.matrix (Bu Bv : QuadData K) (pu pv : ℕ) (W : ℤ → ℤ → K) (s0 shift : ℤ) (r c : ℤ) : K :=
  ∑ t ∈ (Finset.range Bu.r.toNat ×ˢ Finset.range Bv.r.toNat) ×ˢ (Finset.range (pu + 1) ×ˢ Finset.range (pv + 1)),
    ∑ α ∈ Finset.range (pu + 1) ×ˢ Finset.range (pv + 1), ∑ β ∈ Finset.range (pu + 1) ×ˢ Finset.range (pv + 1),
      Conf.entry Bu Bv pu pv W s0 shift t.1.1 t.1.2 t.2.1 t.2.2 α β r c

/-- one prescribed value: the state is `(M, F)`; demo/conformal.py:131-135, 140-144 -/
def Conf.prescribe (MF : (ℤ → ℤ → K) × (ℤ → K)) (col : ℤ) (g : K) : (ℤ → ℤ → K) × (ℤ → K) :=
  let F := fun r => MF.2 r - MF.1 r col * g
  let M := fun r c => if c = col then 0 else MF.1 r c
  let M := fun r c => if r = col then 0 else M r c
  let M := fun r c => if r = col ∧ c = col then 1 else M r c
  let F := fun r => if r = col then g else F r
  (M, F)

/-- the control points visited by the loops over the sides, with the component: `(i, j, c)`; demo/conformal.py:128-130, 137-139 -/
def Conf.sides (s0 s1 : ℕ) : List (ℕ × ℕ × ℕ) :=
  ([0, s1 - 1].flatMap fun side => (List.range s0).flatMap fun dof => (List.range 2).map fun c => (dof, side, c)) ++
  [0, s0 - 1].flatMap fun side => (List.range' 1 (s1 - 2)).flatMap fun dof => (List.range 2).map fun c => (side, dof, c)

end

/-- `np.linalg.solve(M, F)`; demo/conformal.py:146.  Exact arithmetic: the solution if the matrix is regular, otherwise `LinAlgError`
(a `ValueError`). -/
noncomputable def linalgSolve (n : ℕ) (M : ℤ → ℤ → ℝ) (F : ℤ → ℝ) : Res (ℤ → ℝ) :=
  let A : Matrix (Fin n) (Fin n) ℝ := Matrix.of fun r c => M r c
  if A.det = 0 then .error .value
  else .ok fun r => if h : r.toNat < n then (A⁻¹.mulVec fun c => F c) ⟨r.toNat, h⟩ else 0

/-- `QuasiConformalProjection(srf)`; demo/conformal.py:61-152.  The copy has its own array (C45), `conf_srf.control` is a view of it. -/
noncomputable def quasiConformalProjection (eps : ℝ) (jo : Fin 2 → ℤ → ℤ) (jk : Fin 2 → ℤ → ℝ) (j2 ja jd : Fin 2 → ℤ → ℤ → ℝ)
    (srf : Nrb ℝ 2) : Res (Nrb ℝ 2) := do
  let Bu ← BasisData eps (jo 0) (jk 0) (j2 0) (ja 0) (jd 0) (srf.degree 0) (srf.len 0 - 1) (srf.U 0) none none
  let Bv ← BasisData eps (jo 1) (jk 1) (j2 1) (ja 1) (jd 1) (srf.degree 1) (srf.len 1 - 1) (srf.U 1) none none
  let s0 := srf.shape 0
  let s1 := srf.shape 1
  let shift := s0 * s1
  let M := Conf.matrix Bu Bv (srf.degree 0).toNat (srf.degree 1).toNat (fun i j => srf.P ![i, j] 3) s0 shift
  let MF := (Conf.sides s0.toNat s1.toNat).foldl
    (fun MF t => Conf.prescribe MF (t.2.2 * shift + t.2.1 * s0 + t.1) (srf.P ![t.1, t.2.1] t.2.2)) (M, fun _ => 0)
  let U ← linalgSolve (2 * shift).toNat MF.1 MF.2
  pure { srf with P := fun idx c =>
    if c = 0 then U (idx 1 * s0 + idx 0) else if c = 1 then U (shift + (idx 1 * s0 + idx 0)) else srf.P idx c }

end Igakit
