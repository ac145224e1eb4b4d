import Verif.Model.Quad
import Verif.Model.BoundsApi

/-!
# `BasisData` and `BasisDataCol` with the bounds of their arrays

/repo/igakit/igalib.f90:2466-2533 again: the loops as they are, every access checked as in `Verif.Model.Bounds`.  The array
`N(0:d,0:p,q,r)` is an array with the last two indices of arrays with the first two.  The arrays `Xg(q)`, `W(q)` are filled by
`GaussLegendreRule` with all its values.
-/

namespace Igakit

variable {K : Type} [Field K] [LinearOrder K]

/-- the output of `BasisData`, igalib.f90:2472-2476, and its local array `basis`, 2480 -/
structure QuadArr (K : Type) where
  O : Arr ℤ
  J : Arr K
  W : Arr K
  X : Arr2 K
  N : Arr2 (Arr2 K)
  basis : Arr2 K

/-- the assignment `B(:,:) = transpose(A)`, e.g. igalib.f90:2497: the shapes must agree -/
def transposeC {α : Type} (B A : Arr2 α) : Chk (Arr2 α) :=
  if B.hi1 - B.lo1 = A.hi2 - A.lo2 ∧ B.hi2 - B.lo2 = A.hi1 - A.lo1 then
    .ok ⟨B.lo1, B.hi1, B.lo2, B.hi2, fun l a => A.val (a - B.lo2 + A.lo1) (l - B.lo1 + A.lo2)⟩
  else .error .oob

/-- `GaussLegendreRule(q,X,W)` on arrays `X(q)`, `W(q)`, igalib.f90:2203-2334: the values must fit -/
def gaussC (q : ℤ) : Chk (Arr K × Arr K) :=
  if ((legX q.toNat).length : ℤ) ≤ q ∧ ((legW q.toNat).length : ℤ) ≤ q then
    .ok (⟨1, q, fun i => (((legX q.toNat).getD (i - 1).toNat 0 : ℚ) : K)⟩,
      ⟨1, q, fun i => (((legW q.toNat).getD (i - 1).toNat 0 : ℚ) : K)⟩)
  else .error .oob

/-- the loop which stores the offsets, igalib.f90:2482-2488 -/
def basisDataOC (eps : K) (p m : ℤ) (U : Arr K) (O : Arr ℤ) : Chk (ℤ × Arr ℤ) :=
  forUpC p (m - (p + 1)) (fun i s => do
    let x ← U.get i
    let y ← U.get (i + 1)
    if |x - y| > eps then do
      let O ← s.2.set s.1 (i - p)
      .ok (s.1 + 1, O)
    else .ok s) (1, O)

/-- the loop over the points of one element, igalib.f90:2494-2498 -/
def basisDataPtsC (jk : ℤ → K) (j2 ja : ℤ → ℤ → K) (p : ℤ) (U : Arr K) (d q ir i : ℤ) (s : QuadArr K) : Chk (QuadArr K) :=
  forUpC 1 q (fun iq (s : QuadArr K) => do
    let uu ← s.X.get iq ir
    let basis ← dersBasisFunsC jk j2 ja i uu p d U s.basis
    let B ← s.N.get iq ir
    let B ← transposeC B basis
    let N ← s.N.set iq ir B
    .ok { s with N := N, basis := basis }) s

/-- the loop over the elements, igalib.f90:2490-2499 -/
def basisDataElemsC (jk : ℤ → K) (j2 ja : ℤ → ℤ → K) (p : ℤ) (U Xg : Arr K) (d q r : ℤ) (s : QuadArr K) : Chk (QuadArr K) :=
  forUpC 1 r (fun ir (s : QuadArr K) => do
    let o ← s.O.get ir
    let i := o + p
    let u1 ← U.get (i + 1)
    let u0 ← U.get i
    let J ← s.J.set ir ((u1 - u0) / 2)
    let X ← forUpC 1 q (fun iq (X : Arr2 K) => do
      let x ← Xg.get iq
      let j ← J.get ir
      let u0 ← U.get i
      X.set iq ir ((x + 1) * j + u0)) s.X
    basisDataPtsC jk j2 ja p U d q ir i { s with J := J, X := X }) s

/-- `IGA.BasisData`, igalib.f90:2466-2500, with the checks of igalib.pyf:479-491.  `s` holds what the memory contained before. -/
def BasisDataC (eps : K) (jk : ℤ → K) (j2 ja : ℤ → ℤ → K) (s : QuadArr K) (p m : ℤ) (U : ℤ → K) (d q : Option ℤ) :
    Run (QuadArr K) :=
  let d := d.getD p
  let q := q.getD (p + 1)
  if p ≥ 1 ∧ m ≥ 2 * p + 1 ∧ (d ≥ 0 ∧ d ≤ p) ∧ (q ≥ 1 ∧ q ≤ 10) then ft do
    let U : Arr K := ⟨0, m, U⟩
    let r ← countSpansC (m - p - 1) p U
    let O ← basisDataOC eps p m U ⟨1, r, s.O.val⟩
    let XW ← gaussC q
    basisDataElemsC jk j2 ja p U XW.1 d q r
      ⟨O.2, ⟨1, r, s.J.val⟩, XW.2, ⟨1, q, 1, r, s.X.val⟩, ⟨1, q, 1, r, fun i j => ⟨0, d, 0, p, (s.N.val i j).val⟩⟩,
        ⟨0, p, 0, d, s.basis.val⟩⟩
  else .error (.exc .f2py)

/-- `IGA.BasisDataCol`, igalib.f90:2513-2533, with the checks of igalib.pyf:500-508; state `O`, `N`, `basis` -/
def BasisDataColC (jk : ℤ → K) (j2 ja jd : ℤ → ℤ → K) (jo : ℤ → ℤ) (jn : ℤ → ℤ → ℤ → K) (p m : ℤ) (U : ℤ → K) (r : ℤ)
    (X : ℤ → K) (d : Option ℤ) : Run (Arr ℤ × Arr (Arr2 K)) :=
  let d := d.getD p
  if p ≥ 1 ∧ m ≥ 2 * p + 1 ∧ r ≥ 1 ∧ (d ≥ 0 ∧ d ≤ p) then ft do
    let s ← forUpC 1 r (fun ir (s : Arr ℤ × Arr (Arr2 K) × Arr2 K) => do
      let uu ← (⟨1, r, fun i => X (i - 1)⟩ : Arr K).get ir
      let ii ← findSpanC (m - (p + 1)) p uu ⟨0, m, U⟩
      let basis ← dersBasisFunsC jk j2 ja ii uu p d ⟨0, m, U⟩ s.2.2
      let O ← s.1.set ir (ii - p)
      let B ← s.2.1.get ir
      let B ← transposeC B basis
      let N ← s.2.1.set ir B
      .ok (O, N, basis)) (⟨1, r, jo⟩, ⟨1, r, fun ir => ⟨0, d, 0, p, jn ir⟩⟩, ⟨0, p, 0, d, jd⟩)
    .ok (s.1, s.2.1)
  else .error (.exc .f2py)

end Igakit
