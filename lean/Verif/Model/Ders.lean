import Verif.Model.BSp

/-!
# Model of `DersBasisFuns` (/repo/igakit/igalib.f90:75-135) and `EvalBasisFunsDers`

Same conventions as `Verif.Model.BSpline`; `j2`, `ja` are the arbitrary contents of the uninitialised
arrays `ndu` and `a`.  The integer factor `p (p-1) ... (p-k+1)` is a mathematical integer (the Fortran
variable is 32 bit).
-/

namespace Igakit

variable {K : Type*} [Field K] [LinearOrder K]

/-- assignment to an entry of a two-dimensional array (as in igalib.f90:90) -/
def upd2 {α : Type*} (A : ℤ → ℤ → α) (i j : ℤ) (v : α) : ℤ → ℤ → α :=
  fun x y => if x = i ∧ y = j then v else A x y

/-- inner loop of the first part, igalib.f90:89-94; state `(ndu, saved)` -/
def nduInner (left right : ℤ → K) (j : ℤ) (ndu : ℤ → ℤ → K) : (ℤ → ℤ → K) × K :=
  forUp 0 (j - 1) (fun r (s : (ℤ → ℤ → K) × K) =>
    let ndu := upd2 s.1 j r (right (r + 1) + left (j - r))
    let temp := ndu r (j - 1) / ndu j r
    (upd2 ndu r j (s.2 + right (r + 1) * temp), left (j - r) * temp)) (ndu, 0)

/-- state of the first part of `DersBasisFuns` (igalib.f90:81-83) -/
structure NduSt (K : Type*) where
  ndu : ℤ → ℤ → K
  left : ℤ → K
  right : ℤ → K

/-- one round of the first loop, igalib.f90:85-96 -/
def nduOuter (i : ℤ) (uu : K) (U : ℤ → K) (j : ℤ) (s : NduSt K) : NduSt K :=
  let left := upd s.left j (uu - U (i + 1 - j))
  let right := upd s.right j (U (i + j) - uu)
  let r := nduInner left right j s.ndu
  { ndu := upd2 r.1 j j r.2, left := left, right := right }

/-- table `ndu`, igalib.f90:84-96 -/
def nduTable (jk : ℤ → K) (j2 : ℤ → ℤ → K) (i : ℤ) (uu : K) (p : ℤ) (U : ℤ → K) : ℤ → ℤ → K :=
  (forUp 1 p (nduOuter i uu U) { ndu := upd2 j2 0 0 1, left := jk, right := jk }).ndu

/-- state of the second part: the two rows `a(0:1,:)`, their roles, the result (igalib.f90:79-83) -/
structure DersSt (K : Type*) where
  a : ℤ → ℤ → K
  s1 : ℤ
  s2 : ℤ
  ders : ℤ → ℤ → K

/-- igalib.f90:104-107, state `(a, d)` -/
def dersFirst (ndu : ℤ → ℤ → K) (p r k : ℤ) (st : DersSt K) : (ℤ → ℤ → K) × K :=
  let rk := r - k
  let pk := p - k
  if r ≥ k then
    let a := upd2 st.a st.s2 0 (st.a st.s1 0 / ndu (pk + 1) rk)
    (a, a st.s2 0 * ndu rk pk)
  else (st.a, 0)

/-- loop over the middle coefficients, igalib.f90:118-121 -/
def dersMid (ndu : ℤ → ℤ → K) (p r k : ℤ) (s1 s2 : ℤ) (ad : (ℤ → ℤ → K) × K) : (ℤ → ℤ → K) × K :=
  let rk := r - k
  let pk := p - k
  let j1 := if rk > -1 then 1 else -rk
  let j2 := if r - 1 ≤ pk then k - 1 else p - r
  forUp j1 j2 (fun j (ad : (ℤ → ℤ → K) × K) =>
    let a := upd2 ad.1 s2 j ((ad.1 s1 j - ad.1 s1 (j - 1)) / ndu (pk + 1) (rk + j))
    (a, ad.2 + a s2 j * ndu (rk + j) pk)) ad

/-- igalib.f90:123-126 -/
def dersLast (ndu : ℤ → ℤ → K) (p r k : ℤ) (s1 s2 : ℤ) (ad : (ℤ → ℤ → K) × K) : (ℤ → ℤ → K) × K :=
  let pk := p - k
  if r ≤ pk then
    let a := upd2 ad.1 s2 k (-ad.1 s1 (k - 1) / ndu (pk + 1) r)
    (a, ad.2 + a s2 k * ndu r pk)
  else ad

/-- one round of the loop over orders, igalib.f90:101-128 -/
def dersK (ndu : ℤ → ℤ → K) (p r k : ℤ) (st : DersSt K) : DersSt K :=
  let ad := dersFirst ndu p r k st
  let ad := dersMid ndu p r k st.s1 st.s2 ad
  let ad := dersLast ndu p r k st.s1 st.s2 ad
  { a := ad.1, s1 := st.s2, s2 := st.s1, ders := upd2 st.ders r k ad.2 }

/-- one round of the loop over functions, igalib.f90:98-129 -/
def dersR (ndu : ℤ → ℤ → K) (p n r : ℤ) (st : DersSt K) : DersSt K :=
  forUp 1 n (dersK ndu p r) { a := upd2 st.a 0 0 1, s1 := 0, s2 := 1, ders := st.ders }

/-- multiplication by the factors, igalib.f90:131-135; state `(r, ders)` -/
def dersScale (p n : ℤ) (ders : ℤ → ℤ → K) : ℤ × (ℤ → ℤ → K) :=
  forUp 1 n (fun k (s : ℤ × (ℤ → ℤ → K)) =>
    (s.1 * (p - k), fun x y => if 0 ≤ x ∧ x ≤ p ∧ y = k then s.2 x y * (s.1 : K) else s.2 x y)) (p, ders)

/-- `DersBasisFuns`, igalib.f90:75-135 -/
def dersBasisFuns (jk : ℤ → K) (j2 ja jd : ℤ → ℤ → K) (i : ℤ) (uu : K) (p n : ℤ) (U : ℤ → K) :
    ℤ → ℤ → K :=
  let ndu := nduTable jk j2 i uu p U
  let ders : ℤ → ℤ → K := fun x y => if 0 ≤ x ∧ x ≤ p ∧ y = 0 then ndu x p else jd x y
  let st := forUp 0 p (dersR ndu p n) { a := ja, s1 := 0, s2 := 1, ders := ders }
  (dersScale p n st.ders).2

/-- `BSp.EvalBasisFunsDers`, igalib.f90:1070-1083, checks igalib.pyf:56-65; entry `l r` of the result
(Python order) is entry `(r, l)` of the Fortran array -/
def BSp.EvalBasisFunsDers (jk : ℤ → K) (j2 ja jd : ℤ → ℤ → K) (p m : ℤ) (U : ℤ → K) (uu : K) (d : ℤ)
    (span : ℤ := -1) : Res (ℤ → ℤ → K) :=
  if p ≥ 1 ∧ m ≥ 2 * p + 1 ∧ (d ≥ 0 ∧ d ≤ p) then
    .ok (fun l r =>
      dersBasisFuns jk j2 ja jd (if span ≥ 0 then span else findSpan (m - (p + 1)) p uu U) uu p d U r l)
  else .error .f2py

end Igakit
