import Verif.Model.Bounds

/-!
# Evaluation, derivatives of the basis, spans, Greville abscissae and knot vectors with the bounds of their arrays

Same conventions as `Verif.Model.Bounds`.
-/

namespace Igakit

variable {K : Type} [Field K] [LinearOrder K]
variable {E : Type} [AddCommGroup E] [Module K E]

/-- an array `A(lo1:hi1,lo2:hi2,lo3:hi3)` (igalib.f90:1269-1271) -/
structure Arr3 (α : Type) where
  lo1 : ℤ
  hi1 : ℤ
  lo2 : ℤ
  hi2 : ℤ
  lo3 : ℤ
  hi3 : ℤ
  val : ℤ → ℤ → ℤ → α

namespace Arr3
variable {α : Type}

/-- `(i,j,k)` is inside the bounds (declarations igalib.f90:1269-1271) -/
def In (A : Arr3 α) (i j k : ℤ) : Prop :=
  A.lo1 ≤ i ∧ i ≤ A.hi1 ∧ A.lo2 ≤ j ∧ j ≤ A.hi2 ∧ A.lo3 ≤ k ∧ k ≤ A.hi3

instance (A : Arr3 α) (i j k : ℤ) : Decidable (A.In i j k) := inferInstanceAs (Decidable (_ ∧ _))

/-- the value `A(i,j,k)` in an expression (as in igalib.f90:1295) -/
def get (A : Arr3 α) (i j k : ℤ) : Chk α := if A.In i j k then .ok (A.val i j k) else .error .oob

/-- the assignment `A(i,j,k) = v` (as in igalib.f90:1298) -/
def set (A : Arr3 α) (i j k : ℤ) (v : α) : Chk (Arr3 α) :=
  if A.In i j k then .ok ⟨A.lo1, A.hi1, A.lo2, A.hi2, A.lo3, A.hi3, BSp.upd3 A.val i j k v⟩ else .error .oob

end Arr3

/-- first part of `DersBasisFuns`, igalib.f90:84-96: `(ndu, left, right)` -/
def nduTableC (i : ℤ) (uu : K) (p : ℤ) (U : Arr K) (ndu : Arr2 K) (left right : Arr K) : Chk (Arr2 K) := do
  let ndu ← ndu.set 0 0 1
  let s ← forUpC 1 p (fun j (s : Arr2 K × Arr K × Arr K) => do
    let x ← U.get (i + 1 - j)
    let left ← s.2.1.set j (uu - x)
    let y ← U.get (i + j)
    let right ← s.2.2.set j (y - uu)
    let ns ← forUpC 0 (j - 1) (fun r (ns : Arr2 K × K) => do
      let rt ← right.get (r + 1)
      let lt ← left.get (j - r)
      let ndu ← ns.1.set j r (rt + lt)
      let x ← ndu.get r (j - 1)
      let y ← ndu.get j r
      let temp := x / y
      let ndu ← ndu.set r j (ns.2 + rt * temp)
      .ok (ndu, lt * temp)) (s.1, 0)
    let ndu ← ns.1.set j j ns.2
    .ok (ndu, left, right)) (ndu, left, right)
  .ok s.1

/-- state of the second part of `DersBasisFuns` (igalib.f90:79-83) -/
structure DersStC (K : Type) where
  a : Arr2 K
  s1 : ℤ
  s2 : ℤ
  ders : Arr2 K

/-- igalib.f90:103-107: `(a, d)` -/
def dersFirstC (ndu : Arr2 K) (p r k : ℤ) (st : DersStC K) : Chk (Arr2 K × K) :=
  let rk := r - k
  let pk := p - k
  if r ≥ k then do
    let x ← st.a.get st.s1 0
    let y ← ndu.get (pk + 1) rk
    let a ← st.a.set st.s2 0 (x / y)
    let x ← a.get st.s2 0
    let y ← ndu.get rk pk
    .ok (a, x * y)
  else .ok (st.a, 0)

/-- igalib.f90:108-121 -/
def dersMidC (ndu : Arr2 K) (p r k : ℤ) (s1 s2 : ℤ) (ad : Arr2 K × K) : Chk (Arr2 K × K) :=
  let rk := r - k
  let pk := p - k
  let j1 := if rk > -1 then 1 else -rk
  let j2 := if r - 1 ≤ pk then k - 1 else p - r
  forUpC j1 j2 (fun j (ad : Arr2 K × K) => do
    let x ← ad.1.get s1 j
    let x' ← ad.1.get s1 (j - 1)
    let y ← ndu.get (pk + 1) (rk + j)
    let a ← ad.1.set s2 j ((x - x') / y)
    let x ← a.get s2 j
    let y ← ndu.get (rk + j) pk
    .ok (a, ad.2 + x * y)) ad

/-- igalib.f90:122-126 -/
def dersLastC (ndu : Arr2 K) (p r k : ℤ) (s1 s2 : ℤ) (ad : Arr2 K × K) : Chk (Arr2 K × K) :=
  let pk := p - k
  if r ≤ pk then do
    let x ← ad.1.get s1 (k - 1)
    let y ← ndu.get (pk + 1) r
    let a ← ad.1.set s2 k (-x / y)
    let x ← a.get s2 k
    let y ← ndu.get r pk
    .ok (a, ad.2 + x * y)
  else .ok ad

/-- one round of the loop over orders, igalib.f90:101-128 -/
def dersKC (ndu : Arr2 K) (p r k : ℤ) (st : DersStC K) : Chk (DersStC K) := do
  let ad ← dersFirstC ndu p r k st
  let ad ← dersMidC ndu p r k st.s1 st.s2 ad
  let ad ← dersLastC ndu p r k st.s1 st.s2 ad
  let ders ← st.ders.set r k ad.2
  .ok { a := ad.1, s1 := st.s2, s2 := st.s1, ders := ders }

/-- one round of the loop over functions, igalib.f90:98-129 -/
def dersRC (ndu : Arr2 K) (p n r : ℤ) (st : DersStC K) : Chk (DersStC K) := do
  let a ← st.a.set 0 0 1
  forUpC 1 n (dersKC ndu p r) { a := a, s1 := 0, s2 := 1, ders := st.ders }

/-- multiplication by the factors, igalib.f90:130-134: `(r, ders)` -/
def dersScaleC (p n : ℤ) (ders : Arr2 K) : Chk (ℤ × Arr2 K) :=
  forUpC 1 n (fun k (s : ℤ × Arr2 K) => do
    let ders ← forUpC 0 p (fun x (ders : Arr2 K) => do
      let v ← ders.get x k
      ders.set x k (v * (s.1 : K))) s.2
    .ok (s.1 * (p - k), ders)) (p, ders)

/-- `DersBasisFuns`, igalib.f90:75-135; `U(0:i+p)`, `ders(0:p,0:n)`, local `left(p)`, `right(p)`, `ndu(0:p,0:p)`,
`a(0:1,0:p)`; `ders` is an array of the caller with the same shape -/
def dersBasisFunsC (jk : ℤ → K) (j2 ja : ℤ → ℤ → K) (i : ℤ) (uu : K) (p n : ℤ) (U : Arr K) (ders : Arr2 K) :
    Chk (Arr2 K) := do
  let U ← U.arg (i + p)
  let ndu ← nduTableC i uu p U ⟨0, p, 0, p, j2⟩ ⟨1, p, jk⟩ ⟨1, p, jk⟩
  let ders ← forUpC 0 p (fun x ders => do
    let v ← ndu.get x p
    Arr2.set ders x 0 v) ders
  let st ← forUpC 0 p (dersRC ndu p n) { a := ⟨0, 1, 0, p, ja⟩, s1 := 0, s2 := 1, ders := ders }
  let s ← dersScaleC p n st.ders
  .ok s.2

/-- `BSp.Evaluate1`, igalib.f90:1233-1258; `U(0:n+p+1)`, `Pw(d,0:n)`, `X(0:r)`, `Cw(d,0:r)`, local `basis(0:p)` -/
def evaluate1C (jk : ℤ → K) (n p : ℤ) (U : Arr K) (Pw : Arr E) (r : ℤ) (X : Arr K) (Cw : Arr E) : Chk (Arr E) := do
  let U ← U.arg (n + p + 1)
  let Pw ← Pw.arg n
  let X ← X.arg r
  let Cw ← Cw.arg r
  forUpC 0 r (fun i Cw => do
    let x ← X.get i
    let span ← findSpanC n p x U
    let basis ← basisFunsC jk span x p U ⟨0, p, jk⟩
    let C ← forUpC 0 p (fun j C => do
      let b ← basis.get j
      let P ← Pw.get (span - p + j)
      .ok (C + b • P)) 0
    Arr.set Cw i C) Cw

/-- the tables `spanx(0:rx)` and `basisx(0:px,0:rx)` of `Evaluate2/3`, igalib.f90:1277-1280; the columns of `basisx` are
arrays -/
def axisTablesC (jk : ℤ → K) (n p : ℤ) (U : Arr K) (r : ℤ) (X : Arr K) : Chk (Arr ℤ × Arr (Arr K)) :=
  forUpC 0 r (fun ix (t : Arr ℤ × Arr (Arr K)) => do
    let x ← X.get ix
    let k ← findSpanC n p x U
    let span ← t.1.set ix k
    let k ← span.get ix
    let col ← t.2.get ix
    let col ← basisFunsC jk k x p U ⟨col.lo, col.hi, jk⟩
    let basis ← t.2.set ix col
    .ok (span, basis)) (⟨0, r, fun _ => 0⟩, ⟨0, r, fun _ => ⟨0, p, jk⟩⟩)

/-- `BSp.Evaluate2`, igalib.f90:1260-1303; `Pw(d,0:ny,0:nx)` and `Cw(d,0:ry,0:rx)` are written with the indices
exchanged -/
def evaluate2C (jk : ℤ → K) (nx px : ℤ) (Ux : Arr K) (ny py : ℤ) (Uy : Arr K) (Pw : Arr2 E) (rx : ℤ) (X : Arr K) (ry : ℤ)
    (Y : Arr K) (Cw : Arr2 E) : Chk (Arr2 E) := do
  let tx ← axisTablesC jk nx px Ux rx X
  let ty ← axisTablesC jk ny py Uy ry Y
  forUpC 0 rx (fun ix Cw => do
    let kx ← tx.1.get ix
    let ox := kx - px
    forUpC 0 ry (fun iy Cw => do
      let ky ← ty.1.get iy
      let oy := ky - py
      let C ← forUpC 0 px (fun jx C =>
        forUpC 0 py (fun jy C => do
          let bx ← tx.2.get ix
          let bx ← bx.get jx
          let bY ← ty.2.get iy
          let bY ← bY.get jy
          let P ← Pw.get (ox + jx) (oy + jy)
          .ok (C + (bx * bY) • P)) C) 0
      Arr2.set Cw ix iy C) Cw) Cw

/-- `BSp.Evaluate3`, igalib.f90:1305-1358; indices as in `evaluate2C` -/
def evaluate3C (jk : ℤ → K) (nx px : ℤ) (Ux : Arr K) (ny py : ℤ) (Uy : Arr K) (nz pz : ℤ) (Uz : Arr K) (Pw : Arr3 E)
    (rx : ℤ) (X : Arr K) (ry : ℤ) (Y : Arr K) (rz : ℤ) (Z : Arr K) (Cw : Arr3 E) : Chk (Arr3 E) := do
  let tx ← axisTablesC jk nx px Ux rx X
  let ty ← axisTablesC jk ny py Uy ry Y
  let tz ← axisTablesC jk nz pz Uz rz Z
  forUpC 0 rx (fun ix Cw => do
    let kx ← tx.1.get ix
    let ox := kx - px
    forUpC 0 ry (fun iy Cw => do
      let ky ← ty.1.get iy
      let oy := ky - py
      forUpC 0 rz (fun iz Cw => do
        let kz ← tz.1.get iz
        let oz := kz - pz
        let C ← forUpC 0 px (fun jx C =>
          forUpC 0 py (fun jy C =>
            forUpC 0 pz (fun jz C => do
              let bx ← tx.2.get ix
              let bx ← bx.get jx
              let bY ← ty.2.get iy
              let bY ← bY.get jy
              let bz ← tz.2.get iz
              let bz ← bz.get jz
              let P ← Pw.get (ox + jx) (oy + jy) (oz + jz)
              .ok (C + (bx * bY * bz) • P)) C) C) 0
        Arr3.set Cw ix iy iz C) Cw) Cw) Cw

/-- `BSp.SpanIndex`, igalib.f90:1085-1098; `U(0:m)`, `I(r)`; the `exit` sets `done` -/
def spanIndexC (eps : K) (p m : ℤ) (U : Arr K) (r : ℤ) (I : Arr ℤ) : Chk (ℤ × Arr ℤ × Bool) :=
  forUpC p (m - (p + 1)) (fun k (st : ℤ × Arr ℤ × Bool) =>
    if st.2.2 then .ok st
    else do
      let x ← U.get k
      let y ← U.get (k + 1)
      if |x - y| > eps then do
        let I ← st.2.1.set st.1 k
        .ok (st.1 + 1, I, decide (st.1 + 1 > r))
      else .ok st) (1, I, false)

/-- `BSp.Greville`, igalib.f90:1100-1109; `U(0:m)`, `X(0:m-(p+1))` -/
def grevilleC (p m : ℤ) (U : Arr K) (X : Arr K) : Chk (Arr K) :=
  forUpC 0 (m - (p + 1)) (fun i X => do
    let s ← forUpC (i + 1) (i + p) (fun j s => do
      let x ← U.get j
      .ok (s + x)) 0
    Arr.set X i (s / (p : K))) X

/-- `IGA.KnotVector`, igalib.f90:2173-2201; `U(0:m)` -/
def knotVectorC (E p C : ℤ) (Ui Uf : K) (wrap : Bool) (m : ℤ) (U : Arr K) : Chk (Arr K) := do
  let dU := (Uf - Ui) / (E : K)
  let s ← forUpC 1 (E - 1) (fun i s => forUpC 1 (p - C) (fun _ (s : ℤ × Arr K) => do
    let U ← s.2.set s.1 (Ui + (i : K) * dU)
    .ok (s.1 + 1, U)) s) (p + 1, U)
  let U ← forUpC 0 p (fun k U => do
    let U ← Arr.set U k Ui
    U.set (m - k) Uf) s.2
  if wrap then do
    let n := m - (p + 1)
    forUpC 0 C (fun k U => do
      let x ← Arr.get U (n - k)
      let U ← U.set (C - k) (Ui - Uf + x)
      let y ← U.get (p + 1 + k)
      U.set (m - C + k) (Uf - Ui + y)) U
  else .ok U

/-- `CountSpans`, igalib.pyf:4-13, inner `while`: `i <= n && ...` evaluates `U[i]` only for `i <= n` -/
def skipEqualC (n : ℤ) (U : Arr K) : ℕ → ℤ → Chk ℤ
  | 0, i => if i ≤ n then .error .timeout else .ok i
  | fuel + 1, i =>
    if i ≤ n then do
      let x ← U.get i
      let y ← U.get (i + 1)
      if x = y then skipEqualC n U fuel (i + 1) else .ok i
    else .ok i

/-- `CountSpans`, igalib.pyf:4-13, outer `for` -/
def countSpansLoopC (n : ℤ) (U : Arr K) : ℕ → ℤ → ℤ → Chk ℤ
  | 0, i, spans => if i ≤ n then .error .timeout else .ok spans
  | fuel + 1, i, spans =>
    if i ≤ n then do
      let j ← skipEqualC n U (n + 1 - i).toNat i
      countSpansLoopC n U fuel (j + 1) (spans + 1)
    else .ok spans

/-- `CountSpans`, igalib.pyf:4-13 -/
def countSpansC (n p : ℤ) (U : Arr K) : Chk ℤ := countSpansLoopC n U (n + 1 - p).toNat p 0

end Igakit
