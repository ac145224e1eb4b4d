import Verif.Model.BSp

/-!
# Model of Fortran module `IGA` (/repo/igakit/igalib.f90, 2165-2533) without the quadrature tables,
of `BSp.SpanIndex` and of the C helper `CountSpans` of igalib.pyf

Same conventions as `Verif.Model.BSpline`.
-/

namespace Igakit

variable {K : Type*} [Field K] [LinearOrder K]

/-- `m` of `iga.KnotVector`, igalib.pyf:463 -/
def knotVectorM (E p C : ℤ) : ℤ := 2 * (p + 1) + (E - 1) * (p - C) - 1

/-- interior knots of `KnotVector`, igalib.f90:2183-2189; state `(k, U)` -/
def knotVectorInner (jk : ℤ → K) (E p C : ℤ) (Ui dU : K) : ℤ × (ℤ → K) :=
  forUp 1 (E - 1) (fun i s => forUp 1 (p - C) (fun _ (s : ℤ × (ℤ → K)) =>
    (s.1 + 1, upd s.2 s.1 (Ui + (i : K) * dU))) s) (p + 1, jk)

/-- end knots of `KnotVector`, igalib.f90:2190-2193 -/
def knotVectorEnds (p m : ℤ) (Ui Uf : K) (U : ℤ → K) : ℤ → K :=
  forUp 0 p (fun k U => upd (upd U k Ui) (m - k) Uf) U

/-- wrapping of `KnotVector`, igalib.f90:2194-2200 -/
def knotVectorWrap (p C m : ℤ) (Ui Uf : K) (U : ℤ → K) : ℤ → K :=
  let n := m - (p + 1)
  forUp 0 C (fun k U =>
    let U := upd U (C - k) (Ui - Uf + U (n - k))
    upd U (m - C + k) (Uf - Ui + U (p + 1 + k))) U

/-- `IGA.KnotVector`, igalib.f90:2173-2201, checks igalib.pyf:455-465 -/
def iga_KnotVector (jk : ℤ → K) (E p C : ℤ) (Ui Uf : K) (wrap : Bool) : Res (ℤ → K) :=
  if E ≥ 1 ∧ p ≥ 1 ∧ (C ≥ 0 ∧ C < p) then
    let m := knotVectorM E p C
    let dU := (Uf - Ui) / (E : K)
    let U := knotVectorEnds p m Ui Uf (knotVectorInner jk E p C Ui dU).2
    .ok (if wrap then knotVectorWrap p C m Ui Uf U else U)
  else .error .f2py

/-- inner `while (i<=n && U[i]==U[i+1]) i++` of `CountSpans`, igalib.pyf:9, from `i` on, at most `fuel`
steps (`n + 1 - i` steps suffice) -/
def skipEqual (n : ℤ) (U : ℤ → K) : ℕ → ℤ → ℤ
  | 0, i => i
  | fuel + 1, i => if i ≤ n ∧ U i = U (i + 1) then skipEqual n U fuel (i + 1) else i

/-- outer `for` of `CountSpans`, igalib.pyf:5-13; `fuel` bounds the number of rounds -/
def countSpansLoop (n : ℤ) (U : ℤ → K) : ℕ → ℤ → ℤ → ℤ
  | 0, _, spans => spans
  | fuel + 1, i, spans =>
    if i ≤ n then countSpansLoop n U fuel (skipEqual n U (n + 1 - i).toNat i + 1) (spans + 1)
    else spans

/-- `CountSpans`, igalib.pyf:5-13 -/
def countSpans (n p : ℤ) (U : ℤ → K) : ℤ := countSpansLoop n U (n + 1 - p).toNat p 0

/-- state of `SpanIndex`: next position, output, loop left (`s`, `I`, igalib.f90:1089-1096) -/
structure SpanIdxSt where
  s : ℤ
  I : ℤ → ℤ
  done : Bool

/-- loop of `SpanIndex`, igalib.f90:1092-1097, with its `exit` -/
def spanIndexLoop (eps : K) (p m : ℤ) (U : ℤ → K) (r : ℤ) (ji : ℤ → ℤ) : SpanIdxSt :=
  forUp p (m - (p + 1)) (fun k st =>
    if st.done then st
    else if |U k - U (k + 1)| > eps then
      { s := st.s + 1, I := upd st.I st.s k, done := decide (st.s + 1 > r) }
    else st) { s := 1, I := ji, done := false }

/-- `BSp.SpanIndex`, igalib.f90:1085-1098 and igalib.pyf:67-73: `r = CountSpans` entries; `ji` is the
uninitialised output array -/
def BSp.SpanIndex (eps : K) (ji : ℤ → ℤ) (p m : ℤ) (U : ℤ → K) : Res (List ℤ) :=
  if p ≥ 1 ∧ m ≥ 2 * p + 1 then
    let r := countSpans (m - p - 1) p U
    let st := spanIndexLoop eps p m U r ji
    .ok ((List.range r.toNat).map (fun i : ℕ => st.I (1 + i)))
  else .error .f2py

/-- `BSp.Greville` and `IGA.Greville`, igalib.f90:1100-1109 and 2502-2511: `n + 1 = m - p` values -/
def BSp.Greville (p m : ℤ) (U : ℤ → K) : Res (ℤ → K) :=
  if p ≥ 1 ∧ m ≥ 2 * p + 1 then .ok (fun i => greville p U i) else .error .f2py

end Igakit
