import Verif.Model.Nurbs
import Verif.Model.Iga
import Verif.Model.Ders

/-!
# Model of degree elevation

`DegreeElevate` of igalib.f90 (module `bspline`, lines 498-651, and module `BSp`, lines 1200-1212) and
`NURBS.elevate` (nurbs.py:1141-1164).

Work arrays that the Fortran code does not initialise are parameters.  The `do while` loops carry a bound
on the number of rounds that is at least the number of values their counter can take.
-/

namespace Igakit

variable {K : Type*} [Field K] [LinearOrder K]
variable {E : Type*} [AddCommGroup E] [Module K E]

/-- `Bin`, igalib.f90:641-650 (integer division) -/
def elevBin (n k : ℤ) : ℤ :=
  forUp 0 (min k (n - k) - 1) (fun i C => Int.tdiv (C * (n - i)) (i + 1)) 1

/-- the table `bezalfs`, igalib.f90:524-536 -/
def elevBez (jb : ℤ → ℤ → K) (p t : ℤ) : ℤ → ℤ → K :=
  let ph := p + t
  let bz := upd2 jb 0 0 1
  let bz := upd2 bz ph p 1
  let bz := forUp 1 (ph / 2) (fun i bz =>
    let den : K := elevBin ph i
    forUp (max 0 (i - t)) (min p i) (fun j bz => upd2 bz i j (elevBin p j * elevBin t (i - j) / den)) bz) bz
  forUp (ph / 2 + 1) (ph - 1) (fun i bz =>
    forUp (max 0 (i - t)) (min p i) (fun j bz => upd2 bz i j (bz (ph - i) (p - j))) bz) bz

/-- the loop igalib.f90:548-551: last position holding the value of `U(b)` -/
def elevRun (eps : K) (m : ℤ) (U : ℤ → K) : ℕ → ℤ → ℤ
  | 0, b => b
  | fuel + 1, b =>
    if b < m then
      if |U b - U (b + 1)| > eps then b else elevRun eps m U fuel (b + 1)
    else b

/-- the loop igalib.f90:568-570 -/
def elevAlfs (U : ℤ → K) (p mul a : ℤ) (ua ub : K) (alfs : ℤ → K) : ℤ → K :=
  forDown p (mul + 1) (fun k alfs => upd alfs (k - mul - 1) ((ub - ua) / (U (a + k) - ua))) alfs

/-- the loop igalib.f90:571-578: state `(bpts, nextbpts)` -/
def elevCut (p mul r : ℤ) (alfs : ℤ → K) (s : (ℤ → E) × (ℤ → E)) : (ℤ → E) × (ℤ → E) :=
  forUp 1 r (fun j (s : (ℤ → E) × (ℤ → E)) =>
    let b := forDown p (mul + j) (fun k (b : ℤ → E) =>
      upd b k (alfs (k - (mul + j)) • b k + (1 - alfs (k - (mul + j))) • b (k - 1))) s.1
    (b, upd s.2 (r - j) (b p))) s

/-- the loop igalib.f90:581-586 -/
def elevPts (bz : ℤ → ℤ → K) (p t lbz : ℤ) (bpts ebpts : ℤ → E) : ℤ → E :=
  forUp lbz (p + t) (fun i e =>
    forUp (max 0 (i - t)) (min p i) (fun j e => upd e i (e i + bz i j • bpts j)) (upd e i 0)) ebpts

/-- the variables `Qw, ebpts, i, j, kj` of the knot removal loop (igalib.f90:507-514) -/
structure ElevRem (E : Type*) where
  Qw : ℤ → E
  ebpts : ℤ → E
  i : ℤ
  j : ℤ
  kj : ℤ

/-- body of the loop igalib.f90:597-613 -/
def elevRemBody (Uh : ℤ → K) (ua ub den bet : K) (ph oldr kind cind lbz tr : ℤ) (s : ElevRem E) : ElevRem E :=
  let Qw := if s.i < cind then
      let alf := (ub - Uh s.i) / (ua - Uh s.i)
      upd s.Qw s.i (alf • s.Qw s.i + (1 - alf) • s.Qw (s.i - 1))
    else s.Qw
  let ebpts := if s.j ≥ lbz then
      if s.j - tr ≤ kind - ph + oldr then
        let gam := (ub - Uh (s.j - tr)) / den
        upd s.ebpts s.kj (gam • s.ebpts s.kj + (1 - gam) • s.ebpts (s.kj + 1))
      else upd s.ebpts s.kj (bet • s.ebpts s.kj + (1 - bet) • s.ebpts (s.kj + 1))
    else s.ebpts
  ⟨Qw, ebpts, s.i + 1, s.j - 1, s.kj - 1⟩

/-- the loop `do while (j-i > tr)`, igalib.f90:600-616 -/
def elevRemIn (Uh : ℤ → K) (ua ub den bet : K) (ph oldr kind cind lbz tr : ℤ) : ℕ → ElevRem E → ElevRem E
  | 0, s => s
  | fuel + 1, s =>
    if s.j - s.i > tr then
      elevRemIn Uh ua ub den bet ph oldr kind cind lbz tr fuel
        (elevRemBody Uh ua ub den bet ph oldr kind cind lbz tr s)
    else s

/-- the knot removal, igalib.f90:588-617; in round `tr` the counters start at `first = kind-1-tr` and
`last = kind-1+tr` -/
def elevRem (Uh : ℤ → K) (ua ub : K) (ph oldr kind cind lbz : ℤ) (Qe : (ℤ → E) × (ℤ → E)) : (ℤ → E) × (ℤ → E) :=
  if oldr > 1 then
    let den := ub - ua
    let bet := (ub - Uh (kind - 1)) / den
    let s := forUp 1 (oldr - 1) (fun tr (s : (ℤ → E) × (ℤ → E) × ℤ × ℤ) =>
      let i := s.2.2.1
      let j := s.2.2.2
      let q := elevRemIn Uh ua ub den bet ph oldr kind cind lbz tr (j - i).toNat ⟨s.1, s.2.1, i, j, j - kind + 1⟩
      (q.Qw, q.ebpts, i - 1, j + 1)) (Qe.1, Qe.2, kind - 2, kind)
    (s.1, s.2.1)
  else Qe

/-- the variables of `DegreeElevate` that live across rounds (igalib.f90:506-515) -/
structure ElevSt (K E : Type*) where
  a : ℤ
  b : ℤ
  r : ℤ
  kind : ℤ
  cind : ℤ
  ua : K
  Uh : ℤ → K
  Qw : ℤ → E
  bpts : ℤ → E
  ebpts : ℤ → E
  nextbpts : ℤ → E
  alfs : ℤ → K

/-- one round of the main loop, igalib.f90:546-639 -/
def elevStep (eps : K) (bz : ℤ → ℤ → K) (n p t : ℤ) (U : ℤ → K) (Pw : ℤ → E) (s : ElevSt K E) : ElevSt K E :=
  let m := n + p + 1
  let ph := p + t
  let b := elevRun eps m U (m - s.b).toNat s.b
  let mul := b - s.b + 1
  let oldr := s.r
  let r := p - mul
  let ub := U b
  let lbz := if oldr > 0 then (oldr + 2) / 2 else 1
  let rbz := if r > 0 then ph - (r + 1) / 2 else ph
  let alfs := if r > 0 then elevAlfs U p mul s.a s.ua ub s.alfs else s.alfs
  let bn := if r > 0 then elevCut p mul r alfs (s.bpts, s.nextbpts) else (s.bpts, s.nextbpts)
  let ebpts := elevPts bz p t lbz bn.1 s.ebpts
  let Qe := elevRem s.Uh s.ua ub ph oldr s.kind s.cind lbz (s.Qw, ebpts)
  let Uk := if s.a ≠ p then
      forUp 0 (ph - oldr - 1) (fun _ (Uk : (ℤ → K) × ℤ) => (upd Uk.1 Uk.2 s.ua, Uk.2 + 1)) (s.Uh, s.kind)
    else (s.Uh, s.kind)
  let Qc := forUp lbz rbz (fun j (Qc : (ℤ → E) × ℤ) => (upd Qc.1 Qc.2 (Qe.2 j), Qc.2 + 1)) (Qe.1, s.cind)
  if b < m then
    { a := b, b := b + 1, r := r, kind := Uk.2, cind := Qc.2, ua := ub, Uh := Uk.1, Qw := Qc.1,
      bpts := fillRange (fillRange bn.1 0 (r - 1) 0 bn.2) r p 0 (fun i => Pw (b - p + i)),
      ebpts := Qe.2, nextbpts := bn.2, alfs := alfs }
  else
    { a := s.a, b := b, r := r, kind := Uk.2, cind := Qc.2, ua := s.ua,
      Uh := fillRange Uk.1 Uk.2 (Uk.2 + ph) 0 (fun _ => ub), Qw := Qc.1,
      bpts := bn.1, ebpts := Qe.2, nextbpts := bn.2, alfs := alfs }

/-- the main loop `do while (b < m)`, igalib.f90:549-639 -/
def elevLoop (eps : K) (bz : ℤ → ℤ → K) (n p t : ℤ) (U : ℤ → K) (Pw : ℤ → E) : ℕ → ElevSt K E → ElevSt K E
  | 0, s => s
  | fuel + 1, s => if s.b < n + p + 1 then elevLoop eps bz n p t U Pw fuel (elevStep eps bz n p t U Pw s) else s

/-- `DegreeElevate`, igalib.f90:498-651; `jk, je, jb` are the contents of the arrays before the call -/
def degreeElevate (eps : K) (jk : ℤ → K) (je : ℤ → E) (jb : ℤ → ℤ → K) (n p : ℤ) (U : ℤ → K) (Pw : ℤ → E)
    (t : ℤ) : (ℤ → K) × (ℤ → E) :=
  if t < 1 then (U, Pw)
  else
    let ph := p + t
    let s := elevLoop eps (elevBez jb p t) n p t U Pw (n + p + 1).toNat
      { a := p, b := p + 1, r := -1, kind := ph + 1, cind := 1, ua := U p,
        Uh := fillRange jk 0 ph 0 (fun _ => U p), Qw := upd je 0 (Pw 0),
        bpts := fillRange je 0 p 0 Pw, ebpts := je, nextbpts := je, alfs := jk }
    (s.Uh, s.Qw)

/-- `BSp.DegreeElevate`, igalib.f90:1200-1212, checks and output size igalib.pyf:154-165; returns
`(nh, Uh, Qw)` -/
def BSp.DegreeElevate (eps : K) (jk : ℤ → K) (je : ℤ → E) (jb : ℤ → ℤ → K) (n p : ℤ) (U : ℤ → K) (Pw : ℤ → E)
    (t : ℤ) : Res (ℤ × (ℤ → K) × (ℤ → E)) :=
  if n ≥ 1 ∧ p ≥ 1 ∧ t ≥ 0 then
    let VQ := degreeElevate eps jk je jb n p U Pw t
    .ok (n + t * countSpans n p U, VQ.1, VQ.2)
  else .error .f2py

/-- `NURBS.elevate`, nurbs.py:1141-1164 (`times = None` is `none`) -/
def Nrb.elevate {K : Type} [Field K] [LinearOrder K] {d : ℕ} (eps : K) (jk : ℤ → K)
    (je : ℤ → (Fin d → ℤ) → ℕ → K) (jb : ℤ → ℤ → K) (N : Nrb K (d + 1)) (axis : ℤ) (times : Option ℤ) :
    Res (Nrb K (d + 1)) :=
  match times with
  | none => pure N
  | some t => do
    pyAssert (t ≥ 0)
    if t = 0 then pure N
    else do
      let a ← normAxis (d + 1) axis
      let oVQ ← BSp.DegreeElevate eps jk je jb (N.n a) (N.degree a) (N.U a) (N.row a) t
      pure (N.setAxis a (oVQ.1 + 1) (oVQ.1 + (N.degree a + t) + 2) oVQ.2.1 oVQ.2.2)

end Igakit
