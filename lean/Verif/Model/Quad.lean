import Verif.Model.Ders
import Verif.Model.Iga

/-!
# Model of the quadrature routines of Fortran module `IGA` (/repo/igakit/igalib.f90, 2203-2533)

The decimal literals are modelled as the rational numbers they denote; rounding to double precision is not
modelled.
-/

namespace Igakit

/-- nodes of `GaussLegendreRule`, igalib.f90:2203-2334; `x0, x1, ...` are the array entries already set -/
def legX : ℕ → List ℚ
  | 1 =>
    let x0 : ℚ := 0
    [x0]
  | 2 =>
    let x0 : ℚ := -(577350269189625764509148780501957456 / 10 ^ 36)
    let x1 : ℚ := -x0
    [x0, x1]
  | 3 =>
    let x0 : ℚ := -(774596669241483377035853079956479922 / 10 ^ 36)
    let x1 : ℚ := 0
    let x2 : ℚ := -x0
    [x0, x1, x2]
  | 4 =>
    let x0 : ℚ := -(861136311594052575223946488892809505 / 10 ^ 36)
    let x1 : ℚ := -(339981043584856264802665759103244687 / 10 ^ 36)
    let x2 : ℚ := -x1
    let x3 : ℚ := -x0
    [x0, x1, x2, x3]
  | 5 =>
    let x0 : ℚ := -(906179845938663992797626878299392965 / 10 ^ 36)
    let x1 : ℚ := -(538469310105683091036314420700208805 / 10 ^ 36)
    let x2 : ℚ := 0
    let x3 : ℚ := -x1
    let x4 : ℚ := -x0
    [x0, x1, x2, x3, x4]
  | 6 =>
    let x0 : ℚ := -(932469514203152027812301554493994609 / 10 ^ 36)
    let x1 : ℚ := -(661209386466264513661399595019905347 / 10 ^ 36)
    let x2 : ℚ := -(238619186083196908630501721680711935 / 10 ^ 36)
    let x3 : ℚ := -x2
    let x4 : ℚ := -x1
    let x5 : ℚ := -x0
    [x0, x1, x2, x3, x4, x5]
  | 7 =>
    let x0 : ℚ := -(949107912342758524526189684047851262 / 10 ^ 36)
    let x1 : ℚ := -(741531185599394439863864773280788407 / 10 ^ 36)
    let x2 : ℚ := -(405845151377397166906606412076961463 / 10 ^ 36)
    let x3 : ℚ := 0
    let x4 : ℚ := -x2
    let x5 : ℚ := -x1
    let x6 : ℚ := -x0
    [x0, x1, x2, x3, x4, x5, x6]
  | 8 =>
    let x0 : ℚ := -(960289856497536231683560868569472990 / 10 ^ 36)
    let x1 : ℚ := -(796666477413626739591553936475830437 / 10 ^ 36)
    let x2 : ℚ := -(525532409916328985817739049189246349 / 10 ^ 36)
    let x3 : ℚ := -(183434642495649804939476142360183981 / 10 ^ 36)
    let x4 : ℚ := -x3
    let x5 : ℚ := -x2
    let x6 : ℚ := -x1
    let x7 : ℚ := -x0
    [x0, x1, x2, x3, x4, x5, x6, x7]
  | 9 =>
    let x0 : ℚ := -(968160239507626089835576202903672870 / 10 ^ 36)
    let x1 : ℚ := -(836031107326635794299429788069734877 / 10 ^ 36)
    let x2 : ℚ := -(613371432700590397308702039341474185 / 10 ^ 36)
    let x3 : ℚ := -(324253423403808929038538014643336609 / 10 ^ 36)
    let x4 : ℚ := 0
    let x5 : ℚ := -x3
    let x6 : ℚ := -x2
    let x7 : ℚ := -x1
    let x8 : ℚ := -x0
    [x0, x1, x2, x3, x4, x5, x6, x7, x8]
  | 10 =>
    let x0 : ℚ := -(973906528517171720077964012084452053 / 10 ^ 36)
    let x1 : ℚ := -(865063366688984510732096688423493049 / 10 ^ 36)
    let x2 : ℚ := -(679409568299024406234327365114873576 / 10 ^ 36)
    let x3 : ℚ := -(433395394129247190799265943165784162 / 10 ^ 36)
    let x4 : ℚ := -(148874338981631210884826001129719985 / 10 ^ 36)
    let x5 : ℚ := -x4
    let x6 : ℚ := -x3
    let x7 : ℚ := -x2
    let x8 : ℚ := -x1
    let x9 : ℚ := -x0
    [x0, x1, x2, x3, x4, x5, x6, x7, x8, x9]
  | q => List.replicate q 0

/-- weights of `GaussLegendreRule`, igalib.f90:2203-2334; `x0, x1, ...` are the array entries already set -/
def legW : ℕ → List ℚ
  | 1 =>
    let w0 : ℚ := 2
    [w0]
  | 2 =>
    let w0 : ℚ := 1
    let w1 : ℚ := w0
    [w0, w1]
  | 3 =>
    let w0 : ℚ := 555555555555555555555555555555555556 / 10 ^ 36
    let w1 : ℚ := 888888888888888888888888888888888889 / 10 ^ 36
    let w2 : ℚ := w0
    [w0, w1, w2]
  | 4 =>
    let w0 : ℚ := 347854845137453857373063949221999407 / 10 ^ 36
    let w1 : ℚ := 652145154862546142626936050778000593 / 10 ^ 36
    let w2 : ℚ := w1
    let w3 : ℚ := w0
    [w0, w1, w2, w3]
  | 5 =>
    let w0 : ℚ := 236926885056189087514264040719917363 / 10 ^ 36
    let w1 : ℚ := 478628670499366468041291514835638193 / 10 ^ 36
    let w2 : ℚ := 568888888888888888888888888888888889 / 10 ^ 36
    let w3 : ℚ := w1
    let w4 : ℚ := w0
    [w0, w1, w2, w3, w4]
  | 6 =>
    let w0 : ℚ := 171324492379170345040296142172732894 / 10 ^ 36
    let w1 : ℚ := 360761573048138607569833513837716112 / 10 ^ 36
    let w2 : ℚ := 467913934572691047389870343989550995 / 10 ^ 36
    let w3 : ℚ := w2
    let w4 : ℚ := w1
    let w5 : ℚ := w0
    [w0, w1, w2, w3, w4, w5]
  | 7 =>
    let w0 : ℚ := 129484966168869693270611432679082018 / 10 ^ 36
    let w1 : ℚ := 279705391489276667901467771423779582 / 10 ^ 36
    let w2 : ℚ := 381830050505118944950369775488975134 / 10 ^ 36
    let w3 : ℚ := 417959183673469387755102040816326531 / 10 ^ 36
    let w4 : ℚ := w2
    let w5 : ℚ := w1
    let w6 : ℚ := w0
    [w0, w1, w2, w3, w4, w5, w6]
  | 8 =>
    let w0 : ℚ := 101228536290376259152531354309962190 / 10 ^ 36
    let w1 : ℚ := 222381034453374470544355994426240884 / 10 ^ 36
    let w2 : ℚ := 313706645877887287337962201986601313 / 10 ^ 36
    let w3 : ℚ := 362683783378361982965150449277195612 / 10 ^ 36
    let w4 : ℚ := w3
    let w5 : ℚ := w2
    let w6 : ℚ := w1
    let w7 : ℚ := w0
    [w0, w1, w2, w3, w4, w5, w6, w7]
  | 9 =>
    let w0 : ℚ := 81274388361574411971892158110523651 / 10 ^ 36
    let w1 : ℚ := 180648160694857404058472031242912810 / 10 ^ 36
    let w2 : ℚ := 260610696402935462318742869418632850 / 10 ^ 36
    let w3 : ℚ := 312347077040002840068630406584443666 / 10 ^ 36
    let w4 : ℚ := 330239355001259763164525069286974049 / 10 ^ 36
    let w5 : ℚ := w3
    let w6 : ℚ := w2
    let w7 : ℚ := w1
    let w8 : ℚ := w0
    [w0, w1, w2, w3, w4, w5, w6, w7, w8]
  | 10 =>
    let w0 : ℚ := 66671344308688137593568809893331793 / 10 ^ 36
    let w1 : ℚ := 149451349150580593145776339657697332 / 10 ^ 36
    let w2 : ℚ := 219086362515982043995534934228163192 / 10 ^ 36
    let w3 : ℚ := 269266719309996355091226921569469353 / 10 ^ 36
    let w4 : ℚ := 295524224714752870173892994651338329 / 10 ^ 36
    let w5 : ℚ := w4
    let w6 : ℚ := w3
    let w7 : ℚ := w2
    let w8 : ℚ := w1
    let w9 : ℚ := w0
    [w0, w1, w2, w3, w4, w5, w6, w7, w8, w9]
  | q => List.replicate q 0

/-- nodes of `GaussLobattoRule`, igalib.f90:2336-2464; `x0, x1, ...` are the array entries already set -/
def lobX : ℕ → List ℚ
  | 2 =>
    let x0 : ℚ := -(1)
    let x1 : ℚ := -x0
    [x0, x1]
  | 3 =>
    let x0 : ℚ := -(1)
    let x1 : ℚ := 0
    let x2 : ℚ := -x0
    [x0, x1, x2]
  | 4 =>
    let x0 : ℚ := -(1)
    let x1 : ℚ := -(447213595499957939281834733746255247 / 10 ^ 36)
    let x2 : ℚ := -x1
    let x3 : ℚ := -x0
    [x0, x1, x2, x3]
  | 5 =>
    let x0 : ℚ := -(1)
    let x1 : ℚ := -(654653670707977143798292456246858356 / 10 ^ 36)
    let x2 : ℚ := 0
    let x3 : ℚ := -x1
    let x4 : ℚ := -x0
    [x0, x1, x2, x3, x4]
  | 6 =>
    let x0 : ℚ := -(1)
    let x1 : ℚ := -(765055323929464692851002973959338150 / 10 ^ 36)
    let x2 : ℚ := -(285231516480645096314150994040879072 / 10 ^ 36)
    let x3 : ℚ := -x2
    let x4 : ℚ := -x1
    let x5 : ℚ := -x0
    [x0, x1, x2, x3, x4, x5]
  | 7 =>
    let x0 : ℚ := -(1)
    let x1 : ℚ := -(830223896278566929872032213967465140 / 10 ^ 36)
    let x2 : ℚ := -(468848793470714213803771881908766329 / 10 ^ 36)
    let x3 : ℚ := 0
    let x4 : ℚ := -x2
    let x5 : ℚ := -x1
    let x6 : ℚ := -x0
    [x0, x1, x2, x3, x4, x5, x6]
  | 8 =>
    let x0 : ℚ := -(1)
    let x1 : ℚ := -(871740148509606615337445761220663438 / 10 ^ 36)
    let x2 : ℚ := -(591700181433142302144510731397953190 / 10 ^ 36)
    let x3 : ℚ := -(209299217902478868768657260345351255 / 10 ^ 36)
    let x4 : ℚ := -x3
    let x5 : ℚ := -x2
    let x6 : ℚ := -x1
    let x7 : ℚ := -x0
    [x0, x1, x2, x3, x4, x5, x6, x7]
  | 9 =>
    let x0 : ℚ := -(1)
    let x1 : ℚ := -(899757995411460157312345244418337958 / 10 ^ 36)
    let x2 : ℚ := -(677186279510737753445885427091342451 / 10 ^ 36)
    let x3 : ℚ := -(363117463826178158710752068708659213 / 10 ^ 36)
    let x4 : ℚ := 0
    let x5 : ℚ := -x3
    let x6 : ℚ := -x2
    let x7 : ℚ := -x1
    let x8 : ℚ := -x0
    [x0, x1, x2, x3, x4, x5, x6, x7, x8]
  | 10 =>
    let x0 : ℚ := -(1)
    let x1 : ℚ := -(919533908166458813828932660822338134 / 10 ^ 36)
    let x2 : ℚ := -(738773865105505075003106174859830725 / 10 ^ 36)
    let x3 : ℚ := -(477924949810444495661175092731257998 / 10 ^ 36)
    let x4 : ℚ := -(165278957666387024626219765958173533 / 10 ^ 36)
    let x5 : ℚ := -x4
    let x6 : ℚ := -x3
    let x7 : ℚ := -x2
    let x8 : ℚ := -x1
    let x9 : ℚ := -x0
    [x0, x1, x2, x3, x4, x5, x6, x7, x8, x9]
  | q => List.replicate q 0

/-- weights of `GaussLobattoRule`, igalib.f90:2336-2464; `x0, x1, ...` are the array entries already set -/
def lobW : ℕ → List ℚ
  | 2 =>
    let w0 : ℚ := 1
    let w1 : ℚ := w0
    [w0, w1]
  | 3 =>
    let w0 : ℚ := 333333333333333333333333333333333333 / 10 ^ 36
    let w1 : ℚ := 1333333333333333333333333333333333333 / 10 ^ 36
    let w2 : ℚ := w0
    [w0, w1, w2]
  | 4 =>
    let w0 : ℚ := 166666666666666666666666666666666667 / 10 ^ 36
    let w1 : ℚ := 833333333333333333333333333333333343 / 10 ^ 36
    let w2 : ℚ := w1
    let w3 : ℚ := w0
    [w0, w1, w2, w3]
  | 5 =>
    let w0 : ℚ := 1 / 10 ^ 1
    let w1 : ℚ := 544444444444444444444444444444444444 / 10 ^ 36
    let w2 : ℚ := 711111111111111111111111111111111111 / 10 ^ 36
    let w3 : ℚ := w1
    let w4 : ℚ := w0
    [w0, w1, w2, w3, w4]
  | 6 =>
    let w0 : ℚ := 66666666666666666666666666666666667 / 10 ^ 36
    let w1 : ℚ := 378474956297846980316612808212024652 / 10 ^ 36
    let w2 : ℚ := 554858377035486353016720525121308681 / 10 ^ 36
    let w3 : ℚ := w2
    let w4 : ℚ := w1
    let w5 : ℚ := w0
    [w0, w1, w2, w3, w4, w5]
  | 7 =>
    let w0 : ℚ := 47619047619047619047619047619047619 / 10 ^ 36
    let w1 : ℚ := 276826047361565948010700406290066293 / 10 ^ 36
    let w2 : ℚ := 431745381209862623417871022281362278 / 10 ^ 36
    let w3 : ℚ := 487619047619047619047619047619047619 / 10 ^ 36
    let w4 : ℚ := w2
    let w5 : ℚ := w1
    let w6 : ℚ := w0
    [w0, w1, w2, w3, w4, w5, w6]
  | 8 =>
    let w0 : ℚ := 35714285714285714285714285714285714 / 10 ^ 36
    let w1 : ℚ := 210704227143506039382992065775756324 / 10 ^ 36
    let w2 : ℚ := 341122692483504364764240677107748172 / 10 ^ 36
    let w3 : ℚ := 412458794658703881567052971402209789 / 10 ^ 36
    let w4 : ℚ := w3
    let w5 : ℚ := w2
    let w6 : ℚ := w1
    let w7 : ℚ := w0
    [w0, w1, w2, w3, w4, w5, w6, w7]
  | 9 =>
    let w0 : ℚ := 27777777777777777777777777777777778 / 10 ^ 36
    let w1 : ℚ := 165495361560805525046339720029208306 / 10 ^ 36
    let w2 : ℚ := 274538712500161735280705618579372726 / 10 ^ 36
    let w3 : ℚ := 346428510973046345115131532139718288 / 10 ^ 36
    let w4 : ℚ := 371519274376417233560090702947845805 / 10 ^ 36
    let w5 : ℚ := w3
    let w6 : ℚ := w2
    let w7 : ℚ := w1
    let w8 : ℚ := w0
    [w0, w1, w2, w3, w4, w5, w6, w7, w8]
  | 10 =>
    let w0 : ℚ := 22222222222222222222222222222222222 / 10 ^ 36
    let w1 : ℚ := 133305990851070111126227170755392898 / 10 ^ 36
    let w2 : ℚ := 224889342063126452119457821731047843 / 10 ^ 36
    let w3 : ℚ := 292042683679683757875582257374443892 / 10 ^ 36
    let w4 : ℚ := 327539761183897456656510527916893145 / 10 ^ 36
    let w5 : ℚ := w4
    let w6 : ℚ := w3
    let w7 : ℚ := w2
    let w8 : ℚ := w1
    let w9 : ℚ := w0
    [w0, w1, w2, w3, w4, w5, w6, w7, w8, w9]
  | q => List.replicate q 0


/-- `iga.GaussLegendreRule`, igalib.pyf:467-471: check `q>=1&&q<=10` -/
def GaussLegendreRule (q : ℤ) : Res (List ℚ × List ℚ) :=
  if q ≥ 1 ∧ q ≤ 10 then .ok (legX q.toNat, legW q.toNat) else .error .f2py

/-- `iga.GaussLobattoRule`, igalib.pyf:473-477: check `q>=2&&q<=10` -/
def GaussLobattoRule (q : ℤ) : Res (List ℚ × List ℚ) :=
  if q ≥ 2 ∧ q ≤ 10 then .ok (lobX q.toNat, lobW q.toNat) else .error .f2py

variable {K : Type*} [Field K] [LinearOrder K]

/-- loop of `BasisData` which stores the offsets, igalib.f90:2482-2488; state `(ir, O)` -/
def basisDataO (eps : K) (p m : ℤ) (U : ℤ → K) (jo : ℤ → ℤ) : ℤ × (ℤ → ℤ) :=
  forUp p (m - (p + 1)) (fun i s =>
    if |U i - U (i + 1)| > eps then (s.1 + 1, upd s.2 s.1 (i - p)) else s) (1, jo)

/-- result of `iga.BasisData` as seen from Python: `r` elements, `q` points; all indices from 0
(igalib.pyf:485-490) -/
structure QuadData (K : Type*) where
  r : ℤ
  O : ℤ → ℤ
  J : ℤ → K
  W : ℤ → K
  X : ℤ → ℤ → K
  N : ℤ → ℤ → ℤ → ℤ → K

/-- `IGA.BasisData`, igalib.f90:2466-2500, with the checks of igalib.pyf:479-491.  `jo` is the
uninitialised array `O`; `jk, j2, ja, jd` the work arrays of `DersBasisFuns`. -/
def BasisData (eps : K) (jo : ℤ → ℤ) (jk : ℤ → K) (j2 ja jd : ℤ → ℤ → K) (p m : ℤ) (U : ℤ → K)
    (d : Option ℤ) (q : Option ℤ) : Res (QuadData K) :=
  let d := d.getD p
  let q := q.getD (p + 1)
  if p ≥ 1 ∧ m ≥ 2 * p + 1 ∧ (d ≥ 0 ∧ d ≤ p) ∧ (q ≥ 1 ∧ q ≤ 10) then
    let O := (basisDataO eps p m U jo).2
    let Xg := fun iq : ℤ => (((legX q.toNat).getD (iq - 1).toNat 0 : ℚ) : K)
    let W := fun iq : ℤ => (((legW q.toNat).getD (iq - 1).toNat 0 : ℚ) : K)
    let i := fun ir : ℤ => O ir + p
    let J := fun ir : ℤ => (U (i ir + 1) - U (i ir)) / 2
    let X := fun iq ir : ℤ => (Xg iq + 1) * J ir + U (i ir)
    .ok { r := countSpans (m - p - 1) p U
          O := fun e => O (e + 1)
          J := fun e => J (e + 1)
          W := fun g => W (g + 1)
          X := fun e g => X (g + 1) (e + 1)
          N := fun e g a l => dersBasisFuns jk j2 ja jd (i (e + 1)) (X (g + 1) (e + 1)) p d U a l }
  else .error .f2py

/-- `IGA.BasisDataCol`, igalib.f90:2513-2533, with the checks of igalib.pyf:500-509: offsets and basis
values at `r` given points, all indices from 0 -/
def BasisDataCol (jk : ℤ → K) (j2 ja jd : ℤ → ℤ → K) (p m : ℤ) (U : ℤ → K) (r : ℤ) (X : ℤ → K)
    (d : Option ℤ) : Res ((ℤ → ℤ) × (ℤ → ℤ → ℤ → K)) :=
  let d := d.getD p
  if p ≥ 1 ∧ m ≥ 2 * p + 1 ∧ r ≥ 1 ∧ (d ≥ 0 ∧ d ≤ p) then
    let ii := fun e : ℤ => findSpan (m - (p + 1)) p (X e) U
    .ok (fun e => ii e - p, fun e a l => dersBasisFuns jk j2 ja jd (ii e) (X e) p d U a l)
  else .error .f2py

end Igakit
