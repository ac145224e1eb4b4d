import Verif.Model.Nurbs
import Mathlib.Analysis.SpecialFunctions.Pow.NNReal

/-!
# Model of knot removal

`RemoveKnot` of igalib.f90 (module `bspline`, lines 264-356, and module `BSp`, lines 1130-1152) and
`NURBS.remove` (nurbs.py:850-885).

The comparison `Distance(d,P1,P2) <= TOL` is the parameter `near P1 P2`; `NURBS.remove` is modelled over
the real numbers, where the square root of `Distance` exists.
-/

namespace Igakit

variable {K : Type*} [Field K] [LinearOrder K]
variable {E : Type*} [AddCommGroup E] [Module K E]

/-- the variables of the first inner loop of `RemoveKnot` (`temp, i, ii, j, jj`, igalib.f90:276-278) -/
structure RemSt (E : Type*) where
  temp : ℤ → E
  i : ℤ
  ii : ℤ
  j : ℤ
  jj : ℤ

/-- `alfi`, igalib.f90:294 and 306 -/
def remAlfi (U : ℤ → K) (uu : K) (p t i : ℤ) : K := (uu - U i) / (U (i + (p + 1) + t) - U i)

/-- `alfj`, igalib.f90:295 -/
def remAlfj (U : ℤ → K) (uu : K) (p t j : ℤ) : K := (uu - U (j - t)) / (U (j + (p + 1)) - U (j - t))

/-- body of the loop igalib.f90:293-300 -/
def remBody (U : ℤ → K) (uu : K) (p t : ℤ) (Pw : ℤ → E) (s : RemSt E) : RemSt E :=
  let alfi := remAlfi U uu p t s.i
  let alfj := remAlfj U uu p t s.j
  let temp := upd s.temp s.ii (alfi⁻¹ • (Pw s.i - (1 - alfi) • s.temp (s.ii - 1)))
  let temp := upd temp s.jj ((1 - alfj)⁻¹ • (Pw s.j - alfj • temp (s.jj + 1)))
  ⟨temp, s.i + 1, s.ii + 1, s.j - 1, s.jj - 1⟩

/-- the loop `do while (j-i > t)` of igalib.f90:293-300, run for at most `fuel` rounds -/
def remSolve (U : ℤ → K) (uu : K) (p t : ℤ) (Pw : ℤ → E) : ℕ → RemSt E → RemSt E
  | 0, s => s
  | fuel + 1, s => if s.j - s.i > t then remSolve U uu p t Pw fuel (remBody U uu p t Pw s) else s

/-- state of `temp, i, ii, j, jj` at igalib.f90:301: lines 287-300 -/
def remSolved (U : ℤ → K) (uu : K) (p t first last : ℤ) (Pw temp : ℤ → E) : RemSt E :=
  let off := first - 1
  let temp := upd temp 0 (Pw off)
  let temp := upd temp (last + 1 - off) (Pw (last + 1))
  remSolve U uu p t Pw (last + 1 - first).toNat ⟨temp, first, 1, last, last - off⟩

/-- the removal test `remflag`, igalib.f90:301-310 -/
def remFlag (U : ℤ → K) (uu : K) (p t : ℤ) (near : E → E → Prop) (Pw : ℤ → E) (s : RemSt E) : Prop :=
  if s.j - s.i < t then near (s.temp (s.ii - 1)) (s.temp (s.jj + 1))
  else
    let alfi := remAlfi U uu p t s.i
    near (Pw s.i) (alfi • s.temp (s.ii + t + 1) + (1 - alfi) • s.temp (s.ii - 1))

/-- the loop igalib.f90:316-321, at most `fuel` rounds -/
def remStore (t off : ℤ) (temp : ℤ → E) : ℕ → ℤ → ℤ → (ℤ → E) → (ℤ → E)
  | 0, _, _, Pw => Pw
  | fuel + 1, i, j, Pw =>
    if j - i > t then
      remStore t off temp fuel (i + 1) (j - 1) (upd (upd Pw i (temp (i - off))) j (temp (j - off)))
    else Pw

open Classical in
/-- the loop `do t = 0,num-1` of igalib.f90:286-325 from counter `t` with `k` rounds left; returns the
final `t` and `Pw` -/
noncomputable def remLoop (U : ℤ → K) (uu : K) (p : ℤ) (near : E → E → Prop) :
    ℕ → (t first last : ℤ) → (Pw temp : ℤ → E) → ℤ × (ℤ → E)
  | 0, t, _, _, Pw, _ => (t, Pw)
  | k + 1, t, first, last, Pw, temp =>
    let s := remSolved U uu p t first last Pw temp
    if remFlag U uu p t near Pw s then
      remLoop U uu p near k (t + 1) (first - 1) (last + 1)
        (remStore t (first - 1) s.temp (last + 1 - first).toNat first last Pw) s.temp
    else (t, Pw)

/-- the indices `(i, j)` of igalib.f90:330-338 -/
def remIdx (fout t : ℤ) : ℤ × ℤ :=
  forUp 1 (t - 1) (fun k (ij : ℤ × ℤ) => if k % 2 = 1 then (ij.1 + 1, ij.2) else (ij.1, ij.2 - 1)) (fout, fout)

/-- the loop igalib.f90:339-342 -/
def remShift (n : ℤ) (ij : ℤ × ℤ) (Pw : ℤ → E) : ℤ → E :=
  (forUp (ij.1 + 1) n (fun k (s : (ℤ → E) × ℤ) => (upd s.1 s.2 (s.1 k), s.2 + 1)) (Pw, ij.2)).1

/-- `RemoveKnot`, igalib.f90:264-356: `(t, U, Pw)` on return.  `jt` is the uninitialised array `temp`. -/
noncomputable def removeKnot (jt : ℤ → E) (near : E → E → Prop) (n p : ℤ) (U : ℤ → K) (Pw : ℤ → E) (uu : K)
    (r s num : ℤ) : ℤ × (ℤ → K) × (ℤ → E) :=
  let m := n + p + 1
  let fout := Int.tdiv (2 * r - s - p) 2
  let tP := remLoop U uu p near num.toNat 0 (r - p) (r - s) Pw jt
  let t := tP.1
  if t = 0 then (t, U, tP.2)
  else (t, forUp (r + 1) m (fun k U => upd U (k - t) (U k)) U, remShift n (remIdx fout t) tP.2)

/-- `BSp.RemoveKnot`, igalib.f90:1130-1152, checks igalib.pyf:97-112.  The copies `V = U`, `Qw = Pw` are
the arrays themselves. -/
noncomputable def BSp.RemoveKnot (eps : K) (jt : ℤ → E) (near : E → E → Prop) (n p : ℤ) (U : ℤ → K)
    (Pw : ℤ → E) (uu : K) (r : ℤ) : Res (ℤ × (ℤ → K) × (ℤ → E)) :=
  if n ≥ 1 ∧ p ≥ 1 ∧ (uu ≥ U p ∧ uu ≤ U (n + 1)) ∧ (r ≥ 0 ∧ r ≤ p) then
    if r = 0 then .ok (0, U, Pw)
    else if uu ≤ U p then .ok (0, U, Pw)
    else if uu ≥ U (n + 1) then .ok (0, U, Pw)
    else
      let k := findSpan n p uu U
      let s := findMult eps k uu p U
      .ok (removeKnot jt near n p U Pw uu k s r)
  else .error .f2py

/-- `Distance(d,P1,P2)`, igalib.f90:344-355, for two rows of the net: `sz` are the lengths of the other
axes, `nc` the number of components, `d` is their product -/
noncomputable def rowDist {d : ℕ} (sz : Fin d → ℤ) (nc : ℕ) (P1 P2 : (Fin d → ℤ) → ℕ → ℝ) : ℝ :=
  Real.sqrt (∑ o ∈ Fintype.piFinset (fun a => Finset.Ico 0 (sz a)), ∑ c ∈ Finset.range nc,
    (P1 o c - P2 o c) * (P1 o c - P2 o c))

/-- `np.linalg.norm(Pw[i,:-1])`, nurbs.py:873: all entries of the row but the last one -/
noncomputable def rowNorm {d : ℕ} (sz : Fin d → ℤ) (nc : ℕ) (P : (Fin d → ℤ) → ℕ → ℝ) : ℝ :=
  Real.sqrt (∑ oc ∈ (Fintype.piFinset (fun a => Finset.Ico 0 (sz a)) ×ˢ Finset.range nc).erase
    (fun a => sz a - 1, nc - 1), P oc.1 oc.2 * P oc.1 oc.2)

/-- `min` of the entries `f(0), ..., f(n)` (nurbs.py:870) -/
def minUpTo (n : ℤ) (f : ℤ → K) : K := forUp 1 n (fun i m => min m (f i)) (f 0)

/-- `max` of the entries `f(0), ..., f(n)` (nurbs.py:874) -/
def maxUpTo (n : ℤ) (f : ℤ → K) : K := forUp 1 n (fun i m => max m (f i)) (f 0)

namespace Nrb
variable {d : ℕ}

/-- `TOL`, nurbs.py:870-875 -/
noncomputable def removeTol (N : Nrb ℝ (d + 1)) (a : Fin (d + 1)) (deviation : ℝ) : ℝ :=
  let sz := a.removeNth N.shape
  let wmin := minUpTo (N.n a) (fun i => N.row a i (fun b => sz b - 1) (N.nc - 1))
  let Pmax := maxUpTo (N.n a) (fun i => rowNorm sz N.nc (N.row a i))
  deviation * wmin / (1 + Pmax)

/-- `NURBS.remove`, nurbs.py:850-885 (`times = None` is `none`; the default is `some 1`) -/
noncomputable def remove (eps : ℝ) (jt : ℤ → (Fin d → ℤ) → ℕ → ℝ) (N : Nrb ℝ (d + 1)) (axis : ℤ)
    (value : ℝ) (times : Option ℤ) (deviation : ℝ) : Res (Nrb ℝ (d + 1)) := do
  let a ← normAxis (d + 1) axis
  let p := N.degree a
  let U := N.U a
  pyAssert (N.lo a ≤ value ∧ value ≤ N.hi a)
  let m ← BSp.FindMult eps p (N.len a - 1) U value
  let mult := min m p
  let times := min (times.getD mult) mult
  pyAssert (times ≥ 0)
  if times = 0 then pure N
  else if value ≤ N.lo a then pure N
  else if value ≥ N.hi a then pure N
  else do
    let TOL := N.removeTol a deviation
    let tVQ ← BSp.RemoveKnot eps jt (fun P1 P2 => rowDist (a.removeNth N.shape) N.nc P1 P2 ≤ TOL) (N.n a) p U
      (N.row a) value times
    pure (N.setAxis a (N.shape a - tVQ.1) (N.len a - tVQ.1) tVQ.2.1 tVQ.2.2)

end Nrb
end Igakit
