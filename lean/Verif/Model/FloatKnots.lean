import Verif.Model.Ctor
import Verif.Model.CadRefine

/-!
# Knot vectors in floating point arithmetic

`remap`, `reverse`, `KnotVector`, `Greville` and the knots inserted by `cad.refine` again, with every arithmetic operation followed by a
rounding `rd`; with `rd x = x` they are the definitions of `Verif.Model.Nurbs`, `Iga`, `CadRefine`.

Simplifications: as in `Verif.Model.Float` there is no overflow; the divisions here are by lengths of domains and by numbers
of elements, which are not zero.  Integers are converted to doubles without an error.
-/

namespace Igakit

variable {K : Type} [Field K] [LinearOrder K]

namespace Fp

variable (rd : K → K)

/-- one knot in `remap`, nurbs.py:712-714: `U -= a; U *= (d-c)/(b-a); U += c` -/
def remapKnot (a b c d u : K) : K := rd (rd (rd (u - a) * rd (rd (d - c) / rd (b - a))) + c)

/-- `KntRev`, nurbs.py:643-645 -/
def kntRev (p len : ℤ) (U : ℤ → K) : ℤ → K := fun j => rd (rd (U (len + (-p - 1)) + U p) - U (len - 1 - j))

/-- `Ui + i*dU`, `dU = (Uf-Ui)/E`: the interior knots of `KnotVector`, igalib.f90:2182-2186, and of `cad.refine`, cad.py:738-760 -/
def evenKnot (Ui Uf : K) (E i : ℤ) : K := rd (Ui + rd ((i : K) * rd (rd (Uf - Ui) / (E : K))))

/-- interior knots of `KnotVector`, igalib.f90:2183-2189; state `(k, U)` -/
def knotVectorInner (jk : ℤ → K) (E p C : ℤ) (Ui Uf : K) : ℤ × (ℤ → K) :=
  forUp 1 (E - 1) (fun i s => forUp 1 (p - C) (fun _ (s : ℤ × (ℤ → K)) =>
    (s.1 + 1, upd s.2 s.1 (evenKnot rd Ui Uf E i))) s) (p + 1, jk)

/-- wrapping of `KnotVector`, igalib.f90:2194-2200 -/
def knotVectorWrap (p C m : ℤ) (Ui Uf : K) (U : ℤ → K) : ℤ → K :=
  let n := m - (p + 1)
  forUp 0 C (fun k U =>
    let U := upd U (C - k) (rd (rd (Ui - Uf) + U (n - k)))
    upd U (m - C + k) (rd (rd (Uf - Ui) + U (p + 1 + k)))) U

/-- `IGA.KnotVector`, igalib.f90:2173-2201, checks igalib.pyf:455-465 -/
def iga_KnotVector (jk : ℤ → K) (E p C : ℤ) (Ui Uf : K) (wrap : Bool) : Res (ℤ → K) :=
  if E ≥ 1 ∧ p ≥ 1 ∧ (C ≥ 0 ∧ C < p) then
    let m := knotVectorM E p C
    let U := knotVectorEnds p m Ui Uf (knotVectorInner rd jk E p C Ui Uf).2
    .ok (if wrap then knotVectorWrap rd p C m Ui Uf U else U)
  else .error .f2py

/-- `sum(U(i+1:i+p)) / p`, igalib.f90:1107: the sum is formed from left to right, starting with zero -/
def greville (p : ℤ) (U : ℤ → K) (i : ℤ) : K :=
  rd (forUp 1 p (fun j s => rd (s + U (i + j))) 0 / (p : K))

/-- `BSp.Greville`, igalib.f90:1100-1109 -/
def Greville (p m : ℤ) (U : ℤ → K) : Res (ℤ → K) :=
  if p ≥ 1 ∧ m ≥ 2 * p + 1 then .ok (fun i => greville rd p U i) else .error .f2py

/-- knots and repetitions in element `i`, cad.py:738-760 -/
def elementKnots (p C : ℤ) (u : List K) (s : List ℤ) (N : Factor) (i : ℕ) : List (K × ℤ) :=
  let n := N.parts i
  (List.range n.toNat).map (fun (k : ℕ) =>
    (evenKnot rd (u.getD i 0) (u.getD (i + 1) 0) n k, if k = 0 then max (p - C - s.getD i 0) 0 else p - C))

/-- `u.repeat(s)`, cad.py:738-764 -/
def refineVals (p C : ℤ) (u : List K) (s : List ℤ) (N : Factor) : List K :=
  ((List.range (u.length - 1)).flatMap (elementKnots rd p C u s N)).tail.flatMap (fun q => List.replicate q.2.toNat q.1)

end Fp

namespace Nrb

variable {d : ℕ}

/-- `NURBS.remap`, nurbs.py:700-719 -/
def remapF (rd : K → K) (N : Nrb K d) (axis : ℤ) (start stop : Option K) : Res (Nrb K d) := do
  let a ← normAxis d axis
  let a0 := N.lo a
  let b0 := N.hi a
  let c := start.getD a0
  let e := stop.getD b0
  if a0 = c ∧ b0 = e then pure N
  else do
    pyAssert (c < e)
    pure { N with U := Function.update N.U a (fun j => Fp.remapKnot rd a0 b0 c e (N.U a j)) }

/-- one round of the loop of `NURBS.reverse`, nurbs.py:652-654 -/
def reverse1F (rd : K → K) (N : Nrb K d) (a : Fin d) : Nrb K d :=
  { N with
    U := Function.update N.U a (Fp.kntRev rd (N.degree a) (N.len a) (N.U a))
    P := fun idx => N.P (Function.update idx a (N.shape a - 1 - idx a)) }

/-- `NURBS.reverse`, nurbs.py:646-658.  (The degree is computed once before the loop; it does not depend on the knots.) -/
def reverseF (rd : K → K) (N : Nrb K d) (axes : List ℤ) : Res (Nrb K d) := do
  let axes := if axes = [] then (List.finRange d).map (fun a : Fin d => ((a : ℕ) : ℤ)) else axes
  axes.foldlM (fun N axis => do
    let a ← normAxis d axis
    pure (reverse1F rd N a)) N

/-- `greville(axis)`, nurbs.py:351-363 -/
def grevilleF (rd : K → K) (N : Nrb K d) (axis : ℤ) : Res (ℤ × (ℤ → K)) := do
  let a ← normAxis d axis
  let X ← Fp.Greville rd (N.degree a) (N.len a - 1) (N.U a)
  pure (N.len a - 1 - N.degree a, X)

end Nrb
end Igakit
