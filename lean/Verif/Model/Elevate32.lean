import Verif.Model.Elevate

/-!
# Degree elevation with 32 bit integers

`Bin` of igalib.f90 computes binomial coefficients in `integer(kind=4)`.  Its values grow exponentially with the
degree, unlike every other integer of the library, which is an index or a size.  Two versions with 32 bit
arithmetic are given here:

* `elevBinC` stops at the first product which is not representable (what a compiler with overflow checks does;
  the Fortran standard gives no meaning to the program beyond that point);
* `elevBin32` goes on with the product reduced modulo `2^32` (what the `imul` instruction does, hence the
  compiled library).
-/

namespace Igakit

variable {K : Type*} [Field K] [LinearOrder K]
variable {E : Type*} [AddCommGroup E] [Module K E]

/-- the value is representable in `integer(kind=4)` (igalib.f90:643-644) -/
def In32 (z : ℤ) : Prop := -2 ^ 31 ≤ z ∧ z < 2 ^ 31

instance (z : ℤ) : Decidable (In32 z) := by unfold In32; infer_instance

/-- the result of a 32 bit operation whose exact value is `z`
(the products of igalib.f90:647; the standard leaves the overflow open, compilers wrap around) -/
def wrap32 (z : ℤ) : ℤ := (z + 2 ^ 31) % 2 ^ 32 - 2 ^ 31

/-- `Bin`, igalib.f90:641-650; `none` when the product of line 647 overflows -/
def elevBinC (n k : ℤ) : Option ℤ :=
  forUp 0 (min k (n - k) - 1) (fun i (o : Option ℤ) => o.bind fun C =>
    if In32 (C * (n - i)) then some (Int.tdiv (C * (n - i)) (i + 1)) else none) (some 1)

/-- `Bin`, igalib.f90:641-650, with the product of line 647 reduced to 32 bits (the quotient of line 648 is in
range since the divisor is positive) -/
def elevBin32 (n k : ℤ) : ℤ :=
  forUp 0 (min k (n - k) - 1) (fun i C => Int.tdiv (wrap32 (C * (n - i))) (i + 1)) 1

/-- the table `bezalfs`, igalib.f90:526-539; line 531 multiplies two 32 bit integers before it divides by the
real `den` -/
def elevBez32 (jb : ℤ → ℤ → K) (p t : ℤ) : ℤ → ℤ → K :=
  let ph := p + t
  let bz := upd2 jb 0 0 1
  let bz := upd2 bz ph p 1
  let bz := forUp 1 (ph / 2) (fun i bz =>
    let den : K := elevBin32 ph i
    forUp (max 0 (i - t)) (min p i) (fun j bz =>
      upd2 bz i j ((wrap32 (elevBin32 p j * elevBin32 t (i - j)) : ℤ) / den)) bz) bz
  forUp (ph / 2 + 1) (ph - 1) (fun i bz =>
    forUp (max 0 (i - t)) (min p i) (fun j bz => upd2 bz i j (bz (ph - i) (p - j))) bz) bz

/-- `DegreeElevate`, igalib.f90:498-651, as `degreeElevate` but with the table computed in 32 bits; the other
integers are indices into the arrays -/
def degreeElevate32 (eps : K) (jk : ℤ → K) (je : ℤ → E) (jb : ℤ → ℤ → K) (n p : ℤ) (U : ℤ → K) (Pw : ℤ → E)
    (t : ℤ) : (ℤ → K) × (ℤ → E) :=
  if t < 1 then (U, Pw)
  else
    let ph := p + t
    let s := elevLoop eps (elevBez32 jb p t) n p t U Pw (n + p + 1).toNat
      { a := p, b := p + 1, r := -1, kind := ph + 1, cind := 1, ua := U p,
        Uh := fillRange jk 0 ph 0 (fun _ => U p), Qw := upd je 0 (Pw 0),
        bpts := fillRange je 0 p 0 Pw, ebpts := je, nextbpts := je, alfs := jk }
    (s.Uh, s.Qw)

/-- `BSp.DegreeElevate`, igalib.f90:1200-1212, checks and output size igalib.pyf:154-165 -/
def BSp.DegreeElevate32 (eps : K) (jk : ℤ → K) (je : ℤ → E) (jb : ℤ → ℤ → K) (n p : ℤ) (U : ℤ → K) (Pw : ℤ → E)
    (t : ℤ) : Res (ℤ × (ℤ → K) × (ℤ → E)) :=
  if n ≥ 1 ∧ p ≥ 1 ∧ t ≥ 0 then
    let VQ := degreeElevate32 eps jk je jb n p U Pw t
    .ok (n + t * countSpans n p U, VQ.1, VQ.2)
  else .error .f2py

/-- `NURBS.elevate`, nurbs.py:1141-1164 -/
def Nrb.elevate32 {K : Type} [Field K] [LinearOrder K] {d : ℕ} (eps : K) (jk : ℤ → K)
    (je : ℤ → (Fin d → ℤ) → ℕ → K) (jb : ℤ → ℤ → K) (N : Nrb K (d + 1)) (axis : ℤ) (times : Option ℤ) :
    Res (Nrb K (d + 1)) :=
  match times with
  | none => pure N
  | some t => do
    pyAssert (t ≥ 0)
    if t = 0 then pure N
    else do
      let a ← normAxis (d + 1) axis
      let oVQ ← BSp.DegreeElevate32 eps jk je jb (N.n a) (N.degree a) (N.U a) (N.row a) t
      pure (N.setAxis a (oVQ.1 + 1) (oVQ.1 + (N.degree a + t) + 2) oVQ.2.1 oVQ.2.2)

end Igakit
