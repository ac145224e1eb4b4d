import Verif.Model.Nurbs

/-!
# NaN and infinities

The parts of the code that meet numbers given by the user, again for doubles with their special values: the search
of the knot span, and the checks with which methods begin.  Operations on finite numbers are exact (no rounding,
no overflow) and zero has no sign.
-/

namespace Igakit

/-- a double (the arguments of nurbs.py:776 and of igalib.f90:6-43) -/
inductive Dbl (K : Type) where
  | nan
  | ninf
  | pinf
  | fin (x : K)
deriving DecidableEq

namespace Dbl

variable {K : Type} [Field K] [LinearOrder K]

/-- `<`, false as soon as a NaN takes part (as in igalib.f90:23) -/
def lt : Dbl K → Dbl K → Bool
  | ninf, pinf => true
  | ninf, fin _ => true
  | fin _, pinf => true
  | fin x, fin y => decide (x < y)
  | _, _ => false

/-- `==`, false as soon as a NaN takes part (as in nurbs.py:708) -/
def eq : Dbl K → Dbl K → Bool
  | ninf, ninf => true
  | pinf, pinf => true
  | fin x, fin y => decide (x = y)
  | _, _ => false

/-- `<=` (as in nurbs.py:776) -/
def le (a b : Dbl K) : Bool := lt a b || eq a b

/-- `>=` (as in nurbs.py:1233) -/
def ge (a b : Dbl K) : Bool := le b a

/-- an argument that is not a number: nurbs.py:776 has no test for it -/
def isNan : Dbl K → Bool
  | nan => true
  | _ => false

/-- negation, as in nurbs.py:712 -/
def neg : Dbl K → Dbl K
  | nan => nan
  | ninf => pinf
  | pinf => ninf
  | fin x => fin (-x)

/-- sum, as in nurbs.py:714 -/
def add : Dbl K → Dbl K → Dbl K
  | fin x, fin y => fin (x + y)
  | fin _, pinf => pinf
  | fin _, ninf => ninf
  | pinf, fin _ => pinf
  | ninf, fin _ => ninf
  | pinf, pinf => pinf
  | ninf, ninf => ninf
  | _, _ => nan

/-- difference, as in nurbs.py:712 -/
def sub (a b : Dbl K) : Dbl K := add a (neg b)

/-- a number times `+inf` (as in nurbs.py:713) -/
def mulInf (x : K) : Dbl K := if 0 < x then pinf else if x < 0 then ninf else nan

/-- product, as in nurbs.py:713 -/
def mul : Dbl K → Dbl K → Dbl K
  | nan, _ => nan
  | _, nan => nan
  | fin x, fin y => fin (x * y)
  | fin x, pinf => mulInf x
  | fin x, ninf => neg (mulInf x)
  | pinf, fin x => mulInf x
  | ninf, fin x => neg (mulInf x)
  | pinf, pinf => pinf
  | ninf, ninf => pinf
  | pinf, ninf => ninf
  | ninf, pinf => ninf

/-- division; numpy gives `inf` or NaN for a zero divisor (with a warning) (nurbs.py:713) -/
def div : Dbl K → Dbl K → Dbl K
  | nan, _ => nan
  | _, nan => nan
  | fin x, fin y => if y = 0 then mulInf x else fin (x / y)
  | fin _, _ => fin 0
  | pinf, fin y => if y < 0 then ninf else pinf
  | ninf, fin y => if y < 0 then pinf else ninf
  | _, _ => nan

/-- `np.minimum`: NaN wins (`u.min()`, nurbs.py:1393) -/
def min (a b : Dbl K) : Dbl K := if a.isNan then a else if b.isNan then b else if lt b a then b else a

/-- `np.maximum`: NaN wins (`u.max()`, nurbs.py:1394) -/
def max (a b : Dbl K) : Dbl K := if a.isNan then a else if b.isNan then b else if lt a b then b else a

/-- order used by `ndarray.sort`: NaN after everything else (nurbs.py:1057) -/
def sortLe (a b : Dbl K) : Bool := b.isNan || (!a.isNan && le a b)

end Dbl

open Dbl

variable {K : Type} [Field K] [LinearOrder K]

/-- loop condition of `FindSpan`, igalib.f90:23 -/
def spanCondX (uu : Dbl K) (U : ℤ → Dbl K) (s : SpanSt) : Bool := lt uu (U s.span) || ge uu (U (s.span + 1))

/-- loop body of `FindSpan`, igalib.f90:24-29 -/
def spanBodyX (uu : Dbl K) (U : ℤ → Dbl K) (s : SpanSt) : SpanSt :=
  if lt uu (U s.span) then
    { low := s.low, high := s.span, span := (s.low + s.span).tdiv 2 }
  else
    { low := s.span, high := s.high, span := (s.span + s.high).tdiv 2 }

/-- `FindSpan`, igalib.f90:6-31; `none`: still in the loop after `fuel` rounds -/
def findSpanX (fuel : ℕ) (n p : ℤ) (uu : Dbl K) (U : ℤ → Dbl K) : Option ℤ :=
  if ge uu (U (n + 1)) then some n
  else if le uu (U p) then some p
  else (whileFuel (spanCondX uu U) (spanBodyX uu U) fuel
    { low := p, high := n + 1, span := (p + (n + 1)).tdiv 2 }).map SpanSt.span

/-! The methods below are given by their first statements; `rest` is what follows and is arbitrary.  `lo` and `hi` are
the ends of the domain, `U[p]` and `U[-p-1]`. -/

/-- `insert` and `remove`, nurbs.py:776 and 856 -/
def insertX {α : Type} (lo hi value : Dbl K) (rest : Dbl K → Res α) : Res α := do
  pyAssert (le lo value = true ∧ le value hi = true)
  rest value

/-- `extract`, nurbs.py:1324-1326 -/
def extractX {α : Type} (lo hi value : Dbl K) (rest : Dbl K → Res α) : Res α := do
  pyAssert (ge value lo = true)
  pyAssert (le value hi = true)
  rest value

/-- `slice`, nurbs.py:1227-1235 -/
def sliceX {α : Type} (lo hi : Dbl K) (start stop : Option (Dbl K)) (rest : Dbl K → Dbl K → Res α) : Res α := do
  let s := start.getD lo
  let e := stop.getD hi
  pyAssert (ge s lo = true)
  pyAssert (le e hi = true)
  pyAssert (lt s e = true)
  rest s e

/-- `Arg` of the evaluating methods, nurbs.py:1391-1395, 1461-1465, 1526-1530, 1594-1598, 1663-1667; `min` of an empty
array raises ValueError -/
def evalX {α : Type} (lo hi : Dbl K) (u : List (Dbl K)) (rest : List (Dbl K) → Res α) : Res α :=
  match u with
  | [] => .error .value
  | x :: l => do
    pyAssert (ge (l.foldl Dbl.min x) lo = true)
    pyAssert (le (l.foldl Dbl.max x) hi = true)
    rest u

/-- `refine` with `Arg`, nurbs.py:1056-1059 and 1066-1071: the values are sorted, the first and the last checked -/
def refineX {α : Type} (lo hi : Dbl K) (values : List (Dbl K)) (same : Res α) (rest : List (Dbl K) → Res α) : Res α :=
  if values = [] then same
  else do
    let u := values.mergeSort sortLe
    pyAssert (∀ x ∈ u.head?, ge x lo = true)
    pyAssert (∀ x ∈ u.getLast?, le x hi = true)
    rest u

/-- `remap`, nurbs.py:700-719: the new knots; `none`: returned as it is -/
def remapX (p : ℤ) (len : ℤ) (U : ℤ → Dbl K) (start stop : Option (Dbl K)) : Res (Option (ℤ → Dbl K)) := do
  let a := U p
  let b := U (len + (-p - 1))
  let c := start.getD a
  let d := stop.getD b
  if eq a c = true ∧ eq b d = true then pure none
  else do
    pyAssert (lt c d = true)
    pure (some fun j => add (mul (sub (U j) a) (div (sub d c) (sub b a))) c)

end Igakit
