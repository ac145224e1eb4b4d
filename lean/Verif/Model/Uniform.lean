import Verif.Model.Ctor

/-!
# Model of `InsertUniformly` (/repo/demo/venturi.py:5-44)

Arrays of knots are lists.  `U0 = U` (line 25) makes both names refer to one array until the first
`np.concatenate`; before that the smoothing pass finds every entry in `U0` when the knots are sorted
and writes nothing, so the two names are modelled by two lists.  Arithmetic is exact.
-/

namespace Igakit.Unif

variable {K : Type} [Field K] [LinearOrder K]

/-- `U0.searchsorted(v)`, venturi.py:42: number of leading entries smaller than `v` (numpy bisects;
the results agree on sorted arrays) -/
def searchsorted (l : List K) (v : K) : ℕ := (l.takeWhile (fun x => decide (x < v))).length

/-- the conditional assignment, venturi.py:42-43; `tol` is `1.0e-14`.  IndexError when
`searchsorted` returns the length of `U0`. -/
def smoothAt (tol : K) (U0 U : List K) (i : ℕ) : Res (List K) :=
  match U[i]?, U[i + 1]?, U[i + 2]? with
  | some a, some x, some b =>
    match U0[searchsorted U0 x]? with
    | some u => if tol < |u - x| then .ok (U.set (i + 1) (1 / 2 * (a + b))) else .ok U
    | none => .error .index
  | _, _, _ => .error .index

/-- one pass over `range(len(U)-2)`, venturi.py:41-43 -/
def smoothPass (tol : K) (U0 U : List K) : Res (List K) :=
  (List.range (U.length - 2)).foldlM (smoothAt tol U0) U

/-- five passes, venturi.py:40-43 -/
def smooth (tol : K) (U0 U : List K) : Res (List K) :=
  (List.range 5).foldlM (fun V _ => smoothPass tol U0 V) U

/-- `Uadd`: the middles of the spans for which `big` holds, venturi.py:30-33 -/
def mids (big : K → Prop) [DecidablePred big] : List K → List K
  | a :: b :: l =>
    if big (b - a) then 1 / 2 * (b + a) :: mids big (b :: l) else mids big (b :: l)
  | _ => []

/-- the `while` loop, venturi.py:28-43, run for at most `fuel` rounds; `none`: still running -/
def loop (tol : K) (big : K → Prop) [DecidablePred big] (U0 : List K) :
    ℕ → List K → Option (Res (List K))
  | 0, _ => none
  | fuel + 1, U =>
    let add := mids big U
    let V := if 0 < add.length then (U ++ add).mergeSort (fun x y => decide (x ≤ y)) else U
    match smooth tol U0 V with
    | .error e => some (.error e)
    | .ok W => if 0 < add.length then loop tol big U0 fuel W else some (.ok W)

/-- `InsertUniformly(U, n)`, venturi.py:5-44, for at most `fuel` rounds of the loop.  The empty array
has no maximum (ValueError).  For `n = 0` the quotient of line 26 is infinite or not a number and no
span is larger. -/
def insertUniformly (tol : K) (fuel : ℕ) (U : List K) (n : ℤ) : Option (Res (List K)) :=
  match U with
  | [] => some (.error .value)
  | a :: l =>
    let dU := (l.foldl max a - l.foldl min a) / (n : K)
    match loop tol (fun g => n ≠ 0 ∧ dU < g) (a :: l) fuel (a :: l) with
    | none => none
    | some (.error e) => some (.error e)
    | some (.ok V) => some (.ok ((Nrb.npUnique V).filter (fun x => decide (x ∉ a :: l))))

end Igakit.Unif
