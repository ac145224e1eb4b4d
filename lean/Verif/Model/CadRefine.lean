import Verif.Model.Compat
import Verif.Model.Ctor

/-!
# Model of `cad.refine` (/repo/igakit/cad.py:679-766)
-/

namespace Igakit

/-- an argument of `cad.refine` (cad.py:691-702): missing, one value for all axes, or a sequence with a value or `None` for each axis -/
inductive PyArg (α : Type) where
  | missing
  | one (x : α)
  | seq (l : List (Option α))

/-- the number of parts of the elements of an axis (cad.py:721-724): the same for all (`N.ndim == 0`) or one number for
each element.  Simplification: the entries are integers; how numpy nests the object array of the argument is not modelled. -/
inductive Factor where
  | all (n : ℤ)
  | each (l : List ℤ)

namespace Cad

/-- `Arg(arg, defval)`, cad.py:691-702 -/
def arg {α : Type} {d : ℕ} (x : PyArg α) (defval : Fin d → α) : Res (Fin d → α) :=
  match x with
  | .missing => .ok defval
  | .one v => .ok (fun _ => v)
  | .seq l => if l.length = d then .ok (fun a => (l.getD a none).getD (defval a)) else .error .assertion

/-- `np.all(factor[i] > 0)`, cad.py:722-724 -/
def _root_.Igakit.Factor.Pos : Factor → Prop
  | .all n => 0 < n
  | .each l => ∀ n ∈ l, 0 < n

instance (f : Factor) : Decidable f.Pos := by
  cases f
  · exact inferInstanceAs (Decidable (0 < _))
  · exact inferInstanceAs (Decidable (∀ n ∈ _, 0 < n))

/-- `N.ndim == 0 or N.size == m`, cad.py:737 -/
def _root_.Igakit.Factor.Fits (m : ℕ) : Factor → Prop
  | .all _ => True
  | .each l => l.length = m

instance (m : ℕ) (f : Factor) : Decidable (f.Fits m) := by
  cases f
  · exact inferInstanceAs (Decidable True)
  · exact inferInstanceAs (Decidable (_ = m))

/-- the number of parts of element `i` (`N` or `N[i]`, cad.py:741-742, 754) -/
def _root_.Igakit.Factor.parts : Factor → ℕ → ℤ
  | .all n, _ => n
  | .each l, i => l.getD i 1

variable {K : Type} [Field K] [LinearOrder K] {d : ℕ}

/-- knots and repetitions in element `i`, cad.py:738-760: its first knot is raised to multiplicity `p-C`, the others get it -/
def elementKnots (p C : ℤ) (u : List K) (s : List ℤ) (N : Factor) (i : ℕ) : List (K × ℤ) :=
  let n := N.parts i
  let delta := (u.getD (i + 1) 0 - u.getD i 0) / n
  (List.range n.toNat).map (fun (k : ℕ) =>
    (u.getD i 0 + k * delta, if k = 0 then max (p - C - s.getD i 0) 0 else p - C))

/-- `u.repeat(s)`, cad.py:738-764: all elements one after the other, without the first entry.  (The two branches for
`N.ndim` compute the same values.) -/
def refineVals (p C : ℤ) (u : List K) (s : List ℤ) (N : Factor) : List K :=
  ((List.range (u.length - 1)).flatMap (elementKnots p C u s N)).tail.flatMap (fun q => List.replicate q.2.toNat q.1)

/-- contents of the arrays allocated in the calls of `clamp`, `elevate` and `refine` for each axis (arbitrary)
(cad.py:708, 717, 764) -/
structure RefMem (K : Type) (d : ℕ) where
  clamp : Fin (d + 1) → ℤ → (Fin d → ℤ) → ℕ → K
  elevate : Fin (d + 1) → Mem K d
  refine : Fin (d + 1) → Mem K d

/-- degree elevation on one axis, cad.py:713-719 -/
def refineDegree (eps : K) (M : RefMem K d) (degree : Fin (d + 1) → ℤ) (X : Nrb K (d + 1)) (a : Fin (d + 1)) :
    Res (Nrb K (d + 1)) :=
  let t := degree a - X.degree a
  if t > 0 then X.elevate eps (M.elevate a).k (M.elevate a).e (M.elevate a).b (a : ℤ) (some t) else .ok X

/-- knot insertion on one axis, cad.py:730-764 -/
def refineKnots (eps : K) (M : RefMem K d) (factor : Fin (d + 1) → Factor) (C : Fin (d + 1) → ℤ) (X : Nrb K (d + 1))
    (a : Fin (d + 1)) : Res (Nrb K (d + 1)) := do
  let us ← X.breakMults eps (a : ℤ)
  pyAssert ((factor a).Fits (us.1.length - 1))
  X.refine eps (M.refine a).k (M.refine a).e (a : ℤ) (refineVals (X.degree a) (C a) us.1 us.2 (factor a))

/-- `cad.refine`, cad.py:679-766.  The clone shares no array that is written (finding 11 concerns arrays of the caller). -/
def refine (eps : K) (M : RefMem K d) (N : Nrb K (d + 1)) (factor : PyArg Factor) (degree continuity : PyArg ℤ) :
    Res (Nrb K (d + 1)) := do
  let axes := List.finRange (d + 1)
  let X ← axes.foldlM (fun X (a : Fin (d + 1)) => X.clamp eps (M.clamp a) (a : ℤ) none) N
  let deg ← arg degree (fun a => X.degree a)
  pyAssert (∀ a, deg a > 0)
  let X ← axes.foldlM (refineDegree eps M deg) X
  let fac ← arg factor (fun _ => Factor.all 1)
  pyAssert (∀ a, (fac a).Pos)
  let con ← arg continuity (fun _ => -1)
  let C := fun a => if con a < 0 then con a + X.degree a else con a
  pyAssert (∀ a, C a ≥ 0)
  pyAssert (∀ a, C a < X.degree a)
  axes.foldlM (refineKnots eps M fac C) X

end Cad
end Igakit
