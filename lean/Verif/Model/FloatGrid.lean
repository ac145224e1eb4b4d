import Verif.Model.FloatKnots

/-!
# `cad.grid` in floating point arithmetic
-/

namespace Igakit.Fp

variable {K : Type} [Field K] [LinearOrder K]

/-- body of `cad.grid` after `shape` has been normalised, cad.py:247-292, with the knots (cad.py:280) and the Greville abscissae
(cad.py:281) in floating point; the rest copies numbers.  `jk` is the uninitialised output array of `KnotVector` -/
def gridD (rd : K → K) (jk : ℤ → K) {d : ℕ} (shape : Fin d → ℤ) (degree : BArg ℤ) (continuity : Option (BArg ℤ))
    (limits : LimArg K) (wrap : BArg Bool) : Res (Nrb K d) := do
  let p ← degree.bcast d
  pyAssert (∀ a, 0 < p a)
  let C ← gridCont p continuity
  let lim ← limits.bcast d
  let w ← wrap.bcast d
  let UX ← seqFin (fun a => do
    let U ← iga_KnotVector rd jk (shape a) (p a) (C a) (lim a).1 (lim a).2 (w a)
    let X ← Greville rd (p a) (knotVectorM (shape a) (p a) (C a)) U
    pure (U, X))
  let len := fun a => knotVectorM (shape a) (p a) (C a) + 1
  Nrb.ctor (fun a => { shape := [len a], get := fun i => (UX a).1 (i.headD 0) })
    (.arr { shape := List.ofFn (fun a => len a - 1 - p a) ++ [4],
            get := fun i => grevNet (fun a => (UX a).2) i.dropLast (i.getLastD 0).toNat })
    none none

/-- `cad.grid`, cad.py:223-292, in floating point; the dimension is the length of `shape` -/
def grid (rd : K → K) (jk : ℤ → K) (shape degree : BArg ℤ) (continuity : Option (BArg ℤ)) (limits : LimArg K)
    (wrap : BArg Bool) : Res (Σ d, Nrb K d) :=
  match shape with
  | .scalar x => do
    let N ← gridD rd jk (d := 1) (fun _ => x) degree continuity limits wrap
    pure ⟨1, N⟩
  | .vec l => do
    pyAssert (1 ≤ l.length ∧ l.length ≤ 3)
    let N ← gridD rd jk (d := l.length) (fun a => l[a.val]) degree continuity limits wrap
    pure ⟨l.length, N⟩
  | .other => .error .assertion

end Igakit.Fp
