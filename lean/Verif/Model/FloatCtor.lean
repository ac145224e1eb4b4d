import Verif.Model.FloatKnots

/-!
# The constructor in floating point arithmetic

`NURBS.__init__` again, with every arithmetic operation followed by a rounding `rd`: the products with the weights and the
Greville abscissae.  The rest copies numbers.
-/

namespace Igakit.Fp

variable {K : Type} [Field K] [LinearOrder K] {d : ℕ}

/-- `control is None`, nurbs.py:184-201 -/
def ctorDefault (rd : K → K) (len : Fin d → ℤ) (U : Fin d → ℤ → K) : Res (HNet K) := do
  let degs ← seqFin (fun a => degLoop (U a) (len a) (len a).toNat 1)
  let X ← seqFin (fun a => Greville rd (degs a) (len a - 1) (U a))
  pure { shape := List.ofFn (fun a => (len a - 1) - (degs a + 1) + 1), nc := 4, get := grevNet X }

/-- `control` given, nurbs.py:203-219; the product of line 213 is rounded -/
def ctorControl (rd : K → K) (C : Nd K) (w : Option (Nd K)) : Res (HNet K) := do
  pyAssert (2 ≤ C.shape.length)
  let sdim := C.shape.getLastD 0
  let sh := C.shape.dropLast
  pyAssert (2 ≤ sdim)
  pyAssert (sdim ≤ 4)
  if sdim < 4 then
    match w with
    | some W => do
      pyAssert (W.shape = sh)
      pure { shape := sh, nc := 4, get := fun idx c =>
        if (c : ℤ) < sdim then rd (C.get (idx ++ [(c : ℤ)]) * W.get idx)
        else if c = 3 then W.get idx else 0 }
    | none => pure { shape := sh, nc := 4, get := fun idx c =>
        if (c : ℤ) < sdim then C.get (idx ++ [(c : ℤ)]) else if c = 3 then 1 else 0 }
  else do
    pyAssert (w.isNone = true)
    pure { shape := sh, nc := 4, get := fun idx c => C.get (idx ++ [(c : ℤ)]) }

/-- `np.concatenate([Cw, D*w], axis=-1)` (nurbs.py:229-230) with rounded products -/
def appendFields (rd : K → K) (H : HNet K) (nf : ℕ) (D : List ℤ → ℕ → K) : HNet K where
  shape := H.shape
  nc := 4 + nf
  get := fun idx c => if c < 4 then H.get idx c else rd (D idx (c - 4) * H.get idx 3)

/-- `fields`, nurbs.py:221-232 -/
def ctorFields (rd : K → K) (H : HNet K) (fields : Option (Nd K)) : Res (HNet K) :=
  match fields with
  | none => pure H
  | some F =>
    if F.shape = H.shape then pure (appendFields rd H 1 (fun idx _ => F.get idx))
    else do
      pyAssert ((F.shape.length : ℤ) - 1 = H.shape.length)
      pyAssert (F.shape.dropLast = H.shape)
      pure (appendFields rd H (F.shape.getLastD 0).toNat (fun idx c => F.get (idx ++ [(c : ℤ)])))

/-- homogeneous net from the arguments, nurbs.py:184-219 -/
def ctorNet (rd : K → K) (len : Fin d → ℤ) (U : Fin d → ℤ → K) (C W : Option (Nd K)) : Res (HNet K) :=
  match C with
  | none => do
    pyAssert (W.isNone = true)
    ctorDefault rd len U
  | some C => ctorControl rd C W

/-- `NURBS.__init__`, nurbs.py:162-242, with `d` knot vectors, in floating point -/
def ctor (rd : K → K) (knots : Fin d → Nd K) (control : CtrlArg K) (fields weights : Option (Nd K)) : Res (Nrb K d) := do
  pyAssert (1 ≤ d)
  pyAssert (d ≤ 3)
  pyAssert (∀ a, (knots a).shape.length = 1 ∧ 4 ≤ (knots a).shape.headD 0)
  let len := fun a => (knots a).shape.headD 0
  let U := fun a j => (knots a).get [j]
  let cw ← Nrb.ctorArgs control weights
  let H ← ctorNet rd len U cw.1 cw.2
  let A ← ctorFields rd H fields
  pyAssert (A.shape.length = d)
  pyAssert (∀ a : Fin d, 1 ≤ (len a - 1) - (A.shape.getD a 0 - 1) - 1)
  pure { shape := fun a => A.shape.getD a 0, nc := A.nc, len := len, U := U,
         P := fun idx => A.get (List.ofFn idx) }

end Igakit.Fp

namespace Igakit.Nrb

variable {K : Type} [Field K] [LinearOrder K] {d : ℕ}

/-- `points`, nurbs.py:297-304, in floating point (components 0, 1, 2) -/
def pointsF (rd : K → K) (N : Nrb K d) (idx : Fin d → ℤ) (c : Fin 3) : K := rd (N.P idx c / N.weights idx)

/-- `fields`, nurbs.py:306-314, in floating point: `None` or the number of fields and their values -/
def fieldsF (rd : K → K) (N : Nrb K d) : Option (ℕ × ((Fin d → ℤ) → ℕ → K)) :=
  if N.nc ≤ 4 then none else some (N.nc - 4, fun idx c => rd (N.P idx (4 + c) / N.weights idx))

end Igakit.Nrb
