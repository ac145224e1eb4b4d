import Verif.Model.Compat

/-!
# Model of `cad.coons` (/repo/igakit/cad.py)
-/

namespace Igakit

variable {K : Type} [Field K] [LinearOrder K] {d : ℕ}

namespace Cad

/-- contents of the arrays allocated by the calls made in `coons` (cad.py:569-570, 590-593) -/
structure CoonsMem (K : Type) where
  /-- the four calls of `compat` on pairs of curves (two of them inside `ruled`): elevations, refinements -/
  pair : Fin 4 → Fin 2 → Fin 2 → Fin 1 → Mem K 0
  /-- the call of `compat` on three surfaces -/
  three : Fin 2 → Fin 3 → Fin 2 → Mem K 1
  /-- the evaluations of the curves at their ends -/
  k : ℤ → K
  e : ℤ → ℕ → K

/-- `C(u)` for a curve and a number: the point as an array of 3 numbers (nurbs.py:1368-1451) -/
def callPoint (jk : ℤ → K) (je : ℤ → ℕ → K) (N : Nrb K 1) (u : K) : Res (ℕ → K) := do
  let C ← N.call jk je (fun _ => 0) (fun _ _ => u)
  pure (C (fun _ => 0)).1

/-- the corner points of two curves, cad.py:572-587: `[i][j]` is the end `j` of curve `i` -/
def endPoints (jk : ℤ → K) (je : ℤ → ℕ → K) (A B : Nrb K 1) : Res (Fin 2 → Fin 2 → ℕ → K) := do
  let a0 ← callPoint jk je A (A.lo 0)
  let a1 ← callPoint jk je A (A.hi 0)
  let b0 ← callPoint jk je B (A.lo 0)
  let b1 ← callPoint jk je B (A.hi 0)
  pure ![![a0, a1], ![b0, b1]]

/-- the array `P` of shape (2,2,3) (cad.py:574-578) -/
def cornerNd (P : Fin 2 → Fin 2 → ℕ → K) : Nd K :=
  { shape := [2, 2, 3]
    get := fun i => P (if i.getD 0 0 = 0 then 0 else 1) (if i.getD 1 0 = 0 then 0 else 1) (i.getD 2 0).toNat }

/-- `NURBS(B.knots, R0.control + R1.control - B.control)`, cad.py:594-596.  Arrays of different shapes
do not add up (broadcasting of axes of length one is not modelled). -/
def addSub (R0 R1 B : Nrb K d) : Res (Nrb K d) :=
  if R0.shape = B.shape ∧ R1.shape = B.shape then
    Nrb.ctor (fun a => B.knotNd a)
      (.arr { shape := List.ofFn B.shape ++ [4]
              get := fun i =>
                let idx : Fin d → ℤ := fun a => i.getD a 0
                let c := (i.getD d 0).toNat
                R0.P idx c + R1.P idx c - B.P idx c }) none none
  else .error .value

/-- `cad.coons`, cad.py:553-596; `1e-15` is the exact rational number -/
def coons (eps : K) (M : CoonsMem K) (C00 C01 C10 C11 : Nrb K 1) : Res (Nrb K 2) := do
  let A ← compat eps (M.pair 0 0) (M.pair 0 1) ![C00, C01] none
  let B ← compat eps (M.pair 1 0) (M.pair 1 1) ![C10, C11] none
  let P ← endPoints M.k M.e (B 0) (B 1)
  let Q ← endPoints M.k M.e (A 0) (A 1)
  pyAssert (∀ i j : Fin 2, ∀ c : Fin 3, |P j i c - Q i j c| ≤ 1 / 10 ^ 15)
  let R0 ← ruled eps (M.pair 2 0) (M.pair 2 1) (A 0) (A 1)
  let R0 ← R0.transpose none
  let R1 ← ruled eps (M.pair 3 0) (M.pair 3 1) (B 0) (B 1)
  let Bl ← multilinear 2 (some (cornerNd (fun i j => P j i)))
  let R ← compat eps (M.three 0) (M.three 1) ![R0, R1, Bl] none
  addSub (R 0) (R 1) (R 2)

end Cad
end Igakit
