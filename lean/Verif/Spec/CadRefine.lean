import Verif.Model.CadRefine
import Verif.Spec.Compat

/-!
# Specification: refinement of a NURBS object
-/

namespace Igakit
open Spec

/-- the argument stands for the values `v`, one for each axis; `dflt` is used where nothing is given -/
def PyArg.Gives {α : Type} {d : ℕ} (x : PyArg α) (dflt v : Fin d → α) : Prop :=
  match x with
  | .missing => v = dflt
  | .one c => ∀ a, v a = c
  | .seq l => l.length = d ∧ ∀ a : Fin d, l[(a : ℕ)]? = some (some (v a)) ∨ (l[(a : ℕ)]? = some none ∧ v a = dflt a)

/-- of `m` elements, element `i` is divided into `f i` parts -/
def Factor.Gives (F : Factor) (m : ℕ) (f : ℕ → ℤ) : Prop :=
  match F with
  | .all n => ∀ i, i < m → f i = n
  | .each l => l.length = m ∧ ∀ i, i < m → l[i]? = some (f i)

variable {K : Type} [Field K] [LinearOrder K] {d : ℕ}

/-- `l` lists the distinct knots of axis `a` in the domain, in increasing order -/
structure Nrb.Breaks (N : Nrb K d) (a : Fin d) (l : List K) : Prop where
  lt : l.Pairwise (· < ·)
  mem : ∀ x, x ∈ l ↔ ∃ k, N.degree a ≤ k ∧ k ≤ N.n a + 1 ∧ N.U a k = x

/-- `x` divides one of the elements between the breaks `l`, of which element `i` gets `f i` equal parts -/
def Subdivides (l : List K) (f : ℕ → ℤ) (x : K) : Prop :=
  ∃ (i : ℕ) (y z : K) (k : ℤ), l[i]? = some y ∧ l[i + 1]? = some z ∧ 0 < k ∧ k < f i ∧ x = y + k * ((z - y) / f i)

/-- what `refine` asks of axis `a`: end knots separated from the others, interior multiplicities at most the degree, parts
longer than `eps`, and the condition of `elevate` if the degree is raised by `t` -/
structure Nrb.CanRefine (N : Nrb K d) (eps : K) (a : Fin d) (l : List K) (f : ℕ → ℤ) (t : ℕ) : Prop where
  lo : N.Sep eps a (N.lo a)
  hi : N.Sep eps a (N.hi a)
  mult : MultLe (N.n a) (N.degree a) (N.U a)
  parts : ∀ (i : ℕ) (y z : K), l[i]? = some y → l[i + 1]? = some z → 0 < f i ∧ eps < (z - y) / f i
  jump : 1 ≤ t → N.degree a ≤ 9 ∨ NoJump (N.n a) (N.degree a) t (N.U a)

/-- `R` is `N` clamped, with degrees `p`, the elements between the breaks `l` divided into `f` parts and continuity lowered
to at most `C`; the map is the same -/
structure Nrb.RefinedTo (N R : Nrb K d) (l : Fin d → List K) (f : Fin d → ℕ → ℤ) (p C : Fin d → ℤ) : Prop where
  nc : R.nc = N.nc
  lo : ∀ a, R.lo a = N.lo a
  hi : ∀ a, R.hi a = N.hi a
  eval : ∀ x, N.InDom x → R.eval x = N.eval x
  degree : ∀ a, R.degree a = p a
  left : ∀ a, ClampedL (R.degree a) (R.U a)
  right : ∀ a, ClampedR (R.n a) (R.degree a) (R.U a)
  old : ∀ a x, N.lo a < x → x < N.hi a → 0 < N.multOf a x →
    (R.multOf a x : ℤ) = max (N.multOf a x + (p a - N.degree a)) (p a - C a)
  new : ∀ a x, Subdivides (l a) (f a) x → (R.multOf a x : ℤ) = p a - C a
  none : ∀ a x, N.lo a < x → x < N.hi a → N.multOf a x = 0 → ¬ Subdivides (l a) (f a) x → R.multOf a x = 0

end Igakit
