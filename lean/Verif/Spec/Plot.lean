import Verif.Model.Plot
import Verif.Spec.Nrb
import Mathlib.Data.Sym.Sym2

/-! # Drawings -/

namespace Igakit

variable {K : Type} [Field K] [LinearOrder K] {d : ℕ}

/-- the point for the parameters `x` -/
def Nrb.pt (N : Nrb K d) (x : Fin d → K) : K × K × K := (N.proj x 0, N.proj x 1, N.proj x 2)

/-- a control point -/
def Nrb.cp (N : Nrb K d) (i : Fin d → ℕ) : K × K × K :=
  (N.P (fun a => (i a : ℤ)) 0 / N.P (fun a => (i a : ℤ)) 3, N.P (fun a => (i a : ℤ)) 1 / N.P (fun a => (i a : ℤ)) 3,
    N.P (fun a => (i a : ℤ)) 2 / N.P (fun a => (i a : ℤ)) 3)

/-- number `i` of `m` equally spaced parameters from `lo` to `hi` -/
def evenly (lo hi : K) (m i : ℕ) : K := lo + (hi - lo) * ((i : K) / ((m : K) - 1))

/-- three arrays that hold the points `f i`, `i a < n a`; the axes of the arrays are those of the grid in reverse order -/
structure Xyz.Shows (l : Xyz K) (n : Fin d → ℕ) (f : (Fin d → ℕ) → K × K × K) : Prop where
  shape : l.x.shape = (List.ofFn fun a => (n a : ℤ)).reverse ∧ l.y.shape = (List.ofFn fun a => (n a : ℤ)).reverse ∧
    l.z.shape = (List.ofFn fun a => (n a : ℤ)).reverse
  get : ∀ i : Fin d → ℕ, (∀ a, i a < n a) → (l.x.get (List.ofFn fun a => (i a : ℤ)).reverse,
    l.y.get (List.ofFn fun a => (i a : ℤ)).reverse, l.z.get (List.ofFn fun a => (i a : ℤ)).reverse) = f i

/-- three vectors that hold the points `f 0, ..., f (m-1)` -/
def Xyz.IsLine (l : Xyz K) (m : ℕ) (f : ℕ → K × K × K) : Prop := l.Shows (fun _ : Fin 1 => m) (fun i => f (i 0))

/-- the parameters of an edge of the domain: running on axis `a`, at the end `s b` on the other axes -/
def Nrb.edgeAt (N : Nrb K d) (a : Fin d) (s : Fin d → Bool) (t : K) : Fin d → K :=
  fun b => if b = a then t else if s b then N.hi b else N.lo b

/-- two entries of a grid next to each other on some axis -/
def NextTo (i j : Fin d → ℕ) : Prop := ∃ a, j = Function.update i a (i a + 1)

/-- the segments between neighbours of a grid of points -/
def netSegs (n : Fin d → ℕ) (f : (Fin d → ℕ) → K × K × K) : Set (Sym2 (K × K × K)) :=
  {e | ∃ i j, (∀ a, i a < n a) ∧ (∀ a, j a < n a) ∧ NextTo i j ∧ e = s(f i, f j)}

/-- the segments of polylines -/
def segments {α : Type} (l : List (List α)) : Set (Sym2 α) :=
  {e | ∃ p ∈ l, ∃ k x y, p[k]? = some x ∧ p[k + 1]? = some y ∧ e = s(x, y)}

/-- the cells of a grid of points, each as a polygon with four corners -/
def cellPolys (n : Fin 2 → ℕ) (f : (Fin 2 → ℕ) → K × K × K) : Set (List (K × K × K)) :=
  {q | ∃ i j : ℕ, i + 1 < n 0 ∧ j + 1 < n 1 ∧ q = [f ![i, j], f ![i, j + 1], f ![i + 1, j + 1], f ![i + 1, j]]}

/-- the segments given by pairs of numbers of points -/
def segmentsBy {α : Type} (pts : List α) (es : List (ℤ × ℤ)) : Set (Sym2 α) :=
  {e | ∃ q ∈ es, ∃ x y, pts[q.1.toNat]? = some x ∧ pts[q.2.toNat]? = some y ∧ e = s(x, y)}

/-- the polygons given by quadruples of numbers of points -/
def polysBy {α : Type} (pts : List α) (qs : List (ℤ × ℤ × ℤ × ℤ)) : Set (List α) :=
  {p | ∃ q ∈ qs, ∃ w x y z, pts[q.1.toNat]? = some w ∧ pts[q.2.1.toNat]? = some x ∧ pts[q.2.2.1.toNat]? = some y ∧
    pts[q.2.2.2.toNat]? = some z ∧ p = [w, x, y, z]}

end Igakit
