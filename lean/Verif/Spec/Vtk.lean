import Verif.Spec.Nrb
import Verif.Model.Vtk

/-! # Specification of a legacy VTK file -/

namespace Igakit
namespace Spec

variable {K : Type} [Field K] [LinearOrder K] {d : ℕ}

/-- three numbers: the given ones, then `x` -/
def pad (f : Fin d → ℤ) (x : ℤ) (k : Fin 3) : ℤ := if h : (k : ℕ) < d then f ⟨k, h⟩ else x

/-- VTK order: `i + nx * (j + ny * k)` -/
def vtkPos (n i : Fin 3 → ℤ) : ℤ := i 0 + n 0 * (i 1 + n 1 * i 2)

/-- position of a point of a grid of `n 0 × n 1 × ...` points -/
def gridPos (n i : Fin d → ℤ) : ℤ := vtkPos (pad n 1) (pad i 0)

/-- a line of text -/
def line (s : String) : List (Chunk K) := [.text s, .text "\n"]

/-- binary data and the end of the line -/
def data (l : List K) : List (Chunk K) := [.doubles l, .text "\n"]

/-- index of a grid with `n a` points along axis `a` -/
def InGrid (n i : Fin d → ℤ) : Prop := ∀ a, 0 ≤ i a ∧ i a < n a

/-- the list holds `m` numbers for each point, in VTK order; component `c` of point `i` is `f i c` -/
structure Holds (n : Fin d → ℤ) (m : ℕ) (l : List K) (f : (Fin d → ℤ) → ℕ → K) : Prop where
  length : (l.length : ℤ) = m * ∏ a, n a
  get : ∀ i, InGrid n i → ∀ c < m, l[(m * gridPos n i + c).toNat]? = some (f i c)

/-- name of the attribute number `i` in the file: one word -/
def vtkName (kind : String) (i : ℕ) (name : String) : String :=
  (if name = "" then kind ++ toString i else name).map (fun c => if c = ' ' then '_' else c)

/-- the whole file -/
def vtkFile (title : String) (n : Fin d → ℤ) (geometry : List K ⊕ (Fin 3 → List K)) (sc ve : List (String × List K)) :
    List (Chunk K) :=
  line "# vtk DataFile Version 2.0" ++ line (String.ofList (title.toList.take 255)) ++ line "BINARY" ++
  line (match geometry with
    | .inl _ => "DATASET STRUCTURED_GRID"
    | .inr _ => "DATASET RECTILINEAR_GRID") ++
  line ("DIMENSIONS " ++ toString (pad n 1 0) ++ " " ++ toString (pad n 1 1) ++ " " ++ toString (pad n 1 2)) ++
  (match geometry with
    | .inl pts => line ("POINTS " ++ toString (∏ a, n a) ++ " double") ++ data pts
    | .inr X => line ("X_COORDINATES " ++ toString (pad n 1 0) ++ " double") ++ data (X 0) ++
        line ("Y_COORDINATES " ++ toString (pad n 1 1) ++ " double") ++ data (X 1) ++
        line ("Z_COORDINATES " ++ toString (pad n 1 2) ++ " double") ++ data (X 2)) ++
  if sc = [] ∧ ve = [] then [] else
    line ("POINT_DATA " ++ toString (∏ a, n a)) ++
    (sc.zipIdx.map (fun x => line ("SCALARS " ++ vtkName "scalars" x.2 x.1.1 ++ " double") ++ line "LOOKUP_TABLE default" ++
      data x.1.2)).flatten ++
    (ve.zipIdx.map (fun x => line ("VECTORS " ++ vtkName "vectors" x.2 x.1.1 ++ " double") ++ data x.1.2)).flatten

/-- a column of an array with `nf` columns, as numpy counts -/
def IsColumn (nf : ℕ) (i : ℤ) (c : ℕ) : Prop := c < nf ∧ (i = c ∨ i = (c : ℤ) - nf)

/-- the object whose fields are shown: those of the argument, if there is one -/
structure Shows (N : Nrb K d) (F : Option (Nd K)) (M : Nrb K d) : Prop where
  shape : M.shape = N.shape
  len : M.len = N.len
  U : M.U = N.U
  control : ∀ idx, ∀ c < 4, M.P idx c = N.P idx c
  own : F = none → M = N
  scalar : ∀ A, F = some A → A.shape = List.ofFn N.shape → M.nc = 5 ∧
    ∀ idx, M.P idx 4 = A.get (List.ofFn idx) * N.P idx 3
  array : ∀ A (nf : ℕ), F = some A → A.shape = List.ofFn N.shape ++ [(nf : ℤ)] → M.nc = 4 + nf ∧
    ∀ idx (c : ℕ), M.P idx (4 + c) = A.get (List.ofFn idx ++ [(c : ℤ)]) * N.P idx 3

end Spec
end Igakit
