import Verif.Model.TransHeap

/-!
# Specification: transforms as values

Every name stands for a matrix of its own; a statement changes the matrix of one name and nothing else.  This is what a
user expects who never thinks of arrays.
-/

namespace Igakit.Spec

/-- the matrices of the objects made so far -/
structure TVals where
  val : ℕ → Mat4 ℝ
  no : ℕ

namespace TVals

/-- a new name with a matrix of its own -/
def add (V : TVals) (M : Mat4 ℝ) : TVals := ⟨fun o => if o = V.no then M else V.val o, V.no + 1⟩

/-- another matrix for the name `o` -/
def set (V : TVals) (o : ℕ) (M : Mat4 ℝ) : TVals := ⟨fun o' => if o' = o then M else V.val o', V.no⟩

/-- a statement that makes a new object with the matrix `r` -/
def creates (V : TVals) : Res (Mat4 ℝ) → Res ℕ × TVals
  | .ok M => (.ok V.no, V.add M)
  | .error e => (.error e, V)

/-- a statement that changes the object `o` -/
def changes (V : TVals) (o : ℕ) : Res (Mat4 ℝ) → Res ℕ × TVals
  | .ok M => (.ok o, V.set o M)
  | .error e => (.error e, V)

/-- the matrix an argument stands for; a 3 by 3 matrix acts on the points -/
noncomputable def arg (V : TVals) : TSrc → Res (Mat4 ℝ)
  | .trans o => if o < V.no then .ok (V.val o) else .error .index
  | .arr4 M => .ok M
  | .arr3 R => .ok (Transform.embed3 R)
  | _ => .error .assertion

/-- one statement -/
noncomputable def step (V : TVals) : TCmd → Res ℕ × TVals
  | .new .none => V.creates (.ok 1)
  | .new (.arr3 _) => V.creates (.error .assertion)
  | .new m => V.creates (V.arg m)
  | .copy o => V.creates (V.arg (.trans o))
  | .clone o => V.creates (V.arg (.trans o))
  | .inverse o => V.creates (do let M ← V.arg (.trans o); if M.det = 0 then .error .value else .ok M⁻¹)
  | .invert o => V.changes o (do let M ← V.arg (.trans o); if M.det = 0 then .error .value else .ok M⁻¹)
  | .compose o m => V.changes o (do let A ← V.arg (.trans o); let M ← V.arg m; .ok (M * A))
  | .translate o displ axis => V.changes o (do let A ← V.arg (.trans o); Transform.translate A displ axis)
  | .scale o s axis => V.changes o (do let A ← V.arg (.trans o); Transform.scale A s axis)
  | .rotate o angle axis => V.changes o (do let A ← V.arg (.trans o); Transform.rotate A angle axis)
  | .write o i j v => V.changes o (do let A ← V.arg (.trans o); .ok (Matrix.of fun i' j' => if i' = i ∧ j' = j then v else A i' j'))

/-- a program -/
noncomputable def run (V : TVals) : List TCmd → List (Res ℕ) × TVals
  | [] => ([], V)
  | c :: cs => ((V.step c).1 :: ((V.step c).2.run cs).1, ((V.step c).2.run cs).2)

end TVals

end Igakit.Spec
