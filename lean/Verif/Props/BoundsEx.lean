import Verif.Props.Bounds
import Verif.Props.Ctor
import Verif.Props.Remove

/-!
# C77: examples, and calls that do leave the arrays
-/

namespace Igakit
open Spec

/-! ## examples -/

example := C77_insert (1 / 1000) (fun _ => 7) (fun _ _ _ => 9) Ex.S 0 (3 / 2) (some 2)
example := C77_clamp Ex.S (eps := 1 / 1000) (by norm_num) (fun _ _ _ => 9) (fun a => (Ex.S_valid a).le) 0 none
example := C77_unclamp Ex.S (eps := 1 / 1000) (by norm_num) (fun _ _ _ => 9) (fun a => (Ex.S_valid a).le) 0 (some 1) none
example := C77_extract Ex.S (eps := 1 / 1000) (by norm_num) (fun _ _ _ => 9) (fun a => (Ex.S_valid a).le) 1 (1 / 2)
example := C77_boundary Ex.S (eps := 1 / 1000) (by norm_num) (fun _ _ _ => 9) (fun a => (Ex.S_valid a).le) 1 0
example := C77_refine (1 / 1000) (fun _ => 7) (fun _ _ _ => 9) Ex.S_valid 0 [1 / 2, 1]
example := C77_slice (1 / 1000) (fun _ => 7) (fun _ _ _ => 9) Ex.S_valid 0 (some (1 / 2)) none
example := C77_elevate (eps := 1 / 1000) (by norm_num) (fun _ => 7) (fun _ _ _ => 9) (fun _ _ => 5) Ex.S_valid (axis := 0)
  (fun a h => by
    have : (0 : Fin 2) = a := by injection h
    subst this
    exact Ex.S_elevatable) (some 2)
example := C77_call (fun _ => 7) (fun _ _ => 9) Ex.S (fun a => by have := (Ex.S_valid a).one_le; omega)
  (fun a => (Ex.S_valid a).le) ![1, 2] ![fun i => i, fun i => i / 2]
example := C77_basis (fun _ => 7) (fun _ _ => 7) (fun _ _ => 8) (fun _ _ => 9) 2 8 Ex.U (3 / 2) 2 3 (by decide)

example (jt : ℤ → (Fin 0 → ℤ) → ℕ → ℝ) (times : Option ℤ) (deviation : ℝ) :
    Ex.Rc.removeC (1 / 1000) jt 0 1 times deviation = py (Ex.Rc.remove (1 / 1000) jt 0 1 times deviation) := by
  refine C77_remove (by norm_num) jt (Ex.Rc_valid _ _) (fun a _ x h1 h2 => ?_) (fun a _ j h1 h2 => ?_) times deviation
  · rw [Ex.Rc_n, Ex.Rc_degree] at *
    have : mult (Ex.Rc.U a) 0 6 x ≤ ({3} : Finset ℤ).card := by
      unfold mult
      refine Finset.card_le_card fun j hj => ?_
      simp only [Finset.mem_filter, Finset.mem_Icc, Finset.mem_singleton] at hj ⊢
      obtain ⟨⟨h3, h4⟩, h5⟩ := hj
      subst h5
      interval_cases j <;> first | rfl | (exfalso; revert h1 h2; norm_num [Ex.RcOf])
    have h3 := (Nat.cast_le (α := ℤ)).mpr this
    exact h3.trans (by simp)
  · refine Ex.Rc_sep _ _ a j h1 ?_
    rw [Ex.Rc_n, Ex.Rc_degree] at h2
    simpa [Ex.RcOf] using h2

/-! ## faults -/

namespace Ex

/-- the knots `0 0 0 0 1` -/
def fewU : Nd ℚ := ⟨[5], fun i => if i.headD 0 ≤ 3 then 0 else 1⟩
/-- two points of the plane -/
def fewP : Nd ℚ := ⟨[2, 2], fun i => i.sum⟩
/-- knots of a list -/
def knotsOf (l : List ℚ) : ℤ → ℚ := fun i => if i < 0 then 99 else l.getD i.toNat 99
/-- a curve with weights 1 -/
def crvOf (n p : ℕ) (l : List ℚ) : Nrb ℚ 1 where
  shape := ![n + 1]
  nc := 4
  len := ![n + p + 2]
  U := ![knotsOf l]
  P := fun idx c => if c = 3 then 1 else idx 0 * idx 0
end Ex

theorem C77_oob {α : Type} {x : Run α} : x.oob = true ↔ x = .error (.fault .oob) := by
  constructor
  · intro h
    match x, h with
    | .error (.fault .oob), _ => rfl
  · rintro rfl; rfl

/-- the constructor accepts fewer control points than the order: five knots and two points make a curve of degree two, and
evaluating it reads the control point number -1 -/
theorem C77_few_points : ∃ N : Nrb ℚ 1, Nrb.ctor ![Ex.fewU] (.arr Ex.fewP) none none = .ok N ∧
    N.degree 0 = 2 ∧ N.n 0 = 1 ∧
    N.callC (fun _ => 7) (fun _ _ => 9) ![0] ![fun _ => 0] = .error (.fault .oob) ∧
    N.clampC (1 / 1000) (fun _ _ _ => 9) 0 none = .error (.fault .oob) ∧
    N.extractC (1 / 1000) (fun _ _ _ => 9) 0 0 = .error (.fault .oob) := by
  refine ⟨_, rfl, ?_, ?_, C77_oob.mp ?_, C77_oob.mp ?_, C77_oob.mp ?_⟩
  all_goals decide +kernel

/-- `elevate` of a straight line with the unclamped knots `0 1 2 3`, and of a broken line whose interior knot is repeated more
often than the degree (`0 0 1 1 1 2 2`, spans longer than the tolerance) -/
theorem C77_elevate_faults :
    (Ex.crvOf 1 1 [0, 1, 2, 3]).Valid ∧
    (Ex.crvOf 1 1 [0, 1, 2, 3]).elevateC (1 / 1000) (fun _ => 7) (fun _ _ _ => 9) (fun _ _ => 5) 0 (some 1) =
      .error (.fault .oob) ∧
    (Ex.crvOf 4 1 [0, 0, 1, 1, 1, 2, 2]).Valid ∧
    (Ex.crvOf 4 1 [0, 0, 1, 1, 1, 2, 2]).elevateC (1 / 1000) (fun _ => 7) (fun _ _ _ => 9) (fun _ _ => 5) 0 (some 1) =
      .error (.fault .oob) := by
  refine ⟨?_, C77_oob.mp (by decide +kernel), ?_, C77_oob.mp (by decide +kernel)⟩
  · intro a
    fin_cases a
    show ValidKnots 1 1 (Ex.knotsOf [0, 1, 2, 3])
    refine ⟨by norm_num, by norm_num, Ex.sortedOn_of_steps ?_, by decide +kernel, by decide +kernel⟩
    intro i h1 h2
    have h2 : i < 3 := by simpa using h2
    interval_cases i <;> decide +kernel
  · intro a
    fin_cases a
    show ValidKnots 4 1 (Ex.knotsOf [0, 0, 1, 1, 1, 2, 2])
    refine ⟨by norm_num, by norm_num, Ex.sortedOn_of_steps ?_, by decide +kernel, by decide +kernel⟩
    intro i h1 h2
    have h2 : i < 6 := by simpa using h2
    interval_cases i <;> decide +kernel

/-- removal of a value that is not a knot but closer than the tolerance to one: above the first knot of `0 0 1 1`, below the
interior knot of `0 0 1 2 2`; removal in the first span of a value that is no knot.  The arguments of the first two calls are
those that `remove(0, value)` passes on. -/
theorem C77_remove_faults :
    (BSp.RemoveKnotC (1 / 1000 : ℚ) (fun _ => (0 : ℚ)) (fun x y => |x - y| ≤ 1) 1 1 ⟨0, 3, Ex.knotsOf [0, 0, 1, 1]⟩
      ⟨0, 1, fun i => i⟩ (1 / 2000) 1).oob = true ∧
    BSp.FindMult (1 / 1000) 1 3 (Ex.knotsOf [0, 0, 1, 1]) (1 / 2000) = .ok 2 ∧
    (BSp.RemoveKnotC (1 / 1000 : ℚ) (fun _ => (0 : ℚ)) (fun x y => |x - y| ≤ 1) 2 1 ⟨0, 4, Ex.knotsOf [0, 0, 1, 2, 2]⟩
      ⟨0, 2, fun i => i⟩ (1999 / 2000) 1).oob = true ∧
    BSp.FindMult (1 / 1000) 1 4 (Ex.knotsOf [0, 0, 1, 2, 2]) (1999 / 2000) = .ok 1 ∧
    (BSp.RemoveKnotC (1 / 1000 : ℚ) (fun _ => (0 : ℚ)) (fun x y => |x - y| ≤ 1) 2 1 ⟨0, 4, Ex.knotsOf [0, 0, 1, 2, 2]⟩
      ⟨0, 2, fun i => i⟩ (1 / 2) 1).oob = true := by
  refine ⟨?_, ?_, ?_, ?_, ?_⟩ <;> decide +kernel

/-- the routines of module `bsp` called directly, with arguments that pass all checks: `InsertKnot` at the first knot,
`Unclamp` with `C = p + 1`, `RefineKnotVector` with a value above the last knot, `FindMult` and `EvalBasisFuns` with a span given -/
theorem C77_bsp_faults :
    (BSp.InsertKnotC (1 / 1000 : ℚ) (fun _ => 7) (fun _ => (9 : ℚ)) 1 1 ⟨0, 3, Ex.knotsOf [0, 0, 1, 1]⟩ ⟨0, 1, fun i => i⟩
      0 1).oob = true ∧
    (BSp.UnclampC (1 / 1000 : ℚ) (fun _ => (9 : ℚ)) 1 1 ⟨0, 3, Ex.knotsOf [0, 0, 1, 1]⟩ ⟨0, 1, fun i => i⟩ 2 true
      true).oob = true ∧
    (BSp.RefineKnotVectorC (1 / 1000 : ℚ) (fun _ => 7) (fun _ => (9 : ℚ)) 1 1 ⟨0, 3, Ex.knotsOf [0, 0, 1, 1]⟩
      ⟨0, 1, fun i => i⟩ 0 ⟨0, 0, fun _ => 2⟩).oob = true ∧
    (BSp.FindMultC (1 / 1000 : ℚ) 1 3 ⟨0, 3, Ex.knotsOf [0, 0, 1, 1]⟩ (1 / 2) 0).oob = true ∧
    (BSp.EvalBasisFunsC (fun _ => (7 : ℚ)) 1 3 ⟨0, 3, Ex.knotsOf [0, 0, 1, 1]⟩ (1 / 2) 3).oob = true := by
  refine ⟨?_, ?_, ?_, ?_, ?_⟩ <;> decide +kernel

end Igakit
