import Verif.Props.DerivFollow
import Verif.Props.Ends

/-! # C86: cases -/

set_option linter.unusedSectionVars false

namespace Igakit
open Spec

/-- numbers of this size are different -/
noncomputable def Ex.ulp : ℝ := 1 / 2 ^ 52

theorem Ex.ulp_pos : 0 < Ex.ulp := by unfold Ex.ulp; positivity
theorem Ex.ulp_le : Ex.ulp ≤ 1 / 4 := by unfold Ex.ulp; norm_num

theorem Ex.patch_knot (a : Fin 2) (j : ℤ) : Ex.patch.U a j = Ex.patch.lo a ∨ Ex.patch.U a j = Ex.patch.hi a := by
  fin_cases a
  · show (if j ≤ 2 then (0 : ℝ) else 2) = (if (2 : ℤ) ≤ 2 then 0 else 2) ∨ (if j ≤ 2 then (0 : ℝ) else 2) = if (2 + 1 : ℤ) ≤ 2 then 0 else 2
    split_ifs <;> norm_num at *
  · show (if j ≤ 1 then (0 : ℝ) else 1) = (if (1 : ℤ) ≤ 1 then 0 else 1) ∨ (if j ≤ 1 then (0 : ℝ) else 1) = if (1 + 1 : ℤ) ≤ 1 then 0 else 1
    split_ifs <;> norm_num at *

theorem Ex.patch_lo (a : Fin 2) : Ex.patch.lo a = 0 := by
  fin_cases a
  · show (if (2 : ℤ) ≤ 2 then (0 : ℝ) else 2) = 0
    norm_num
  · show (if (1 : ℤ) ≤ 1 then (0 : ℝ) else 1) = 0
    norm_num

theorem Ex.patch_hi0 : Ex.patch.hi 0 = 2 := by
  show (if (2 + 1 : ℤ) ≤ 2 then (0 : ℝ) else 2) = 2
  norm_num

theorem Ex.patch_hi1 : Ex.patch.hi 1 = 1 := by
  show (if (1 + 1 : ℤ) ≤ 1 then (0 : ℝ) else 1) = 1
  norm_num

theorem Ex.patch_inner : ∀ a, Ex.patch.InnerMult a := by
  intro a x h1 h2
  have : Ex.patch.multOf a x = 0 := by
    unfold Nrb.multOf mult
    rw [Finset.card_eq_zero, Finset.filter_eq_empty_iff]
    intro j _ e
    rcases Ex.patch_knot a j with h | h
    · exact h1.ne (h.symm.trans e)
    · exact h2.ne (e.symm.trans h)
  rw [this]
  fin_cases a
  · show (((0 : ℕ) : ℤ)) ≤ 2
    norm_num
  · show (((0 : ℕ) : ℤ)) ≤ 1
    norm_num

theorem Ex.patch_sep (a : Fin 2) (u : ℝ) (h : u = Ex.patch.lo a ∨ 1 / 4 ≤ |u - Ex.patch.lo a|) (h' : u = Ex.patch.hi a ∨ 1 / 4 ≤ |u - Ex.patch.hi a|) :
    Ex.patch.Sep Ex.ulp a u := by
  intro j _ _
  rcases Ex.patch_knot a j with e | e
  · rw [e]
    rcases h with h | h
    · exact Or.inl h.symm
    · exact Or.inr (Ex.ulp_le.trans h)
  · rw [e]
    rcases h' with h | h
    · exact Or.inl h.symm
    · exact Or.inr (Ex.ulp_le.trans h)

/-- two calls that add knots -/
noncomputable def Ex.patch_calls (jn : Scratch ℝ) : List (Call ℝ) := [(jn, .insert 0 1 (some 1)), (jn, .reverse [1]), (jn, .reverse [-1])]

theorem Ex.patch_calls_tame (jn : Scratch ℝ) : TameAll (Env.real Ex.ulp) Ex.patch (Ex.patch_calls jn) := by
  refine ⟨?_, trivial, trivial, trivial⟩
  intro a ha
  obtain rfl : (0 : Fin 2) = a := by injection ha
  rw [Ex.patch_lo, Ex.patch_hi0]
  exact ⟨by norm_num, by norm_num, Ex.patch_sep 0 1 (by rw [Ex.patch_lo]; norm_num) (by rw [Ex.patch_hi0]; norm_num)⟩

theorem Ex.patch_calls_placed (jn : Scratch ℝ) :
    placement (Env.real Ex.ulp) Ex.patch (Placed.start Ex.patch) (Ex.patch_calls jn) = Placed.start Ex.patch := by
  have key : ∀ M : Nrb ℝ 2, placement (Env.real Ex.ulp) M (Placed.start Ex.patch) [(jn, .reverse [1]), (jn, .reverse [-1])] =
      ((Placed.start Ex.patch).reflect [1]).reflect [1] := fun M => rfl
  have e : ((Placed.start Ex.patch).reflect [1]).reflect [1] = Placed.start Ex.patch := by
    unfold Placed.reflect Placed.start
    congr 1
    · funext i; fin_cases i <;> simp
    · funext i; fin_cases i <;> simp
  unfold Ex.patch_calls placement
  split
  · exact (key _).trans e
  · exact (key _).trans e

theorem Ex.patch_grid : ∀ (a : Fin 2) (i : ℤ), 0 ≤ i → i ≤ (fun _ => 0) a →
    Ex.patch.lo a ≤ (fun _ _ => 1 / 2 : Fin 2 → ℤ → ℝ) a i ∧ (fun _ _ => 1 / 2 : Fin 2 → ℤ → ℝ) a i ≤ Ex.patch.hi a := by
  intro a i _ _
  rw [Ex.patch_lo]
  fin_cases a
  · exact ⟨by norm_num, by show _ ≤ Ex.patch.hi 0; rw [Ex.patch_hi0]; norm_num⟩
  · exact ⟨by norm_num, by show _ ≤ Ex.patch.hi 1; rw [Ex.patch_hi1]; norm_num⟩

example (jn : Scratch ℝ) := C86_history (env := Env.real Ex.ulp) Ex.ulp_pos Ex.patch_valid Ex.patch_inner (by omega) Ex.patch_pos
  (Ex.patch_calls_tame jn) (Ex.patch_calls_placed jn) (Or.inl (by simp [Ex.patch_calls, Geo.Adds])) (r := fun _ => 0)
  (fun _ => le_rfl) Ex.patch_grid

example (jk : ℤ → ℝ) (je) := C86_slice (eps := Ex.ulp) Ex.ulp_pos jk je Ex.patch_valid Ex.patch_inner (by omega) Ex.patch_pos (axis := 0)
  (a := 0) rfl (start := none) (stop := some 1)
  ⟨le_rfl, by show (1 : ℝ) ≤ _; rw [Ex.patch_hi0]; norm_num, by show _ < (1 : ℝ); rw [Option.getD_none, Ex.patch_lo]; norm_num,
    by show Ex.ulp ≤ 1 - Ex.patch.lo 0; rw [Ex.patch_lo]; linarith [Ex.ulp_le],
    Ex.patch_sep 0 _ (Or.inl rfl) (Or.inr (by rw [Option.getD_none, Ex.patch_lo, Ex.patch_hi0]; norm_num)),
    Ex.patch_sep 0 1 (by rw [Ex.patch_lo]; norm_num) (by rw [Ex.patch_hi0]; norm_num), mult_inner_le Ex.patch_valid (Ex.patch_inner 0)⟩
  (r := fun _ => 0) (fun _ => le_rfl) Ex.patch_grid
  (fun i _ _ => ⟨by rw [Option.getD_none, Ex.patch_lo]; norm_num, Or.inl (by norm_num)⟩)

example (je) (J J' : Junk ℝ) := C86_section (eps := Ex.ulp) Ex.ulp_pos je Ex.patch_valid Ex.patch_inner (Or.inl rfl) Ex.patch_pos (axis := -1)
  (a := 1) rfl (u := 1 / 2)
  ⟨by rw [Ex.patch_lo]; norm_num, by rw [Ex.patch_hi1]; norm_num,
    Ex.patch_sep 1 _ (by rw [Ex.patch_lo]; norm_num) (by rw [Ex.patch_hi1]; norm_num),
    fun h => by
      have := Ex.patch_inner 1 (1 / 2) (by rw [Ex.patch_lo]; norm_num) h
      linarith, fun h => by rw [Ex.patch_hi1] at h; norm_num at h⟩
  (r := fun _ => 0) (X := fun _ _ => 1 / 2) (fun _ => le_rfl)
  (fun b i i0 i1 => Ex.patch_grid _ 0 le_rfl le_rfl) J J' (order := 2) (by omega) (by omega)

/-- parameters exchanged, the first reflected before -/
theorem Ex.patch_turn (jn : Scratch ℝ) : placement (Env.real Ex.ulp) Ex.patch (Placed.start Ex.patch) [(jn, .reverse [0]), (jn, .swap 0 1)] =
    ((Placed.start Ex.patch).reflect [0]).permute (Equiv.swap 0 1) := rfl

example (jn : Scratch ℝ) := C86_calls (env := Env.real Ex.ulp) Ex.ulp_pos Ex.patch_valid Ex.patch_inner (by omega) Ex.patch_pos
  (p := [(jn, .reverse [0]), (jn, .swap 0 1)]) ⟨trivial, trivial, trivial⟩ (by simp [Geo.Adds]) (Ex.patch_turn jn)
  ⟨fun j hj => if_neg hj.symm, by show (if (3 : Fin 4) = 3 then (1 : ℝ) else 0) = 1; simp⟩ (r := fun _ => 0) (r' := fun _ => 0) (X' := fun a _ => if a = 0 then 1 / 2 else 3 / 2)
  (fun _ => le_rfl) (fun _ => le_rfl) Ex.patch_grid (by
    intro a i _ _
    fin_cases a
    · show Ex.patch.lo 1 ≤ (1 / 2 : ℝ) ∧ (1 / 2 : ℝ) ≤ Ex.patch.hi 1
      rw [Ex.patch_lo, Ex.patch_hi1]
      norm_num
    · show Ex.patch.lo 0 ≤ (3 / 2 : ℝ) ∧ (3 / 2 : ℝ) ≤ Ex.patch.hi 0
      rw [Ex.patch_lo, Ex.patch_hi0]
      norm_num)

/-- the points `(1/2, 1/2)` and `(1/2, 3/2)` of these grids correspond -/
example : ∀ a : Fin 2, (fun a _ => if a = 0 then 1 / 2 else 3 / 2 : Fin 2 → ℤ → ℝ) a 0 =
    (((Placed.start Ex.patch).reflect [0]).permute (Equiv.swap 0 1)).slope a * (1 / 2) +
      (((Placed.start Ex.patch).reflect [0]).permute (Equiv.swap 0 1)).off a := by
  intro a
  fin_cases a
  · simp [Placed.permute, Placed.reflect, Placed.start]
  · simp [Placed.permute, Placed.reflect, Placed.start, Ex.patch_lo, Ex.patch_hi0]
    norm_num

end Igakit
