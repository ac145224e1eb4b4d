import Verif.Props.Part
import Verif.Props.ConformEx
import Verif.Props.AveragesEx

/-! # C85: cases -/

namespace Igakit
open Spec

theorem Ex.S_cut0 : Ex.S.CanSlice Ex.env.eps 0 (1 / 2) 2 :=
  ⟨by decide +kernel, by decide +kernel, by norm_num, by norm_num [Ex.env], Ex.U_sep _ (by decide +kernel),
    Ex.U_sep _ (by decide +kernel), mult_inner_le Ex.S_valid (Ex.S_inner 0)⟩
theorem Ex.S_cut0' : Ex.S.CanSlice Ex.env.eps 0 (1 / 2) (5 / 2) :=
  ⟨by decide +kernel, by decide +kernel, by norm_num, by norm_num [Ex.env], Ex.U_sep _ (by decide +kernel),
    Ex.U_sep _ (by decide +kernel), mult_inner_le Ex.S_valid (Ex.S_inner 0)⟩
theorem Ex.S_cut0'' : Ex.S.CanSlice Ex.env.eps 0 2 3 :=
  ⟨by decide +kernel, by decide +kernel, by norm_num, by norm_num [Ex.env], Ex.U_sep _ (by decide +kernel),
    Ex.U_sep _ (by decide +kernel), mult_inner_le Ex.S_valid (Ex.S_inner 0)⟩
theorem Ex.S_cut1 : Ex.S.CanSlice Ex.env.eps 1 (1 / 4) (3 / 4) :=
  ⟨by decide +kernel, by decide +kernel, by norm_num, by norm_num [Ex.env], Ex.W_sep _ (by decide +kernel),
    Ex.W_sep _ (by decide +kernel), mult_inner_le Ex.S_valid (Ex.S_inner 1)⟩
theorem Ex.S_at2 : Ex.S.CanExtract Ex.env.eps 0 2 :=
  ⟨by decide +kernel, by decide +kernel, Ex.U_sep _ (by decide +kernel), by decide +kernel, by decide +kernel⟩

example := C85_compose (eps := Ex.env.eps) (by norm_num [Ex.env]) (fun _ => 1) (fun _ => 2) (fun _ => 3) (fun _ _ _ => 4) (fun _ _ _ => 5)
  (fun _ _ _ => 6) Ex.S_valid Ex.S_inner (axis := -2) (a := 0) rfl Ex.S_cut0' Ex.S_cut0 (Or.inl rfl) (Or.inr (by norm_num [Ex.env]))

example := C85_axes (eps := Ex.env.eps) (by norm_num [Ex.env]) (fun _ => 1) (fun _ => 2) (fun _ => 3) (fun _ => 7) (fun _ _ _ => 4)
  (fun _ _ _ => 5) (fun _ _ _ => 6) (fun _ _ _ => 8) Ex.S_valid Ex.S_inner (axis := 0) (axis' := -1) (a := 0) (b := 1) rfl rfl
  (by decide) Ex.S_cut0 Ex.S_cut1

example := C85_ends (eps := Ex.env.eps) (by norm_num [Ex.env]) (fun _ => 1) (fun _ _ _ => 4) (fun _ _ _ => 5)
  (fun _ _ _ => 6) Ex.S_valid Ex.S_inner (axis := 0) (a := 0) rfl Ex.S_cut0 (side := 1) (Or.inr rfl) (u := 2) (by norm_num) Ex.S_at2

example := C85_cut (eps := Ex.env.eps) (by norm_num [Ex.env]) (fun _ => 1) (fun _ => 2) (fun _ _ _ => 4) (fun _ _ _ => 5)
  (fun _ _ _ => 6) (fun _ _ _ => 8) Ex.S_valid Ex.S_inner (axis := 0) (a := 0) rfl Ex.S_cut0 Ex.S_cut0''

example := C85_section (eps := Ex.env.eps) (by norm_num [Ex.env]) (fun _ => 1) (fun _ => 2) (fun _ _ _ => 4) (fun _ _ _ => 5)
  (fun _ _ _ => 6) (fun _ _ _ => 8) Ex.S_valid Ex.S_inner (b := 1) (a := 0) Ex.S_cut0 Ex.S_ext1

example := C85_whole (eps := Ex.env.eps) (by norm_num [Ex.env]) (fun _ => 1) (fun _ _ _ => 4) Ex.S_valid Ex.S_inner (axis := 0) (a := 0)
  rfl Ex.S_elevatable.1 Ex.S_elevatable.2 ⟨Ex.U_sep _ (by decide +kernel), Ex.U_sep _ (by decide +kernel)⟩ (start := none)
  (stop := some 3) (Or.inl rfl) (Or.inr (by decide +kernel))

example := C85_again (eps := Ex.env.eps) (by norm_num [Ex.env]) (fun _ => 1) (fun _ => 2) (fun _ _ _ => 4) (fun _ _ _ => 5)
  Ex.S_valid Ex.S_inner (axis := 1) (a := 1) rfl Ex.S_cut1

/-- calls on the part of the surface from 1/2 to 2 -/
def Ex.order6 (jn : Scratch ℚ) : List (Call ℚ) := [(jn, .refine 1 (.fresh [2 / 3, 1 / 3])), (jn, .insert 0 1 (some 1))]

theorem Ex.order6_added0 (jn : Scratch ℚ) : addedAll (0 : Fin 2) (Ex.order6 jn) = {1} := by
  simp only [addedAll, Ex.order6, List.map, Geo.added]
  decide +kernel
theorem Ex.order6_added1 (jn : Scratch ℚ) : addedAll (1 : Fin 2) (Ex.order6 jn) = {1 / 3, 2 / 3} := by
  simp only [addedAll, Ex.order6, List.map, Geo.added]
  decide +kernel

example (jn jn' : Scratch ℚ) := C85_refine (env := Ex.env) (by norm_num [Ex.env]) (fun _ => 1) (fun _ => 2) (fun _ _ _ => 9)
  (fun _ _ _ => 8) Ex.S_valid Ex.S_inner (axis := 0) (a := 0) rfl Ex.S_cut0 (p := Ex.order1 jn) (q := Ex.order6 jn') (Ex.order1_refines jn)
  (by
    intro c hc
    simp only [Ex.order6, List.mem_cons, List.not_mem_nil, or_false] at hc
    rcases hc with rfl | rfl
    exacts [⟨1, rfl⟩, ⟨by decide, 0, rfl⟩])
  (Ex.order1_canAdd jn) (by rw [Ex.order1_added0]; decide +kernel) (by rw [Ex.order1_added0]; decide +kernel)
  (by rw [Ex.order1_added0, Ex.order6_added0]; decide +kernel)
  (by
    intro b hb
    obtain rfl : b = 1 := by revert hb; revert b; decide
    rw [Ex.order1_added1, Ex.order6_added1])

end Igakit
