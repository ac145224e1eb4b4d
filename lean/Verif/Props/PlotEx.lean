import Verif.Props.PlotBackend
import Verif.Props.ConformEx

/-! # C63, C64, C65: examples -/

set_option linter.unusedSectionVars false

namespace Igakit
open Spec Plot

namespace Ex

theorem S_sides : S.HasSides env.eps := by
  intro a
  fin_cases a
  · exact ⟨⟨by decide +kernel, by decide +kernel, Ex.U_sep _ (by decide +kernel), by decide +kernel, by decide +kernel⟩,
      ⟨by decide +kernel, by decide +kernel, Ex.U_sep _ (by decide +kernel), by decide +kernel, by decide +kernel⟩⟩
  · exact ⟨⟨by decide +kernel, by decide +kernel, Ex.W_sep _ (by decide +kernel), by decide +kernel, by decide +kernel⟩,
      ⟨by decide +kernel, by decide +kernel, Ex.W_sep _ (by decide +kernel), by decide +kernel, by decide +kernel⟩⟩

theorem S_allsections : ∀ a ∈ ([0, 1] : List (Fin 2)), ∀ k, S.degree a ≤ k → k ≤ S.n a + 1 → S.CanExtract env.eps a (S.U a k) := by
  intro a _
  fin_cases a
  · intro k h1 h2
    have h1 : 2 ≤ k := h1
    have h2 : k ≤ 6 := h2
    interval_cases k <;>
    exact ⟨by decide +kernel, by decide +kernel, Ex.U_sep _ (by decide +kernel), by decide +kernel, by decide +kernel⟩
  · intro k h1 h2
    have h1 : 2 ≤ k := h1
    have h2 : k ≤ 3 := h2
    interval_cases k <;>
    exact ⟨by decide +kernel, by decide +kernel, Ex.W_sep _ (by decide +kernel), by decide +kernel, by decide +kernel⟩

theorem H_sep (u : ℚ) (h : ∀ x ∈ ([-1, 0, 0, 1, 2, 3, 3, 4] : List ℚ), x = u ∨ 1 / 1000 ≤ |u - x|) :
    SepFrom (1 / 1000) u H 0 (4 + ((2 : ℕ) : ℤ) + 1) := sepFrom_of_list (by decide) h

theorem Vol_sides : Vol.HasSides env.eps := by
  intro a
  fin_cases a
  · exact ⟨⟨by decide +kernel, by decide +kernel, Ex.U_sep _ (by decide +kernel), by decide +kernel, by decide +kernel⟩,
      ⟨by decide +kernel, by decide +kernel, Ex.U_sep _ (by decide +kernel), by decide +kernel, by decide +kernel⟩⟩
  · exact ⟨⟨by decide +kernel, by decide +kernel, Ex.W_sep _ (by decide +kernel), by decide +kernel, by decide +kernel⟩,
      ⟨by decide +kernel, by decide +kernel, Ex.W_sep _ (by decide +kernel), by decide +kernel, by decide +kernel⟩⟩
  · exact ⟨⟨by decide +kernel, by decide +kernel, H_sep _ (by decide +kernel), by decide +kernel, by decide +kernel⟩,
      ⟨by decide +kernel, by decide +kernel, H_sep _ (by decide +kernel), by decide +kernel, by decide +kernel⟩⟩

end Ex

example (M : PlotMem ℚ) := C63_curve (eps := Ex.env.eps) (by norm_num [Ex.env]) M (m := 64) (by norm_num) (d := 1) [] (by norm_num) Ex.S_valid (fun _ => Ex.S_sides)
example (M : PlotMem ℚ) := C63_curve (eps := Ex.env.eps) (by norm_num [Ex.env]) M (m := 64) (by norm_num) (d := 2) [] (by norm_num) Ex.Vol_valid (fun _ => Ex.Vol_sides)
example (M : PlotMem ℚ) := C63_surface (eps := Ex.env.eps) M (m := 32) (by norm_num) Ex.S_valid
example (M : PlotMem ℚ) := C63_volume (eps := Ex.env.eps) (by norm_num [Ex.env]) M (m := 32) (by norm_num) Ex.Vol_valid Ex.Vol_sides
example (M : PlotMem ℚ) := (C63_plot (eps := Ex.env.eps) (by norm_num [Ex.env]) M (r1 := 64) (r2 := 32) (by norm_num) (by norm_num)).2.2 Ex.Vol_valid Ex.Vol_sides
example (M : PlotMem ℚ) := C64_kwire M (by norm_num) Ex.S_valid (m := 64) (by norm_num) (axes := .none) (as := [0, 1]) rfl
example (M : PlotMem ℚ) := C64_kwire M (by norm_num) Ex.S_valid (m := 64) (by norm_num) (axes := .one (-1)) (as := [1])
  ⟨1, Or.inr ⟨rfl, rfl⟩, rfl⟩
example (M : PlotMem ℚ) := C64_kwire M (by norm_num) Ex.Vol_valid (m := 64) (by norm_num) (axes := .none) (as := [0, 1, 2]) rfl
example (M : PlotMem ℚ) := C64_ksurf (eps := Ex.env.eps) (by norm_num [Ex.env]) M (by norm_num) Ex.S_valid (m := 32) (by norm_num)
  (axes := .many [-2, 1]) (as := [0, 1]) (.cons (Or.inr rfl) (.cons (Or.inl rfl) .nil)) Ex.S_allsections
example (M : PlotMem ℚ) := C64_kpoint M (by norm_num) Ex.S_valid
example := C64_cpoint (N := Ex.S) (by decide +kernel)
example := C65_cwire (by norm_num) (by norm_num) (N := Ex.S) (by decide +kernel)
example := C65_cwire (by norm_num) (by norm_num) (N := Ex.Vol) (by decide +kernel)

/-- the unit square at three by three points -/
def Ex.net : Xyz ℚ := ⟨⟨[2, 3], fun idx => idx.getD 1 0⟩, ⟨[2, 3], fun idx => idx.getD 0 0⟩, ⟨[2, 3], fun _ => 7⟩⟩

theorem Ex.net_shows : Ex.net.Shows ![3, 2] (fun i => ((i 0 : ℚ), (i 1 : ℚ), 7)) := by
  refine ⟨⟨rfl, rfl, rfl⟩, fun i _ => ?_⟩
  simp [Ex.net]

example : segments (mplLines [Ex.net, Ex.net]) = netSegs ![3, 2] (fun i => ((i 0 : ℚ), (i 1 : ℚ), 7)) := by
  rw [C65_mpl_lines (S := fun _ => netSegs ![3, 2] (fun i => ((i 0 : ℚ), (i 1 : ℚ), 7))) (fun l hl => by
    obtain rfl : l = Ex.net := by simpa using hl
    exact ⟨2, _, _, by norm_num, by norm_num, Ex.net_shows, rfl⟩)]
  ext e
  simp

example := C65_myv_lines (ls := [Ex.net, Ex.net]) (by simp) (S := fun _ => netSegs ![3, 2] (fun i => ((i 0 : ℚ), (i 1 : ℚ), 7))) (fun l hl => by
    obtain rfl : l = Ex.net := by simpa using hl
    exact ⟨2, _, _, by norm_num, by norm_num, fun _ => by decide, Ex.net_shows, rfl⟩)

example := C65_mpl_surfs (ls := [Ex.net, Ex.net]) (S := fun _ => cellPolys ![3, 2] (fun i => ((i 0 : ℚ), (i 1 : ℚ), 7))) (fun l hl => by
    obtain rfl : l = Ex.net := by simpa using hl
    exact ⟨_, _, by decide, Ex.net_shows, rfl⟩)

example := C65_myv_surfs (ls := [Ex.net, Ex.net]) (by simp) (S := fun _ => cellPolys ![3, 2] (fun i => ((i 0 : ℚ), (i 1 : ℚ), 7))) (fun l hl => by
    obtain rfl : l = Ex.net := by simpa using hl
    exact ⟨_, _, Ex.net_shows, rfl⟩)

example := C65_mpl_points Ex.net_shows

example (M : PlotMem ℚ) := C65_ksurf_surface (eps := Ex.env.eps) (by norm_num [Ex.env]) M Ex.S_valid (m := 32) (by norm_num)
  (axes := .many [-2, 1]) (as := [0, 1]) (.cons (Or.inr rfl) (.cons (Or.inl rfl) .nil)) Ex.S_allsections

/-- four points in the plane -/
example := (C65_points (d := 1) (P := (⟨[4, 2], fun idx => idx.getD 0 0 - idx.getD 1 0⟩ : Nd ℚ)) (n := fun _ => 4) (k := 2) (by norm_num) rfl).1
  (by norm_num) (by norm_num)
example := C65_point (P := (⟨[2], fun idx => idx.getD 0 0⟩ : Nd ℚ)) (k := 2) rfl (by norm_num) (by norm_num)

/-- the numbers for two triples of arrays: the second ones follow the first ones -/
example : (extractPolys [Ex.net, Ex.net]).map (fun r => r.2) =
    .ok [(0, 3, 4, 1), (1, 4, 5, 2), (6, 9, 10, 7), (7, 10, 11, 8)] := by decide +kernel

end Igakit
