import Verif.Props.Conform
import Verif.Props.DataEx

/-! # C58: examples -/

set_option linter.unusedSectionVars false

namespace Igakit
open Spec

theorem Ex.S_ext0 {u : ℚ} (h : u = 0 ∨ u = 1) : Ex.S.CanExtract Ex.env.eps 0 u := by
  rcases h with rfl | rfl <;>
  exact ⟨by decide +kernel, by decide +kernel, Ex.U_sep _ (by decide +kernel), by decide +kernel, by decide +kernel⟩
theorem Ex.S_ext1 : Ex.S.CanExtract Ex.env.eps 1 1 :=
  ⟨by decide +kernel, by decide +kernel, Ex.W_sep _ (by decide +kernel), by decide +kernel, by decide +kernel⟩

example := C58_sections (eps := Ex.env.eps) (by norm_num [Ex.env]) (fun _ _ _ => 9) (fun _ _ _ => 8) (fun _ _ _ => 7) (fun _ _ _ => 6)
  Ex.S_valid Ex.S_inner (a := 0) (b := 1) (a' := 0) (b' := 0) rfl rfl (Ex.S_ext0 (Or.inr rfl)) Ex.S_ext1

theorem Ex.order1_refines (jn : Scratch ℚ) : ∀ c ∈ Ex.order1 jn, c.2.Refines 2 := by
  intro c hc
  simp only [Ex.order1, List.mem_cons, List.not_mem_nil, or_false] at hc
  rcases hc with rfl | rfl | rfl | rfl
  · exact ⟨by decide, 0, rfl⟩
  · exact ⟨1, rfl⟩
  · exact ⟨by decide, 0, rfl⟩
  · exact ⟨by decide, 0, rfl⟩

theorem Ex.order1_added0 (jn : Scratch ℚ) : addedAll (0 : Fin 2) (Ex.order1 jn) = {1 / 2, 1 / 2, 1} := by
  simp only [addedAll, Ex.order1, List.map, Geo.added]
  decide +kernel
theorem Ex.order1_added1 (jn : Scratch ℚ) : addedAll (1 : Fin 2) (Ex.order1 jn) = {1 / 3, 2 / 3} := by
  simp only [addedAll, Ex.order1, List.map, Geo.added]
  decide +kernel

theorem Ex.S_canAdd0 : Ex.S.CanAdd Ex.env.eps 0 {1 / 2, 1 / 2, 1} := by
  refine ⟨by decide +kernel, by decide +kernel, ?_, by decide +kernel, by decide +kernel⟩
  intro x hx
  refine Ex.U_sep _ ?_
  revert x
  decide +kernel
theorem Ex.S_canAdd1 : Ex.S.CanAdd Ex.env.eps 1 {1 / 3, 2 / 3} := by
  refine ⟨by decide +kernel, by decide +kernel, ?_, by decide +kernel, by decide +kernel⟩
  intro x hx
  refine Ex.W_sep _ ?_
  revert x
  decide +kernel

theorem Ex.order1_canAdd (jn : Scratch ℚ) (b : Fin 2) : Ex.S.CanAdd Ex.env.eps b (addedAll b (Ex.order1 jn)) := by
  fin_cases b
  · show Ex.S.CanAdd _ 0 (addedAll (0 : Fin 2) _)
    rw [Ex.order1_added0]
    exact Ex.S_canAdd0
  · show Ex.S.CanAdd _ 1 (addedAll (1 : Fin 2) _)
    rw [Ex.order1_added1]
    exact Ex.S_canAdd1

/-- calls on the section of the surface at the right end of axis 1 -/
def Ex.order3 (jn : Scratch ℚ) : List (Call ℚ) := [(jn, .refine (-1) (.fresh [1, 1 / 2, 1 / 2]))]

example (jn jn' : Scratch ℚ) := C58_refine (env := Ex.env) (by norm_num [Ex.env]) (fun _ _ _ => 9) (fun _ _ _ => 8) Ex.S_valid Ex.S_inner
  (a := 1) Ex.S_ext1 (p := Ex.order1 jn) (q := Ex.order3 jn') (Ex.order1_refines jn)
  (by
    intro c hc
    simp only [Ex.order3, List.mem_cons, List.not_mem_nil, or_false] at hc
    subst hc
    exact ⟨0, rfl⟩)
  (Ex.order1_canAdd jn) (by rw [Ex.order1_added1]; decide +kernel)
  (by
    intro b
    fin_cases b
    show addedAll (0 : Fin 1) (Ex.order3 jn') = addedAll (0 : Fin 2) (Ex.order1 jn)
    rw [Ex.order1_added0]
    simp only [addedAll, Ex.order3, List.map, Geo.added]
    decide +kernel)

/-- the surface with its axes exchanged -/
def Ex.Sw : Nrb ℚ 2 := Ex.S.permute (Equiv.swap 0 1)

theorem Ex.Sw_perm : Ex.S.Permuted Ex.Sw (Equiv.swap 0 1) := permuted_of _ _
theorem Ex.Sw_valid : Ex.Sw.Valid := Ex.Sw_perm.valid Ex.S_valid
theorem Ex.Sw_inner (a : Fin 2) : Ex.Sw.InnerMult a := by
  fin_cases a
  · exact Ex.S_inner 1
  · exact Ex.S_inner 0

/-- calls on the exchanged surface: only axis 0 is refined -/
def Ex.order4 (jn : Scratch ℚ) : List (Call ℚ) := [(jn, .insert 0 (2 / 3) (some 1)), (jn, .insert (-2) (1 / 3) (some 1))]

theorem Ex.order4_added0 (jn : Scratch ℚ) : addedAll (0 : Fin 2) (Ex.order4 jn) = {1 / 3, 2 / 3} := by
  simp only [addedAll, Ex.order4, List.map, Geo.added]
  decide +kernel
theorem Ex.order4_added1 (jn : Scratch ℚ) : addedAll (1 : Fin 2) (Ex.order4 jn) = 0 := by
  simp only [addedAll, Ex.order4, List.map, Geo.added]
  decide +kernel

/-- the first face of the surface is the first face along the other axis of the exchanged surface, also after refinement -/
example (je je' jf jf' : ℤ → (Fin 1 → ℤ) → ℕ → ℚ) (jn jn' : Scratch ℚ) :
    ∃ Y Y', (history Ex.env Ex.S (Ex.order1 jn)).extract Ex.env.eps jf 0 0 = .ok Y ∧
      (history Ex.env Ex.Sw (Ex.order4 jn')).extract Ex.env.eps jf' 1 0 = .ok Y' ∧ Y.SameData Y' := by
  have heps : 0 < Ex.env.eps := by norm_num [Ex.env]
  have hs : Ex.Sw.CanExtract Ex.env.eps 1 0 :=
    ⟨(Ex.S_ext0 (Or.inl rfl)).lo, (Ex.S_ext0 (Or.inl rfl)).hi, (Ex.S_ext0 (Or.inl rfl)).sep, (Ex.S_ext0 (Or.inl rfl)).mult,
      (Ex.S_ext0 (Or.inl rfl)).right⟩
  obtain ⟨X, X1, X2, X3⟩ := extract_section heps je Ex.S_valid (Ex.S_ext0 (Or.inl rfl))
  obtain ⟨X', X1', X2', X3'⟩ := extract_section heps je' Ex.Sw_valid hs
  have hface : X.SameData X' := by
    refine sameData_of_map X2 (fun b => X3.inner (Ex.S_inner _)) ⟨?_, ?_, ?_⟩ ?_ ?_
    · funext b
      rw [X3.shape, X3'.shape]
      fin_cases b
      rfl
    · funext b
      rw [X3.len, X3'.len]
      fin_cases b
      rfl
    · intro b j _ _
      rw [X3.U, X3'.U]
      fin_cases b
      rfl
    · rw [X3.nc, X3'.nc]; rfl
    · intro y _
      rw [X3.eval, X3'.eval, ← Ex.Sw_perm.eval]
      congr 1
      funext b
      fin_cases b <;> rfl
  refine C58_conform (env := Ex.env) heps je je' jf jf' Ex.S_valid Ex.Sw_valid Ex.S_inner Ex.Sw_inner (a := 0) (b := 1)
    (Ex.S_ext0 (Or.inl rfl)) hs (p := Ex.order1 jn) (q := Ex.order4 jn') (Ex.order1_refines jn) ?_ (Ex.order1_canAdd jn) ?_ ?_ ?_ ?_
    X1 X1' hface
  · intro c hc
    simp only [Ex.order4, List.mem_cons, List.not_mem_nil, or_false] at hc
    rcases hc with rfl | rfl
    · exact ⟨by decide, 0, rfl⟩
    · exact ⟨by decide, 0, rfl⟩
  · intro c
    fin_cases c
    · show Ex.Sw.CanAdd _ 0 (addedAll (0 : Fin 2) _)
      rw [Ex.order4_added0]
      exact ⟨Ex.S_canAdd1.lo, Ex.S_canAdd1.hi, Ex.S_canAdd1.sep, Ex.S_canAdd1.apart, Ex.S_canAdd1.mult⟩
    · show Ex.Sw.CanAdd _ 1 (addedAll (1 : Fin 2) _)
      rw [Ex.order4_added1]
      exact ⟨by simp, by simp, by simp, by simp, by simp⟩
  · rw [Ex.order1_added0]; decide +kernel
  · rw [Ex.order4_added1]; simp
  · intro c
    fin_cases c
    show addedAll (1 : Fin 2) (Ex.order1 jn) = addedAll (0 : Fin 2) (Ex.order4 jn')
    rw [Ex.order1_added1, Ex.order4_added0]

/-- the surface elevated along its clamped axis and cut along the other -/
example := C58_elevate (eps := Ex.env.eps) (by norm_num [Ex.env]) (fun _ => 1) (fun _ => 2) (fun _ _ _ => 9) (fun _ _ _ => 8)
  (fun _ _ _ => 7) (fun _ _ _ => 6) (fun _ _ => 5) (fun _ _ => 4) Ex.S_valid Ex.S_inner (a := 1) (b := 0) (b' := 0) rfl
  Ex.S_ext1 Ex.S_elevatable 2 (Or.inl (by decide +kernel))

end Igakit
