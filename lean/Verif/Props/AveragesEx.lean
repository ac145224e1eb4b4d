import Verif.Props.Averages
import Verif.Props.ConformEx

/-!
# C83: concrete cases
-/

namespace Igakit
open Spec

/-- C83, hypotheses: insertions, a reversal, an exchange, changes of interval, a matrix -/
example (jn jn' : Scratch ℚ) := C83_history (env := Ex.env) (by norm_num [Ex.env]) Ex.S_valid Ex.S_inner
  (Ex.calls jn jn') (Ex.calls_tame jn jn') (by
    intro c hc
    simp only [Ex.calls, List.mem_cons, List.not_mem_nil, or_false] at hc
    rcases hc with rfl | rfl | rfl | rfl | rfl | rfl | rfl | rfl <;> trivial)

theorem Ex.raise_tame (jn : Scratch ℚ) : TameAll Ex.env Ex.S [(jn, .elevate 0 (some 2))] := by
  refine ⟨?_, trivial⟩
  intro a ha
  obtain rfl : (0 : Fin 2) = a := by injection ha
  exact ⟨Ex.S_elevatable, fun t _ => Or.inl (by decide +kernel)⟩

theorem Ex.clamp_tame (jn : Scratch ℚ) : TameAll Ex.env Ex.S [(jn, .clamp 1 none)] := by
  refine ⟨?_, trivial⟩
  intro a ha
  obtain rfl : (1 : Fin 2) = a := by injection ha
  exact ⟨Ex.W_sep _ (by decide +kernel), Ex.W_sep _ (by decide +kernel)⟩

/-- without matrices: a degree elevation, clamping -/
theorem Ex.raise_averages (jn : Scratch ℚ) : Ex.S.Averages (history Ex.env Ex.S [(jn, .elevate 0 (some 2))]) :=
  C83_history_same (env := Ex.env) (by norm_num [Ex.env]) Ex.S_valid Ex.S_inner _ (Ex.raise_tame jn)
    (by simp [Geo.Adds]) (by simp)

example (jn : Scratch ℚ) : Ex.S.Averages (history Ex.env Ex.S [(jn, .clamp 1 none)]) :=
  C83_history_same (env := Ex.env) (by norm_num [Ex.env]) Ex.S_valid Ex.S_inner _ (Ex.clamp_tame jn)
    (by simp [Geo.Adds]) (by simp)

/-- the weights of `Ex.S` are between 1 and 3; so are those after the elevation -/
example (jn : Scratch ℚ) {idx : Fin 2 → ℤ}
    (h : (history Ex.env Ex.S [(jn, .elevate 0 (some 2))]).InNet idx) :
    1 ≤ (history Ex.env Ex.S [(jn, .elevate 0 (some 2))]).P idx 3 ∧
      (history Ex.env Ex.S [(jn, .elevate 0 (some 2))]).P idx 3 ≤ 3 :=
  C83_bounds (Ex.raise_averages jn) (c := 3) (by
    intro i hi
    have h0 := hi 1
    have h1 : i 1 < 3 := h0.2
    have h2 : 0 ≤ i 1 := h0.1
    show (1 : ℚ) ≤ 1 + (i 1 : ℚ) ∧ 1 + (i 1 : ℚ) ≤ 3
    constructor
    · have : (0 : ℚ) ≤ i 1 := by exact_mod_cast h2
      linarith
    · have : (i 1 : ℚ) ≤ 2 := by exact_mod_cast (by omega : i 1 ≤ 2)
      linarith) h

example := C83_slice (eps := 1 / 1000) (by norm_num) (fun _ => 7) (fun _ _ _ => 9) Ex.S_valid Ex.S_inner
  (axis := 0) (a := 0) rfl (start := some (1 / 2)) (stop := some 2) rfl rfl (by decide +kernel)
  (by decide +kernel) (by decide +kernel) (by norm_num) (Ex.U_sep _ (by decide +kernel))
  (Ex.U_sep _ (by decide +kernel)) (multOK_of_list (by decide +kernel) (by decide +kernel))

example := C83_extract (eps := Ex.env.eps) (by norm_num [Ex.env]) (fun _ _ _ => 9) Ex.S_valid Ex.S_inner
  (axis := -1) (a := 1) rfl Ex.S_ext1

example := C83_boundary (eps := 1 / 1000) (by norm_num) (fun _ _ _ => 9) Ex.S_valid Ex.S_inner (axis := 0) (a := 0) rfl
  (side := 1) (Or.inr rfl) ⟨Ex.U_sep _ (by decide +kernel), Ex.U_sep _ (by decide +kernel)⟩ (by decide +kernel) (by decide +kernel)

/-- a curve with weights 1, 10, 1, 1, 1, 1 -/
def Ex.heavy : Nrb ℚ 1 :=
  { shape := ![6]
    nc := 4
    len := ![9]
    U := ![Ex.U]
    P := fun idx c => if c = 3 then (if idx 0 = 1 then 10 else 1) else idx 0 }

/-- `unclamp` is no averaging: all weights are positive, but then the first is -8 -/
theorem C83_unclamp_negative : (∀ idx, Ex.heavy.InNet idx → 0 < Ex.heavy.P idx 3) ∧
    ∃ N', Ex.heavy.unclamp (1 / 1000) (fun _ _ _ => 9) 0 none none = .ok N' ∧ N'.InNet ![0] ∧ N'.P ![0] 3 = -8 ∧
      ¬ Ex.heavy.Averages N' := by
  have hw : ∀ idx, Ex.heavy.InNet idx → 1 ≤ Ex.heavy.P idx 3 ∧ Ex.heavy.P idx 3 ≤ 10 := by
    intro idx _
    show (1 : ℚ) ≤ (if idx 0 = 1 then 10 else 1) ∧ (if idx 0 = 1 then 10 else 1) ≤ (10 : ℚ)
    split_ifs <;> norm_num
  refine ⟨fun idx h => lt_of_lt_of_le one_pos (hw idx h).1, ?_⟩
  have key : (Ex.heavy.unclamp (1 / 1000) (fun _ _ _ => 9) 0 none none).toOption.map
      (fun N' => (N'.shape 0, N'.P ![0] 3)) = some (6, -8) := by
    decide +kernel
  cases h : Ex.heavy.unclamp (1 / 1000) (fun _ _ _ => 9) 0 none none with
  | error e => rw [h] at key; cases key
  | ok N' =>
    rw [h] at key
    have key : some (N'.shape 0, N'.P ![0] 3) = some (6, -8) := key
    injection key with key
    obtain ⟨k1, k2⟩ := Prod.mk.inj key
    have hin : N'.InNet ![0] := by
      intro a
      obtain rfl : a = 0 := Fin.fin_one_eq_zero a
      exact ⟨le_rfl, by rw [k1]; decide⟩
    refine ⟨N', rfl, hin, k2, fun hA => ?_⟩
    have := (C83_bounds hA (c := 3) hw hin).1
    rw [k2] at this
    norm_num at this

end Igakit
