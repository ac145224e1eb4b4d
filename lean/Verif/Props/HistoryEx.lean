import Verif.Props.History
import Verif.Props.HeapEx

/-! # C46: examples -/

namespace Igakit
open Spec

theorem Ex.S_inner : ∀ a, Ex.S.InnerMult a := by
  intro a
  fin_cases a <;> exact innerMult_of_list (by decide +kernel) (by decide +kernel)

/-- some calls: two of them (a bad axis, an empty interval) raise -/
def Ex.calls (jn jn' : Scratch ℚ) : List (Call ℚ) :=
  [(jn, .insert 0 (1 / 2) (some 1)), (jn', .insert 7 (1 / 2) none), (jn', .reverse [1, -2]), (jn, .swap 0 (-1)),
    (jn', .remap 1 (some 5) (some 5)), (jn, .remap 1 (some 0) (some 10)), (jn, .transpose none),
    (jn, .transform (.ok fun i j => i + j))]

theorem Ex.calls_tame (jn jn' : Scratch ℚ) : TameAll Ex.env Ex.S (Ex.calls jn jn') := by
  refine ⟨?_, ?_, trivial, trivial, trivial, trivial, ⟨Fin.revPerm, ?_⟩, trivial, trivial⟩
  · intro a ha
    obtain rfl : (0 : Fin 2) = a := by injection ha
    exact ⟨by decide +kernel, by decide +kernel, Ex.U_sep _ (by decide +kernel)⟩
  · intro a ha
    exact absurd ha (by intro h; cases h)
  · decide

/-- C46, hypotheses -/
example (jn jn' : Scratch ℚ) := C46_history (env := Ex.env) (by norm_num [Ex.env]) Ex.S_valid Ex.S_inner
  (Ex.calls jn jn') (Ex.calls_tame jn jn')

/-- a reflection, an exchange and a change of interval -/
noncomputable def Ex.placed : Placed ℚ 2 := placement Ex.env Ex.S (Placed.start Ex.S)
  [(Ex.junk, .reverse [1]), (Ex.junk, .swap 0 1), (Ex.junk, .remap 0 (some 0) (some 10))]

/-- computed: the second parameter is reflected and becomes the first, with values in `[0, 10]` -/
example : Ex.placed.lo = ![0, Ex.S.lo 0] ∧ Ex.placed.hi = ![10, Ex.S.hi 0] ∧ Ex.placed.axis = ![1, 0] ∧
    Ex.placed.slope = ![-10 / (Ex.S.hi 1 - Ex.S.lo 1), 1] ∧
    Ex.placed.off = ![10 * Ex.S.hi 1 / (Ex.S.hi 1 - Ex.S.lo 1), 0] := by
  decide +kernel

end Igakit
