import Verif.Props.RemoveSmooth
import Verif.Props.RemoveAllEx

/-!
# C61: example
-/

set_option linter.unusedSectionVars false

namespace Igakit
open Spec Set Filter Topology

theorem Ex.seg3_smooth : Ex.seg3.SmoothAlong 0 1 1 := by
  intro x _ c _
  have h : ContDiffAt ℝ 1 (fun v : ℝ => if c = 3 then 1 else v) 1 := by
    by_cases hc : c = 3
    · simp only [hc, if_true]; exact contDiffAt_const
    · simp only [hc, if_false]; exact contDiffAt_id
  refine h.congr_of_eventuallyEq ?_
  filter_upwards [Icc_mem_nhds (show (0 : ℝ) < 1 by norm_num) (show (1 : ℝ) < 2 by norm_num)] with v hv
  rw [Ex.seg3_eval _ (by rw [Function.update_self]; exact hv.1) (by rw [Function.update_self]; exact hv.2), Function.update_self]

/-- the map is differentiable at the knot, so the knot goes -/
example (jt : ℤ → (Fin 0 → ℤ) → ℕ → ℝ) : ∃ N', Ex.seg3.remove (1 / 1000) jt (-1) 1 none 0 = .ok N' ∧ N'.shape 0 = 2 := by
  have hmul : Ex.seg3.multOf 0 1 = 1 := by
    rw [multOf_eq_count]
    have : Ex.seg3.knots 0 = {0, 0, 1, 2, 2} := rfl
    rw [this]
    norm_num
  obtain ⟨N', k, h1, h2, h3⟩ := C61_remove (eps := 1 / 1000) (by norm_num) jt (N := Ex.seg3) Ex.seg3_valid
    (axis := -1) (a := 0) rfl (u := 1)
    (by simp [Nrb.lo, Nrb.degree, Ex.seg3, vec]) (by simp [Nrb.hi_eq, Nrb.n, Ex.seg3, vec]) Ex.seg3_sep
    (Ex.seg3_mult 0 1 (by simp [Nrb.lo, Nrb.degree, Ex.seg3, vec]) (by simp [Nrb.hi_eq, Nrb.n, Ex.seg3, vec]))
    (fun b x h1 h2 => (Ex.seg3_mult b x h1 h2).trans (by omega)) none
  have hk := (h3 1 1 (by omega) (fun _ h => by cases h) (by rw [hmul]; rfl)).2 Ex.seg3_smooth
  have hk' : k ≤ 1 := by
    have := congrArg (Multiset.count 1) h2.knots
    rw [← multOf_eq_count, hmul, Multiset.count_add, Multiset.count_replicate_self] at this
    omega
  refine ⟨N', h1, ?_⟩
  have hc := congrArg Multiset.card h2.knots
  rw [Multiset.card_add, Multiset.card_replicate] at hc
  have e1 : (Ex.seg3.knots 0).card = 5 := rfl
  have e2 : ((N'.knots 0).card : ℤ) = N'.len 0 := by
    obtain ⟨p, hp, hk, e⟩ := deg_nat h2.valid 0
    have := hk.le
    have : N'.knots 0 = (Multiset.map (fun i => N'.U 0 i) (Finset.Icc (0 : ℤ) (N'.len 0 - 1)).val) := rfl
    rw [this, Multiset.card_map]
    show (((Finset.Icc (0 : ℤ) (N'.len 0 - 1)).card : ℕ) : ℤ) = _
    rw [Int.card_Icc]
    omega
  have hd : N'.degree 0 = 1 := h2.degree 0
  unfold Nrb.degree at hd
  omega

end Igakit
