import Verif.Props.Built
import Verif.Props.ConformEx

/-! # C98: examples -/

set_option linter.unusedSectionVars false

namespace Igakit
open Spec Transform

namespace Ex

theorem displ123 : IsDispl (.vec [1, 2, 3]) none (![1, 2, 3] : Fin 3 → ℚ) := by
  have := IsDispl.vec (K := ℚ) [1, 2, 3] (by norm_num)
  have e : (fun i : Fin 3 => ([1, 2, 3] : List ℚ).getD i 0) = ![1, 2, 3] := by decide +kernel
  rwa [e] at this

/-- the calls of `order1` on the volume, in another order -/
def volIns (jn : Scratch ℚ) : List (Call ℚ) :=
  [(jn, .insert 1 (2 / 3) (some 1)), (jn, .refine 0 (.fresh [1, 1 / 2, 1 / 2])), (jn, .insert (-2) (1 / 3) (some 1))]

theorem volIns_refines (jn : Scratch ℚ) : ∀ c ∈ volIns jn, c.2.Refines 3 := by
  intro c hc
  simp only [volIns, List.mem_cons, List.not_mem_nil, or_false] at hc
  rcases hc with rfl | rfl | rfl
  · exact ⟨by decide, 1, rfl⟩
  · exact ⟨0, rfl⟩
  · exact ⟨by decide, 1, rfl⟩

theorem volIns_added (jn : Scratch ℚ) : addedAll (0 : Fin 3) (volIns jn) = {1 / 2, 1 / 2, 1} ∧
    addedAll (1 : Fin 3) (volIns jn) = {1 / 3, 2 / 3} ∧ addedAll (2 : Fin 3) (volIns jn) = 0 := by
  simp only [addedAll, volIns, List.map, Geo.added]
  decide +kernel

/-- insert before or after the extrusion of a surface -/
example (jn jn' : Scratch ℚ) := C98_extrude_refine (env := env) (by norm_num [env]) (by norm_num) S_valid S_inner
  displ123 (p := volIns jn') (q := order1 jn) (volIns_refines jn') (order1_refines jn) (order1_canAdd jn)
  (fun a => by
    fin_cases a
    · exact (volIns_added jn').1.trans (order1_added0 jn).symm
    · exact (volIns_added jn').2.1.trans (order1_added1 jn).symm) (volIns_added jn').2.2

example := C98_extrude_section (eps := env.eps) (by norm_num [env]) (fun _ _ _ => 9) (fun _ _ _ => 8) (by norm_num)
  S_valid S_inner displ123 (S_ext0 (Or.inr rfl))

theorem T1_inner (a : Fin 1) : T1.InnerMult a := by
  fin_cases a
  exact S_inner 0

example := C98_extrude_ends (eps := env.eps) (by norm_num [env]) (by norm_num [env]) (fun _ _ _ => 9) (by norm_num)
  T1_valid T1_inner rfl displ123

theorem S_weightsPos : S.WeightsPos := by
  intro idx h
  have h1 : (0 : ℚ) ≤ (idx 1 : ℚ) := by exact_mod_cast (h 1).1
  show (0 : ℚ) < 1 + idx 1
  linarith

theorem T1_weightsPos : T1.WeightsPos := by
  intro idx h
  have h1 : (0 : ℚ) ≤ (idx 0 : ℚ) := by exact_mod_cast (h 0).1
  show (0 : ℚ) < 2 + idx 0
  linarith

/-- the calls of `volIns`, and two knots for the trajectory -/
def volIns2 (jn : Scratch ℚ) : List (Call ℚ) := (jn, .refine 2 (.fresh [5 / 2, 1])) :: volIns jn
def trajIns (jn : Scratch ℚ) : List (Call ℚ) := [(jn, .insert 0 1 (some 1)), (jn, .insert (-1) (5 / 2) (some 1))]

theorem volIns2_added (jn : Scratch ℚ) : addedAll (0 : Fin 3) (volIns2 jn) = {1 / 2, 1 / 2, 1} ∧
    addedAll (1 : Fin 3) (volIns2 jn) = {1 / 3, 2 / 3} ∧ addedAll (2 : Fin 3) (volIns2 jn) = {1, 5 / 2} := by
  simp only [addedAll, volIns2, volIns, List.map, Geo.added]
  decide +kernel

theorem trajIns_added (jn : Scratch ℚ) : addedAll (0 : Fin 1) (trajIns jn) = {1, 5 / 2} := by
  simp only [addedAll, trajIns, List.map, Geo.added]
  decide +kernel

/-- section and trajectory refined before the sweep, or the volume afterwards -/
example (jn jn' jn'' : Scratch ℚ) := C98_sweep_refine (env := env) (by norm_num [env]) (by norm_num) (by norm_num)
  S_valid T1_valid S_inner (T1_inner 0) S_weightsPos T1_weightsPos (p := volIns2 jn'') (q := order1 jn) (r := trajIns jn')
  (by
    intro c hc
    rcases List.mem_cons.1 hc with rfl | hc
    · exact ⟨2, rfl⟩
    · exact volIns_refines jn'' c hc)
  (order1_refines jn)
  (by
    intro c hc
    simp only [trajIns, List.mem_cons, List.not_mem_nil, or_false] at hc
    rcases hc with rfl | rfl
    · exact ⟨by decide, 0, rfl⟩
    · exact ⟨by decide, 0, rfl⟩)
  (order1_canAdd jn)
  (by
    rw [trajIns_added]
    refine ⟨by decide +kernel, by decide +kernel, ?_, by decide +kernel, by decide +kernel⟩
    intro x hx
    refine Ex.U_sep _ ?_
    revert x
    decide +kernel)
  (fun a => by
    fin_cases a
    · exact (volIns2_added jn'').1.trans (order1_added0 jn).symm
    · exact (volIns2_added jn'').2.1.trans (order1_added1 jn).symm)
  ((volIns2_added jn'').2.2.trans (trajIns_added jn').symm)

example := C98_sweep_section (eps := env.eps) (by norm_num [env]) (fun _ _ _ => 9) (fun _ _ _ => 8) (by norm_num)
  S_valid T1_valid S_inner (T1_inner 0) S_weightsPos T1_weightsPos (S_ext0 (Or.inr rfl))

/-- knots of a straight line -/
theorem line_knots {N : Nrb ℝ 1} (hU : N.UnitPatch) : N.len 0 = 4 ∧ N.U 0 0 = 0 ∧ N.U 0 1 = 0 ∧ N.U 0 2 = 1 ∧
    N.U 0 3 = 1 := by
  have hd := hU.degree 0
  have hs := hU.shape 0
  have hlo := hU.lo 0
  have hhi := hU.hi 0
  have hl : N.len 0 = 4 := by unfold Nrb.degree at hd; omega
  unfold Nrb.lo at hlo
  unfold Nrb.hi at hhi
  rw [hd] at hlo hhi
  rw [hl] at hhi
  exact ⟨hl, hU.first 0, hlo, hhi, hU.last 0⟩

theorem line_mult {N : Nrb ℝ 1} (hU : N.UnitPatch) {x : ℝ} (h0 : x ≠ 0) (h1 : x ≠ 1) : N.multOf 0 x = 0 := by
  obtain ⟨hl, u0, u1, u2, u3⟩ := line_knots hU
  unfold Nrb.multOf mult
  rw [Finset.card_eq_zero, Finset.filter_eq_empty_iff]
  intro i hi h
  rw [hl, Finset.mem_Icc] at hi
  obtain rfl | rfl | rfl | rfl : i = 0 ∨ i = 1 ∨ i = 2 ∨ i = 3 := by omega
  all_goals simp_all

theorem line_inner {N : Nrb ℝ 1} (hU : N.UnitPatch) (a : Fin 1) : N.InnerMult a := by
  rw [Subsingleton.elim a 0]
  intro x h0 h1
  rw [hU.lo] at h0
  rw [hU.hi] at h1
  rw [line_mult hU h0.ne' h1.ne, hU.degree]
  norm_num

/-- a line turned about an oblique axis: the middle of the line becomes a knot before or after the turn -/
example (junk junk' : ℤ → Fin 4 → ℝ) (jn jn' : Scratch ℝ) : ∃ (N : Nrb ℝ 1) (R R' : Nrb ℝ 2),
    Cad.line (.vec [1, 2]) (.scalar 5) = .ok N ∧
    Cad.revolve junk N (.vec [0, 1]) (.vec [3, 0, -4]) (.one (-2)) = .ok R ∧
    Cad.revolve junk' (history (Env.real (1 / 1000)) N [(jn, .insert 0 (1 / 2) (some 1))]) (.vec [0, 1]) (.vec [3, 0, -4])
      (.one (-2)) = .ok R' ∧
    (history (Env.real (1 / 1000)) R [(jn', .refine (-2) (.fresh [1 / 2]))]).SameData R' := by
  obtain ⟨N, hN, hU, hN'⟩ := C34_line (K := ℝ) (.vec [1, 2]) (.scalar 5) (by simp [ArrArg.toList])
    (by simp [ArrArg.toList])
  have hd : IsDispl (.vec [0, 1]) none (![0, 1, 0] : Fin 3 → ℝ) := by
    have := IsDispl.vec (K := ℝ) [0, 1] (by norm_num)
    have e : (fun i : Fin 3 => ([0, 1] : List ℝ).getD i 0) = ![0, 1, 0] := by
      funext i; fin_cases i <;> rfl
    rwa [e] at this
  have e1 : addedAll (0 : Fin 1) [(jn, Geo.insert (0 : ℤ) (1 / 2 : ℝ) (some 1))] = {1 / 2} := by
    simp [addedAll, Geo.added, normAxis_self]
    rfl
  have e2 : addedAll (0 : Fin 2) [(jn', Geo.refine (-2) (.fresh [(1 / 2 : ℝ)]))] = {1 / 2} := by
    simp only [addedAll, Geo.added, List.map, List.sum_cons, List.sum_nil]
    rfl
  have e3 : addedAll (1 : Fin 2) [(jn', Geo.refine (-2) (.fresh [(1 / 2 : ℝ)]))] = 0 := by
    simp only [addedAll, Geo.added, List.map, List.sum_cons, List.sum_nil]
    rfl
  obtain ⟨R, R', hR, hR', h⟩ := C98_revolve_refine (env := Env.real (1 / 1000)) (by norm_num [Env.real]) junk junk' (by norm_num) hU.valid
    (line_inner hU) hd oblique_axis (by simp; norm_num) (.one (-2)) (by simp [angles]) (by
      show |(-2 : ℝ) - 0| < _
      rw [sub_zero, abs_neg, abs_of_pos (by norm_num)]
      linarith [Real.pi_gt_three])
    (p := [(jn', Geo.refine (-2) (.fresh [1 / 2]))]) (q := [(jn, Geo.insert 0 (1 / 2) (some 1))])
    (by
      intro c hc
      obtain rfl := List.mem_singleton.1 hc
      exact ⟨0, rfl⟩)
    (by
      intro c hc
      obtain rfl := List.mem_singleton.1 hc
      exact ⟨by decide, 0, rfl⟩)
    (by
      intro a
      rw [Subsingleton.elim a 0, e1]
      obtain ⟨hl, u0, u1, u2, u3⟩ := line_knots hU
      refine ⟨?_, ?_, ?_, ?_, ?_⟩ <;> intro x hx <;> obtain rfl := Multiset.mem_singleton.1 hx
      · rw [hU.lo]; norm_num
      · rw [hU.hi]; norm_num
      · intro j j0 j3
        rw [hl] at j3
        right
        obtain rfl | rfl | rfl | rfl : j = 0 ∨ j = 1 ∨ j = 2 ∨ j = 3 := by omega
        all_goals simp only [u0, u1, u2, u3]
        all_goals norm_num [abs_of_nonneg, abs_of_nonpos, Env.real]
      · intro y hy
        left
        exact (Multiset.mem_singleton.1 hy).symm
      · rw [line_mult hU (by norm_num) (by norm_num), hU.degree]
        simp)
    (fun a => by rw [Subsingleton.elim a 0]; exact e2.trans e1.symm) e3
  exact ⟨N, R, R', hN, hR, hR', h⟩

/-- an end of the turned line is the arc through the end of the line -/
example (junk junk' : ℤ → Fin 4 → ℝ) (je : ℤ → (Fin 0 → ℤ) → ℕ → ℝ) (jf : ℤ → (Fin 1 → ℤ) → ℕ → ℝ) :
    ∃ (N : Nrb ℝ 1) (X : Nrb ℝ 0) (R : Nrb ℝ 2) (Y R' : Nrb ℝ 1), Cad.line (.vec [1, 2]) (.scalar 5) = .ok N ∧
      N.extract (1 / 1000) je 0 1 = .ok X ∧
      Cad.revolve junk' X (.vec [0, 1]) (.vec [3, 0, -4]) (.one (-2)) = .ok R' ∧
      Cad.revolve junk N (.vec [0, 1]) (.vec [3, 0, -4]) (.one (-2)) = .ok R ∧
      R.extract (1 / 1000) jf 0 1 = .ok Y ∧ Y.SameData R' := by
  obtain ⟨N, hN, hU, hN'⟩ := C34_line (K := ℝ) (.vec [1, 2]) (.scalar 5) (by simp [ArrArg.toList])
    (by simp [ArrArg.toList])
  have hd : IsDispl (.vec [0, 1]) none (![0, 1, 0] : Fin 3 → ℝ) := by
    have := IsDispl.vec (K := ℝ) [0, 1] (by norm_num)
    have e : (fun i : Fin 3 => ([0, 1] : List ℝ).getD i 0) = ![0, 1, 0] := by
      funext i; fin_cases i <;> rfl
    rwa [e] at this
  obtain ⟨hl, u0, u1, u2, u3⟩ := line_knots hU
  obtain ⟨X, R, Y, R', h⟩ := C98_revolve_section (eps := 1 / 1000) (by norm_num) je jf junk junk' (by norm_num)
    hU.valid (line_inner hU) hd oblique_axis (by simp; norm_num) (.one (-2)) (by simp [angles]) (by
      show |(-2 : ℝ) - 0| < _
      rw [sub_zero, abs_neg, abs_of_pos (by norm_num)]
      linarith [Real.pi_gt_three]) (a := 0) (u := 1)
    ⟨by rw [hU.lo]; norm_num, by rw [hU.hi], by
      intro j j0 j3
      rw [hl] at j3
      obtain rfl | rfl | rfl | rfl : j = 0 ∨ j = 1 ∨ j = 2 ∨ j = 3 := by omega
      all_goals simp only [u0, u1, u2, u3]
      all_goals norm_num, by rw [hU.hi]; intro h; exact absurd h (lt_irrefl _), by
      intro _
      right
      rw [hU.degree]
      unfold Nrb.multOf mult
      have : 0 < ((Finset.Icc 0 (N.len 0 - 1)).filter (fun i => N.U 0 i = 1)).card :=
        Finset.card_pos.2 ⟨3, by rw [Finset.mem_filter, Finset.mem_Icc, hl]; exact ⟨by norm_num, u3⟩⟩
      omega⟩
  exact ⟨N, X, R, Y, R', hN, h.1, h.2.1, h.2.2.1, h.2.2.2.1, h.2.2.2.2⟩

end Ex
end Igakit
