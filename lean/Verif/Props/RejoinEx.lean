import Verif.Props.Rejoin

/-!
# C88, C38: examples
-/

set_option linter.unusedSectionVars false

namespace Igakit
open Spec
namespace Ex

/-- quadratic surface over ℝ with the interior knot 1 on both axes, 4 × 4 weighted control points -/
noncomputable def Rs : Nrb ℝ 2 where
  shape := fun _ => 4
  nc := 4
  len := fun _ => 7
  U := fun _ i => if i ≤ 2 then 0 else if i ≤ 3 then 1 else 2
  P := fun idx c => if c = 3 then 1 + (idx 0) ^ 2 + (idx 1) ^ 2 else (idx 0) ^ (c + 1) - idx 1

theorem Rs_n (a : Fin 2) : Rs.n a = 3 := by simp [Nrb.n, Rs]
theorem Rs_degree (a : Fin 2) : Rs.degree a = 2 := by simp [Nrb.degree, Rs]
theorem Rs_lo (a : Fin 2) : Rs.lo a = 0 := by rw [Nrb.lo_eq, Rs_degree]; norm_num [Rs]
theorem Rs_hi (a : Fin 2) : Rs.hi a = 2 := by rw [Nrb.hi_eq, Rs_n]; norm_num [Rs]

theorem Rs_valid : Rs.Valid := by
  intro a
  rw [Rs_n, Rs_degree]
  refine ⟨by norm_num, by norm_num, sortedOn_of_steps ?_, ?_, ?_⟩
  · intro i h1 h2
    have h2 : i < 6 := by simpa using h2
    interval_cases i <;> norm_num [Rs]
  · norm_num [Rs]
  · norm_num [Rs]

theorem Rs_sep (a : Fin 2) {u : ℝ} (hu : u = 0 ∨ u = 1 / 2 ∨ u = 1 ∨ u = 2) : Rs.Sep (1 / 1000) a u := by
  intro j h1 h2
  have h2 : j ≤ 6 := by simpa [Rs] using h2
  rcases hu with rfl | rfl | rfl | rfl <;> interval_cases j <;> norm_num [Rs]

theorem Rs_multOf_le (a : Fin 2) {x : ℝ} (h0 : 0 < x) (h2 : x < 2) : Rs.multOf a x ≤ 1 := by
  unfold Nrb.multOf mult
  have : ({3} : Finset ℤ).card = 1 := rfl
  rw [← this]
  refine Finset.card_le_card fun j hj => ?_
  simp only [Finset.mem_filter, Finset.mem_Icc, Finset.mem_singleton] at hj ⊢
  obtain ⟨⟨h3, h4⟩, h5⟩ := hj
  have h4 : j ≤ 6 := by simpa [Rs] using h4
  subst h5
  interval_cases j <;> first | rfl | (exfalso; revert h0 h2; norm_num [Rs])

theorem Rs_multOK (a : Fin 2) : Rs.MultOK a := by
  intro x
  rw [Rs_degree]
  have e : Rs.len a - 2 = 5 := by simp [Rs]
  rw [e]
  have h12 : ∀ s : Finset ℤ, s.card ≤ 2 → (∀ j, 1 ≤ j → j ≤ 5 → Rs.U a j = x → j ∈ s) → (mult (Rs.U a) 1 5 x : ℤ) ≤ 2 := by
    intro s hs h
    have : mult (Rs.U a) 1 5 x ≤ s.card := by
      unfold mult
      refine Finset.card_le_card fun j hj => ?_
      simp only [Finset.mem_filter, Finset.mem_Icc] at hj
      exact h j hj.1.1 hj.1.2 hj.2
    omega
  by_cases hx : x ≤ 0
  · refine h12 {1, 2} (by decide) fun j j0 j1 hj => ?_
    subst hj
    interval_cases j <;> first | decide | (exfalso; revert hx; norm_num [Rs])
  · by_cases hx' : 2 ≤ x
    · refine h12 {4, 5} (by decide) fun j j0 j1 hj => ?_
      subst hj
      interval_cases j <;> first | decide | (exfalso; revert hx'; norm_num [Rs])
    · refine h12 {3} (by decide) fun j j0 j1 hj => ?_
      subst hj
      interval_cases j <;> first | decide | (exfalso; revert hx hx'; norm_num [Rs])

theorem Rs_left (a : Fin 2) : ClampedL (Rs.degree a) (Rs.U a) := by
  intro j j0 j1
  rw [Rs_degree] at *
  interval_cases j <;> norm_num [Rs]

theorem Rs_right (a : Fin 2) : ClampedR (Rs.n a) (Rs.degree a) (Rs.U a) := by
  intro j j0 j1
  rw [Rs_n, Rs_degree] at *
  have j1 : j ≤ 6 := by simpa using j1
  have j0 : 4 ≤ j := by simpa using j0
  interval_cases j <;> norm_num [Rs]

theorem Rs_canCut (a : Fin 2) {u : ℝ} (hu : u = 1 / 2 ∨ u = 1) : Rs.CanCut (1 / 1000) a u := by
  have hs := Rs_sep a (u := u) (Or.inr (by rcases hu with h | h <;> simp [h]))
  have h0 := Rs_sep a (u := 0) (Or.inl rfl)
  have h2 := Rs_sep a (u := 2) (by simp)
  refine ⟨⟨le_rfl, ?_, ?_, ?_, ?_, hs, Rs_multOK a⟩, ⟨?_, le_rfl, ?_, ?_, hs, ?_, Rs_multOK a⟩, fun b x x0 x1 => ?_,
    fun b _ => Rs_left b, fun b _ => Rs_right b, fun b _ j k j0 j1 k0 k1 => ?_⟩
  · rw [Rs_hi]; rcases hu with rfl | rfl <;> norm_num
  · rw [Rs_lo]; rcases hu with rfl | rfl <;> norm_num
  · rw [Rs_lo]; rcases hu with rfl | rfl <;> norm_num
  · rw [Rs_lo]; exact h0
  · rw [Rs_lo]; rcases hu with rfl | rfl <;> norm_num
  · rw [Rs_hi]; rcases hu with rfl | rfl <;> norm_num
  · rw [Rs_hi]; rcases hu with rfl | rfl <;> norm_num
  · rw [Rs_hi]; exact h2
  · rw [Rs_lo] at x0
    rw [Rs_hi] at x1
    rw [Rs_degree]
    have := Rs_multOf_le b x0 x1
    omega
  · have j1 : j < 7 := by simpa [Rs] using j1
    have k1 : k < 7 := by simpa [Rs] using k1
    interval_cases j <;> interval_cases k <;> norm_num [Rs]

theorem Rs_weights (idx : Fin 2 → ℤ) : 0 ≤ Rs.P idx (Rs.nc - 1) := by
  simp [Rs]; positivity

end Ex

/-- a surface cut at its knot 1 -/
example (jk jk' : ℤ → ℝ) (je je' : ℤ → (Fin 1 → ℤ) → ℕ → ℝ) (M : Cad.JoinMem ℝ 1) :=
  C88_rejoin (by norm_num) jk jk' je je' M Ex.Rs_valid (Ex.Rs_canCut 1 (Or.inr rfl))

/-- cut at a value that is no knot: it becomes a knot -/
example (jk jk' ji : ℤ → ℝ) (je je' je'' : ℤ → (Fin 1 → ℤ) → ℕ → ℝ) (M : Cad.JoinMem ℝ 1) :=
  C88_restored (by norm_num) jk jk' ji je je' je'' M Ex.Rs_valid (Ex.Rs_canCut 0 (Or.inl rfl)) (Ex.Rs_left 0) (Ex.Rs_right 0)
    (fun idx _ => Ex.Rs_weights idx) (Ex.Rs_multOf_le 0 (by norm_num) (by norm_num))

example (jk jk' : ℤ → ℝ) (je je' : ℤ → (Fin 1 → ℤ) → ℕ → ℝ) (M : Cad.JoinMem ℝ 1) :=
  C88_smooth (by norm_num) jk jk' je je' M Ex.Rs_valid (Ex.Rs_canCut 1 (Or.inr rfl)) (Ex.Rs_left 1) (Ex.Rs_right 1)
    (fun idx _ => Ex.Rs_weights idx)

/-- a rational curve of degree 2 continued by itself -/
example (M : Cad.JoinMem ℝ 0) := C38_knots_partial (by norm_num) M
  (joinable_curves (Ex.Rc_valid _ _) (Ex.Rc_valid _ _) rfl Ex.Rc_sepBoth Ex.Rc_sepBoth rfl) (Ex.Rc_lo _ _ _)

end Igakit
