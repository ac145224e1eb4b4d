import Verif.Props.RemoveAll
import Verif.Props.RemoveEx

/-!
# C60: example
-/

set_option linter.unusedSectionVars false

namespace Igakit
open Spec

/-- a segment described by three points -/
noncomputable def Ex.seg3 : Nrb ℝ 1 where
  shape := ![3]
  nc := 4
  len := ![5]
  U := ![vec [0, 0, 1, 2, 2]]
  P := fun idx c => if c = 3 then 1 else (idx 0 : ℝ)

/-- the same segment described by its end points -/
noncomputable def Ex.seg2 : Nrb ℝ 1 where
  shape := ![2]
  nc := 4
  len := ![4]
  U := ![vec [0, 0, 2, 2]]
  P := fun idx c => if c = 3 then 1 else 2 * (idx 0 : ℝ)

theorem Ex.seg3_valid : Ex.seg3.Valid := Ex.far_valid

theorem Ex.seg3_eval (x : Fin 1 → ℝ) (h0 : 0 ≤ x 0) (h2 : x 0 ≤ 2) (c : ℕ) :
    Ex.seg3.eval x c = if c = 3 then 1 else x 0 := by
  have u0 : (vec [0, 0, 1, 2, 2] : ℤ → ℝ) 0 = 0 := rfl
  have u1 : (vec [0, 0, 1, 2, 2] : ℤ → ℝ) 1 = 0 := rfl
  have u2 : (vec [0, 0, 1, 2, 2] : ℤ → ℝ) 2 = 1 := rfl
  have u3 : (vec [0, 0, 1, 2, 2] : ℤ → ℝ) 3 = 2 := rfl
  have u4 : (vec [0, 0, 1, 2, 2] : ℤ → ℝ) 4 = 2 := rfl
  rw [Nrb.eval, tensor_one, Finset.sum_apply]
  show ∑ i ∈ Finset.Icc (0 : ℤ) 2, (bsplineD 2 (vec [0, 0, 1, 2, 2]) 1 i (x 0) • Ex.seg3.P ![i]) c = _
  rw [show Finset.Icc (0 : ℤ) 2 = {0, 1, 2} by decide]
  simp only [Finset.sum_insert, Finset.sum_singleton, Finset.mem_insert, Finset.mem_singleton, Pi.smul_apply, smul_eq_mul]
  rcases lt_or_ge (x 0) 1 with h | h
  · have e1 : x 0 < 2 := by linarith
    have e2 : ¬ 1 ≤ x 0 := by linarith
    norm_num [bsplineD, bspline, bsplineL, coxDB, u0, u1, u2, u3, u4, Ex.seg3, h, h0, e1, e2]
  · rcases lt_or_eq_of_le h2 with e | e
    · have e1 : ¬ x 0 < 1 := by linarith
      have e2 : ¬ 2 ≤ x 0 := by linarith
      norm_num [bsplineD, bspline, bsplineL, coxDB, u0, u1, u2, u3, u4, Ex.seg3, h, h0, e, e1, e2]
      split_ifs <;> ring
    · norm_num [bsplineD, bspline, bsplineL, coxDB, u0, u1, u2, u3, u4, Ex.seg3, e]

theorem Ex.seg2_eval (x : Fin 1 → ℝ) (h0 : 0 ≤ x 0) (h2 : x 0 ≤ 2) (c : ℕ) :
    Ex.seg2.eval x c = if c = 3 then 1 else x 0 := by
  have u0 : (vec [0, 0, 2, 2] : ℤ → ℝ) 0 = 0 := rfl
  have u1 : (vec [0, 0, 2, 2] : ℤ → ℝ) 1 = 0 := rfl
  have u2 : (vec [0, 0, 2, 2] : ℤ → ℝ) 2 = 2 := rfl
  have u3 : (vec [0, 0, 2, 2] : ℤ → ℝ) 3 = 2 := rfl
  rw [Nrb.eval, tensor_one, Finset.sum_apply]
  show ∑ i ∈ Finset.Icc (0 : ℤ) 1, (bsplineD 1 (vec [0, 0, 2, 2]) 1 i (x 0) • Ex.seg2.P ![i]) c = _
  rw [show Finset.Icc (0 : ℤ) 1 = {0, 1} by decide]
  simp only [Finset.sum_insert, Finset.sum_singleton, Finset.mem_insert, Finset.mem_singleton, Pi.smul_apply, smul_eq_mul]
  rcases lt_or_eq_of_le h2 with e | e
  · have e2 : ¬ 2 ≤ x 0 := by linarith
    norm_num [bsplineD, bspline, bsplineL, coxDB, u0, u1, u2, u3, Ex.seg2, h0, e, e2]
    split_ifs <;> ring
  · norm_num [bsplineD, bspline, bsplineL, coxDB, u0, u1, u2, u3, Ex.seg2, e]

theorem Ex.seg_coarser : Ex.seg3.Coarser Ex.seg2 0 1 1 where
  valid := by
    intro a
    fin_cases a
    show ValidKnots 1 1 (vec [0, 0, 2, 2])
    refine ⟨by norm_num, by norm_num, Ex.sortedOn_of_steps ?_, by simp [vec], by simp [vec]⟩
    intro i h1 h2
    have h2 : i < 3 := by simpa using h2
    interval_cases i <;> simp [vec]
  nc := rfl
  degree := by
    intro b
    fin_cases b
    rfl
  lo := by
    intro b
    fin_cases b
    rfl
  hi := by
    intro b
    fin_cases b
    rfl
  knots := by
    show ({0, 0, 1, 2, 2} : Multiset ℝ) = {0, 0, 2, 2} + {1}
    rw [add_comm]
    exact (Multiset.cons_swap 1 0 _).trans (congrArg _ (Multiset.cons_swap 1 0 _)) |>.symm
  others := fun b hb => absurd (Subsingleton.elim b 0) hb
  eval := by
    intro x hx c _
    have h := hx 0
    have h0 : 0 ≤ x 0 := by simpa [Nrb.lo, Nrb.degree, Ex.seg3, vec] using h.1
    have h2 : x 0 ≤ 2 := by simpa [Nrb.hi_eq, Nrb.n, Ex.seg3, vec] using h.2
    rw [Ex.seg2_eval x h0 h2, Ex.seg3_eval x h0 h2]

theorem Ex.seg3_sep : Ex.seg3.Sep (1 / 1000) 0 1 := by
  intro j j0 j1
  have j1 : j ≤ 5 - 1 := j1
  show Ex.seg3.U 0 j = 1 ∨ _ ≤ |1 - Ex.seg3.U 0 j|
  interval_cases j <;> simp [Ex.seg3, vec] <;> norm_num

theorem Ex.seg3_mult (b : Fin 1) (x : ℝ) (h1 : Ex.seg3.lo b < x) (h2 : x < Ex.seg3.hi b) :
    (Ex.seg3.multOf b x : ℤ) ≤ Ex.seg3.degree b := by
  fin_cases b
  rw [multOf_eq_count, show Ex.seg3.degree _ = 1 from rfl]
  have h1 : 0 < x := by simpa [Nrb.lo, Nrb.degree, Ex.seg3, vec] using h1
  have h2 : x < 2 := by simpa [Nrb.hi_eq, Nrb.n, Ex.seg3, vec] using h2
  have : Ex.seg3.knots 0 = {0, 0, 1, 2, 2} := rfl
  show (Multiset.count x (Ex.seg3.knots 0) : ℤ) ≤ 1
  rw [this]
  have a1 : x ≠ 0 := by linarith
  have a2 : x ≠ 2 := by linarith
  simp only [Multiset.insert_eq_cons, Multiset.count_cons_of_ne a1, Multiset.count_cons]
  simp [a1, a2]
  split_ifs <;> norm_num

/-- the middle point of the segment goes, and what is left are the end points -/
example (jt : ℤ → (Fin 0 → ℤ) → ℕ → ℝ) := C60_restores (eps := 1 / 1000) (by norm_num) jt (N := Ex.seg3) Ex.seg3_valid
  (axis := -1) (a := 0) rfl (u := 1)
  (by simp [Nrb.lo, Nrb.degree, Ex.seg3, vec]) (by simp [Nrb.hi_eq, Nrb.n, Ex.seg3, vec]) Ex.seg3_sep
  (Ex.seg3_mult 0 1 (by simp [Nrb.lo, Nrb.degree, Ex.seg3, vec]) (by simp [Nrb.hi_eq, Nrb.n, Ex.seg3, vec]))
  (fun b x h1 h2 => (Ex.seg3_mult b x h1 h2).trans (by omega)) le_rfl Ex.seg_coarser (deviation := 0) le_rfl
  (fun idx h => by simp [Ex.seg3])

example (jt : ℤ → (Fin 0 → ℤ) → ℕ → ℝ) := C60_exact (eps := 1 / 1000) (by norm_num) jt (N := Ex.seg3) Ex.seg3_valid
  (axis := -1) (a := 0) rfl (u := 1)
  (by simp [Nrb.lo, Nrb.degree, Ex.seg3, vec]) (by simp [Nrb.hi_eq, Nrb.n, Ex.seg3, vec]) Ex.seg3_sep
  (Ex.seg3_mult 0 1 (by simp [Nrb.lo, Nrb.degree, Ex.seg3, vec]) (by simp [Nrb.hi_eq, Nrb.n, Ex.seg3, vec]))
  (fun b x h1 h2 => (Ex.seg3_mult b x h1 h2).trans (by omega)) none

example (jt : ℤ → (Fin 0 → ℤ) → ℕ → ℝ) := C60_remove (eps := 1 / 1000) (by norm_num) jt (N := Ex.seg3) Ex.seg3_valid
  (axis := -1) (a := 0) rfl (u := 1)
  (by simp [Nrb.lo, Nrb.degree, Ex.seg3, vec]) (by simp [Nrb.hi_eq, Nrb.n, Ex.seg3, vec]) Ex.seg3_sep
  (Ex.seg3_mult 0 1 (by simp [Nrb.lo, Nrb.degree, Ex.seg3, vec]) (by simp [Nrb.hi_eq, Nrb.n, Ex.seg3, vec]))
  (fun b x h1 h2 => (Ex.seg3_mult b x h1 h2).trans (by omega)) (deviation := 1 / 10) (by norm_num)
  (fun idx h => by simp [Ex.seg3]) (some 1)

end Igakit
