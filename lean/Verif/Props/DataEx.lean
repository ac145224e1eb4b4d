import Verif.Props.Data
import Verif.Props.HistoryEx

/-! # C48 - C52: examples -/

namespace Igakit
open Spec

/-! ## C48 -/

/-- another name for the same surface: different values outside the arrays -/
def Ex.S' : Nrb ℚ 2 where
  shape := Ex.S.shape
  nc := Ex.S.nc
  len := Ex.S.len
  U := fun a j => if j < 0 ∨ Ex.S.len a ≤ j then 77 else Ex.S.U a j
  P := fun idx => if idx 0 < 0 then fun _ => 55 else Ex.S.P idx

theorem Ex.S'_knots : Ex.S.SameKnots Ex.S' where
  shape := rfl
  len := rfl
  knots := fun a j h1 h2 => if_neg (by omega)

theorem Ex.S'_data : Ex.S.SameData Ex.S' where
  toSameKnots := Ex.S'_knots
  nc := rfl
  net := fun idx h => if_neg (by have := h 0; omega)

example := C48_unique (M := Ex.S') Ex.S_valid (fun a x h1 h2 => by have := Ex.S_inner a x h1 h2; omega) Ex.S'_knots
  rfl (fun x _ => Ex.S'_data.eval Ex.S_valid x)

/-- a broken line with the knots `0 0 1 1 1 2 2`; the number `z` is the height of the third of five points -/
def Ex.gap (z : ℚ) : Nrb ℚ 1 where
  shape := ![5]
  nc := 4
  len := ![7]
  U := ![vec [0, 0, 1, 1, 1, 2, 2]]
  P := fun idx c => if c = 3 then 1 else if c = 2 then (if idx 0 = 2 then z else 0) else if c = 0 then idx 0 else 0

theorem Ex.gap_valid (z : ℚ) : (Ex.gap z).Valid := by
  intro a
  fin_cases a
  show ValidKnots 4 1 (vec [0, 0, 1, 1, 1, 2, 2])
  refine ⟨by norm_num, by norm_num, Ex.sortedOn_of_steps ?_, by decide +kernel, by decide +kernel⟩
  intro i h1 h2
  have h2 : i < 6 := by simpa using h2
  interval_cases i <;> decide +kernel

/-- C48 fails without the bound on the multiplicity: same knots, same map, different control points -/
theorem C48_bound_needed : ∃ N M : Nrb ℚ 1, N.Valid ∧ N.SameKnots M ∧ M.nc = N.nc ∧
    (∀ x, N.InDom x → M.eval x = N.eval x) ∧ ¬ N.SameData M := by
  refine ⟨Ex.gap 0, Ex.gap 1, Ex.gap_valid 0, ⟨rfl, rfl, fun _ _ _ _ => rfl⟩, rfl, fun x hx => ?_, fun h => ?_⟩
  · refine C48_inactive (M := Ex.gap 1) (Ex.gap_valid 0) ⟨rfl, rfl, fun _ _ _ _ => rfl⟩ (a := 0) (i := 2) (by decide) (by decide)
      (by decide +kernel) (fun idx _ h => ?_) hx
    funext c
    simp only [Ex.gap, if_neg h]
  · have := congrFun (h.net ![2] (by intro a; fin_cases a; decide)) 2
    exact absurd this (by decide +kernel)

/-! ## C49 -/

example (jn jn' : Scratch ℚ) := C49_deterministic (env := Ex.env) (by norm_num [Ex.env]) Ex.S_valid Ex.S_inner Ex.S'_data
  (p := Ex.calls jn jn') (q := Ex.calls jn' jn) rfl (Ex.calls_tame jn jn')

/-! ## C50 -/

def Ex.order1 (jn : Scratch ℚ) : List (Call ℚ) :=
  [(jn, .insert 0 (1 / 2) (some 1)), (jn, .refine 1 (.fresh [1 / 3, 2 / 3])), (jn, .insert (-2) (1 / 2) (some 1)),
    (jn, .insert 0 1 (some 1))]
def Ex.order2 (jn : Scratch ℚ) : List (Call ℚ) :=
  [(jn, .insert (-1) (2 / 3) (some 1)), (jn, .refine 0 (.fresh [1, 1 / 2, 1 / 2])), (jn, .insert 1 (1 / 3) (some 1))]

/-- the hypotheses of C50 hold, and the knots of the result are as expected -/
theorem Ex.order (jn jn' : Scratch ℚ) :
    (history Ex.env Ex.S (Ex.order1 jn)).SameData (history Ex.env Ex.S (Ex.order2 jn')) ∧
      (history Ex.env Ex.S (Ex.order1 jn)).knots 0 = {0, 0, 0, 1 / 2, 1 / 2, 1, 1, 2, 2, 3, 3, 3} ∧
      (history Ex.env Ex.S (Ex.order1 jn)).knots 1 = {-2, -1, 0, 1 / 3, 2 / 3, 1, 2, 3} := by
  have e0 : addedAll (0 : Fin 2) (Ex.order1 jn) = {1 / 2, 1 / 2, 1} := by
    simp only [addedAll, Ex.order1, List.map, Geo.added]
    decide +kernel
  have e1 : addedAll (1 : Fin 2) (Ex.order1 jn) = {1 / 3, 2 / 3} := by
    simp only [addedAll, Ex.order1, List.map, Geo.added]
    decide +kernel
  have e0' : addedAll (0 : Fin 2) (Ex.order2 jn') = {1 / 2, 1 / 2, 1} := by
    simp only [addedAll, Ex.order2, List.map, Geo.added]
    decide +kernel
  have e1' : addedAll (1 : Fin 2) (Ex.order2 jn') = {1 / 3, 2 / 3} := by
    simp only [addedAll, Ex.order2, List.map, Geo.added]
    decide +kernel
  have key := C50_order (env := Ex.env) (by norm_num [Ex.env]) Ex.S_valid Ex.S_inner (p := Ex.order1 jn) (q := Ex.order2 jn')
    (by
      intro c hc
      simp only [Ex.order1, List.mem_cons, List.not_mem_nil, or_false] at hc
      rcases hc with rfl | rfl | rfl | rfl
      · exact ⟨by decide, 0, rfl⟩
      · exact ⟨1, rfl⟩
      · exact ⟨by decide, 0, rfl⟩
      · exact ⟨by decide, 0, rfl⟩)
    (by
      intro c hc
      simp only [Ex.order2, List.mem_cons, List.not_mem_nil, or_false] at hc
      rcases hc with rfl | rfl | rfl
      · exact ⟨by decide, 1, rfl⟩
      · exact ⟨0, rfl⟩
      · exact ⟨by decide, 1, rfl⟩)
    (by
      intro a
      fin_cases a
      · exact e0.trans e0'.symm
      · exact e1.trans e1'.symm)
    (by
      intro a
      fin_cases a
      · show Ex.S.CanAdd _ 0 (addedAll (0 : Fin 2) _)
        rw [e0]
        refine ⟨by decide +kernel, by decide +kernel, ?_, by decide +kernel, by decide +kernel⟩
        intro x hx
        refine Ex.U_sep _ ?_
        revert x
        decide +kernel
      · show Ex.S.CanAdd _ 1 (addedAll (1 : Fin 2) _)
        rw [e1]
        refine ⟨by decide +kernel, by decide +kernel, ?_, by decide +kernel, by decide +kernel⟩
        intro x hx
        refine Ex.W_sep _ ?_
        revert x
        decide +kernel)
  refine ⟨key.1, ?_, ?_⟩
  · rw [key.2, e0]
    decide +kernel
  · rw [key.2, e1]
    decide +kernel

/-! ## C51, C52 -/

/-- the net `2 P - 3 e`, `e` being the constant 1 in every component -/
def Ex.S2 : Nrb ℚ 2 := { Ex.S with P := fun idx c => 2 * Ex.S.P idx c - 3 }
def Ex.S1 : Nrb ℚ 2 := { Ex.S with P := fun _ _ => 1 }

theorem Ex.S2_valid : Ex.S2.Valid := (show Ex.S.SameKnots Ex.S2 from ⟨rfl, rfl, fun _ _ _ _ => rfl⟩).valid Ex.S_valid

example (jn jn' : Scratch ℚ) := C51_superposition (env := Ex.env) (Finset.univ : Finset (Fin 2)) (by norm_num [Ex.env])
  (N := Ex.S2) Ex.S2_valid
  (fun a => (show Ex.S.SameKnots Ex.S2 from ⟨rfl, rfl, fun _ _ _ _ => rfl⟩).inner Ex.S_valid (Ex.S_inner a))
  (M := ![Ex.S, Ex.S1])
  (fun i _ => by fin_cases i <;> exact ⟨rfl, rfl, fun _ _ _ _ => rfl⟩) ![2, -3]
  (fun idx _ c => by
    rw [Fin.sum_univ_two]
    show 2 * Ex.S.P idx c - 3 = 2 * Ex.S.P idx c + (-3) * 1
    ring)
  (p := Ex.calls jn jn') (q := fun _ => Ex.calls jn' jn) (fun _ _ => rfl)
  (tameAll_congr (by norm_num [Ex.env]) Ex.S_valid Ex.S_inner ⟨rfl, rfl, fun _ _ _ _ => rfl⟩ (Ex.calls_tame jn jn'))

example (jn jn' : Scratch ℚ) := (C52_fields (env := Ex.env) (by norm_num [Ex.env]) Ex.S_valid Ex.S_inner (M := Ex.S')
  Ex.S'_knots (p := Ex.calls jn jn') (q := Ex.calls jn' jn) rfl (Ex.calls_tame jn jn')).2.1
  (fun idx h c _ => by rw [Ex.S'_data.net idx h])

/-! ## C53 -/

def Ex.moves (jn : Scratch ℚ) : List (Call ℚ) :=
  [(jn, .insert 0 (1 / 2) (some 1)), (jn, .reverse [1]), (jn, .swap 0 (-1)), (jn, .remap 1 (some 0) (some 10))]

theorem Ex.moves_tame (jn : Scratch ℚ) : TameAll Ex.env Ex.S (Ex.moves jn) := by
  refine ⟨?_, trivial, trivial, trivial, trivial⟩
  intro a ha
  obtain rfl : (0 : Fin 2) = a := by injection ha
  exact ⟨by decide +kernel, by decide +kernel, Ex.U_sep _ (by decide +kernel)⟩

example (jn jn' : Scratch ℚ) := C53_transform (env := Ex.env) (by norm_num [Ex.env]) Ex.S_valid Ex.S_inner
  (Ex.moves_tame jn) (q := Ex.moves jn') rfl
  (by
    intro c hc m
    simp only [Ex.moves, List.mem_cons, List.not_mem_nil, or_false] at hc
    rcases hc with rfl | rfl | rfl | rfl <;> simp)
  (fun i j => i + j) jn jn'

/-- exchanging the axes and then reversing the first is reversing the second and then exchanging them -/
example (jn : Scratch ℚ) := C53_confluent (env := Ex.env) (by norm_num [Ex.env]) Ex.S_valid Ex.S_inner
  (p := [(jn, .swap 0 1), (jn, .reverse [0])]) (q := [(jn, .reverse [1]), (jn, .swap 0 1)]) ⟨trivial, trivial, trivial⟩
  ⟨trivial, trivial, trivial⟩
  (by
    intro x
    funext i
    fin_cases i <;> rfl)
  rfl (by rfl) (by intro a; fin_cases a <;> rfl)

end Igakit
