import Verif.Props.FloatKnots

/-! # C74: concrete cases, and what floating point loses -/

set_option linter.unusedSectionVars false

namespace Igakit
open Spec

/-- a polyline with the given knots (degree 1, weights 1) -/
def Ex.polyline (l : List ℚ) : Nrb ℚ 1 where
  shape := ![l.length - 2]
  nc := 4
  len := ![l.length]
  U := ![vec l]
  P := fun idx c => if c = 3 then 1 else if c = 0 then idx 0 else 0

theorem Ex.valid1 {N : Nrb ℚ 1} (h : 1 ≤ N.degree 0 ∧ N.degree 0 ≤ N.n 0 ∧
    (∀ k ∈ Finset.Ico 0 (N.n 0 + N.degree 0 + 1), N.U 0 k ≤ N.U 0 (k + 1)) ∧
    N.U 0 (N.degree 0) < N.U 0 (N.degree 0 + 1) ∧ N.U 0 (N.n 0) < N.U 0 (N.n 0 + 1)) : N.Valid := by
  intro a
  have ha : a = 0 := Subsingleton.elim (α := Fin 1) _ _
  subst ha
  exact ⟨h.1, h.2.1, Fp.sortedOn_of_succ fun i i0 i1 => h.2.2.1 i (Finset.mem_Ico.mpr ⟨i0, i1⟩), h.2.2.2.1, h.2.2.2.2⟩

theorem call_below {d : ℕ} {K : Type} [Field K] [LinearOrder K] (rd : K → K) (jk : ℤ → Fp K) (je : ℤ → ℕ → Fp K) {N : Nrb K d}
    {r : Fin d → ℤ} {X : Fin d → ℤ → K} (hr : ∀ a, 0 ≤ r a) {a : Fin d} {i : ℤ} (h0 : 0 ≤ i) (h1 : i ≤ r a)
    (h : X a i < N.lo a ∨ N.hi a < X a i) : N.callF rd jk je r X = .error .assertion := by
  have hm : X a i ∈ Nrb.slab (X a) 0 (r a) := mem_slab.mpr ⟨i, h0, h1, rfl⟩
  unfold Nrb.callF Nrb.callArg
  rw [if_neg (by rintro ⟨b, hb⟩; exact absurd (hr b) (not_le.mpr hb))]
  by_cases hlo : ∀ a ∈ List.finRange d, ∀ x ∈ Nrb.slab (X a) 0 (r a), N.lo a ≤ x
  · have hhi : ¬ ∀ a ∈ List.finRange d, ∀ x ∈ Nrb.slab (X a) 0 (r a), x ≤ N.hi a := by
      intro hhi
      rcases h with h | h
      · exact absurd (hlo a (List.mem_finRange a) _ hm) (not_le.mpr h)
      · exact absurd (hhi a (List.mem_finRange a) _ hm) (not_le.mpr h)
    rw [pyAssert_ok hlo, pyAssert_err hhi]
    rfl
  · rw [pyAssert_err hlo]
    rfl

/-- C74: the far end of a remapped domain may be missed.  A curve on `[0, 49]` remapped to `[0, 1]` in double precision ends at
`1 - 2^-53`, so evaluation at the parameter 1 is rejected; mapped from `[0, 25]` to `[0, 7]` it ends beyond 7. -/
theorem C74_remap_misses :
    (∃ N', (Ex.polyline [0, 0, 49, 49]).remapF (Ex.fl 53) 0 (some 0) (some 1) = .ok N' ∧ N'.hi 0 = 1 - 1 / 2 ^ 53 ∧
      ∀ jk je, N'.callF (Ex.fl 53) jk je (fun _ => 0) (fun _ _ => 1) = .error .assertion) ∧
    (∃ N', (Ex.polyline [0, 0, 25, 25]).remapF (Ex.fl 53) 0 (some 0) (some 7) = .ok N' ∧ N'.hi 0 = 7 + 1 / 2 ^ 50) := by
  constructor
  · have h : ∃ N', (Ex.polyline [0, 0, 49, 49]).remapF (Ex.fl 53) 0 (some 0) (some 1) = .ok N' ∧ N'.hi 0 = 1 - 1 / 2 ^ 53 :=
      ⟨_, rfl, by decide +kernel⟩
    obtain ⟨N', h1, h2⟩ := h
    exact ⟨N', h1, h2, fun jk je => call_below _ jk je (fun _ => le_rfl) (a := 0) (i := 0) le_rfl le_rfl
      (Or.inr (by rw [h2]; norm_num))⟩
  · exact ⟨_, rfl, by decide +kernel⟩

/-- C74: so may the ends of a reversed domain.  A curve on `[0.1, 1]` (0.1 the double next to it) reversed in double precision begins
at `0.1 + 3 / 2^55`, so evaluation at its old beginning is rejected. -/
theorem C74_reverse_misses : let x : ℚ := 3602879701896397 / 2 ^ 55
    ∃ N', (Ex.polyline [x, x, 1, 1]).reverseF (Ex.fl 53) [0] = .ok N' ∧ N'.lo 0 = x + 3 / 2 ^ 55 ∧
      ∀ jk je, N'.callF (Ex.fl 53) jk je (fun _ => 0) (fun _ _ => x) = .error .assertion := by
  intro x
  have h : ∃ N', (Ex.polyline [x, x, 1, 1]).reverseF (Ex.fl 53) [0] = .ok N' ∧ N'.lo 0 = x + 3 / 2 ^ 55 :=
    ⟨_, reverseF_single _ _ rfl, by decide +kernel⟩
  obtain ⟨N', h1, h2⟩ := h
  exact ⟨N', h1, h2, fun jk je => call_below _ jk je (fun _ => le_rfl) (a := 0) (i := 0) le_rfl le_rfl
    (Or.inl (by rw [h2]; linarith [show (0 : ℚ) < 3 / 2 ^ 55 by norm_num]))⟩

/-- C74: reversing twice changes the knot 0.1 of `0, 0, 0.1, 1, 1`; and knots that are close together are merged: with `2^-60` instead
of 0.1 the last span of the reversed curve is empty. -/
theorem C74_reverse_loses : (let x : ℚ := 3602879701896397 / 2 ^ 55
      ∃ N' N'', (Ex.polyline [0, 0, x, 1, 1]).reverseF (Ex.fl 53) [0] = .ok N' ∧ N'.reverseF (Ex.fl 53) [0] = .ok N'' ∧
        N''.U 0 2 < x) ∧
    (Ex.polyline [0, 0, 1 / 2 ^ 60, 1, 1]).Valid ∧
      ∃ N', (Ex.polyline [0, 0, 1 / 2 ^ 60, 1, 1]).reverseF (Ex.fl 53) [0] = .ok N' ∧ ¬ N'.Valid := by
  refine ⟨⟨_, _, reverseF_single _ _ rfl, reverseF_single _ _ rfl, by decide +kernel⟩, Ex.valid1 (by decide +kernel),
    _, reverseF_single _ _ rfl, fun h => ?_⟩
  have := (h 0).last
  revert this
  decide +kernel

/-! ## the hypotheses can be met -/

theorem Ex.isFl_53 {m : ℤ} (e : ℤ) (h : |m| ≤ 2 ^ 53) : Ex.IsFl 53 (m * 2 ^ e) := ⟨m, e, h, rfl⟩

theorem Ex.polyline_fl : ∀ j, 0 ≤ j → j < (Ex.polyline [0, 0, 3, 8, 20, 20]).len 0 → Ex.IsFl 53 ((Ex.polyline [0, 0, 3, 8, 20, 20]).U 0 j) := by
  intro j h0 h1
  have h1 : j < 6 := h1
  have : ∃ m : ℤ, |m| ≤ 2 ^ 53 ∧ (Ex.polyline [0, 0, 3, 8, 20, 20]).U 0 j = m := by
    interval_cases j
    · exact ⟨0, by norm_num, rfl⟩
    · exact ⟨0, by norm_num, rfl⟩
    · exact ⟨3, by norm_num, rfl⟩
    · exact ⟨8, by norm_num, rfl⟩
    · exact ⟨20, by norm_num, rfl⟩
    · exact ⟨20, by norm_num, rfl⟩
  obtain ⟨m, a, b⟩ := this
  rw [b]
  exact Ex.isFl_int a

theorem Ex.polyline_valid : (Ex.polyline [0, 0, 3, 8, 20, 20]).Valid := Ex.valid1 (by decide +kernel)

example := C74_remap (Ex.fl_rounds (t := 53) (by norm_num)) Ex.polyline_valid (axis := -1) (a := 0) rfl Ex.polyline_fl
  (start := some (1 / 2)) (stop := some 3) rfl rfl (by norm_num)
  (by have := Ex.isFl_53 (m := 1) (-1) (by norm_num); norm_num at this ⊢; exact this)
example := C74_remap_error (by positivity) (by norm_num) (Ex.fl_relErr 53) Ex.polyline_valid (axis := -1) (a := 0) rfl
  (start := some (1 / 2)) (stop := none) rfl rfl (by show (1 / 2 : ℚ) < 20; norm_num)

/-- the condition on the spans -/
example : ∀ k, k = (Ex.polyline [0, 0, 3, 8, 20, 20]).degree 0 ∨ k = (Ex.polyline [0, 0, 3, 8, 20, 20]).n 0 →
    2 * ((2 : ℚ) ^ (-((53 : ℕ) : ℤ)) * 3 + (growth ((2 : ℚ) ^ (-((53 : ℕ) : ℤ))) ^ 6 - 1) * (3 - 1 / 2)) <
      ((Ex.polyline [0, 0, 3, 8, 20, 20]).U 0 (k + 1) - (Ex.polyline [0, 0, 3, 8, 20, 20]).U 0 k) *
        ((3 - 1 / 2) / ((Ex.polyline [0, 0, 3, 8, 20, 20]).hi 0 - (Ex.polyline [0, 0, 3, 8, 20, 20]).lo 0)) := by
  rintro k (rfl | rfl) <;> decide +kernel

example := C74_reverse (Ex.fl_rounds (t := 53) (by norm_num)) Ex.polyline_valid (axis := 0) (a := 0) rfl
  (Ex.polyline_fl 0 le_rfl (by decide)) (Ex.polyline_fl 4 (by norm_num) (by decide))
example : ∀ k, k = (Ex.polyline [0, 0, 3, 8, 20, 20]).degree 0 ∨ k = (Ex.polyline [0, 0, 3, 8, 20, 20]).n 0 →
    10 * (2 : ℚ) ^ (-((53 : ℕ) : ℤ)) * 20 < (Ex.polyline [0, 0, 3, 8, 20, 20]).U 0 (k + 1) - (Ex.polyline [0, 0, 3, 8, 20, 20]).U 0 k := by
  rintro k (rfl | rfl) <;> decide +kernel
example := C74_reverse_again (Ex.fl_rounds (t := 53) (by norm_num)) (fun _ _ => Ex.isFl_sub) Ex.polyline_valid (axis := 0) (a := 0) rfl
  Ex.polyline_fl rfl (Ex.isFl_half (Ex.polyline_fl 4 (by norm_num) (by decide))) (by
    intro j h0 h1
    have : ∀ j ∈ Finset.Ico 0 ((Ex.polyline [0, 0, 3, 8, 20, 20]).len 0), 0 ≤ (Ex.polyline [0, 0, 3, 8, 20, 20]).U 0 j ∧
      (Ex.polyline [0, 0, 3, 8, 20, 20]).U 0 j ≤ (Ex.polyline [0, 0, 3, 8, 20, 20]).hi 0 := by decide +kernel
    exact this j (Finset.mem_Ico.mpr ⟨h0, h1⟩))
example := C74_reverse_axes (Ex.fl 53) Ex.S (axes := [1, 0, 1]) (by simp)

end Igakit
