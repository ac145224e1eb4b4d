import Verif.Props.Circle

/-!
# Arcs over breakpoints that are not equidistant
-/

namespace Igakit
open Spec Transform

/-- the knots of `circle` over the breakpoints `b` -/
noncomputable def breakKnots (b : ℤ → ℝ) (s : ℕ) : ℤ → ℝ := fun j =>
  if j ≤ 0 then 0 else if j ≥ 2 * s + 3 then 1 else b ((j - 1) / 2)

/-- breakpoints of [0,1] -/
structure Breaks (b : ℤ → ℝ) (s : ℕ) : Prop where
  pos : 1 ≤ s
  zero : b 0 = 0
  one : b s = 1
  lt : ∀ i : ℤ, 0 ≤ i → i < s → b i < b (i + 1)

/-- local parameter on segment `i` -/
noncomputable def localPar (b : ℤ → ℝ) (i : ℤ) (u : ℝ) : ℝ := (u - b i) / (b (i + 1) - b i)

/-- the piecewise linear map taking breakpoint `i` to `i` -/
noncomputable def breakMap (b : ℤ → ℝ) (s : ℕ) (u : ℝ) : ℝ := ∑ i ∈ Finset.range s, min 1 (max 0 (localPar b i u))

namespace Breaks
variable {b : ℤ → ℝ} {s : ℕ} (h : Breaks b s)
include h

theorem mono : ∀ {i j : ℤ}, 0 ≤ i → i ≤ j → j ≤ s → b i ≤ b j := by
  intro i j i0 hij
  induction j, hij using Int.leInduction with
  | base => exact fun _ => le_rfl
  | succ j hj ih => exact fun hs => (ih (by omega)).trans (h.lt j (by omega) (by omega)).le

theorem pair {i : ℤ} (h0 : 0 ≤ i) (h1 : i ≤ s) : breakKnots b s (2 * i + 1) = b i ∧ breakKnots b s (2 * i + 2) = b i := by
  constructor
  · unfold breakKnots
    rw [if_neg (by omega), if_neg (by omega), show (2 * i + 1 - 1) / 2 = i by omega]
  · unfold breakKnots
    rw [if_neg (by omega), if_neg (by omega), show (2 * i + 2 - 1) / 2 = i by omega]

theorem valid : ValidKnots (2 * (s : ℤ)) ((2 : ℕ) : ℤ) (breakKnots b s) := by
  have hs := h.pos
  have b0 : ∀ i, 0 ≤ i → i ≤ (s : ℤ) → 0 ≤ b i ∧ b i ≤ 1 := fun i i0 i1 =>
    ⟨by rw [← h.zero]; exact h.mono le_rfl i0 i1, by rw [← h.one]; exact h.mono i0 i1 le_rfl⟩
  refine ⟨by norm_num, by push_cast; omega, ?_, ?_, ?_⟩
  · apply Ex.sortedOn_of_steps
    intro j h0 h1
    unfold breakKnots
    push_cast at h1
    by_cases c0 : j ≤ 0
    · rw [if_pos c0, if_neg (by omega : ¬ j + 1 ≤ 0), if_neg (by omega : ¬ j + 1 ≥ 2 * (s : ℤ) + 3)]
      exact (b0 _ (by omega) (by omega)).1
    · rw [if_neg c0, if_neg (by omega : ¬ j + 1 ≤ 0), if_neg (by omega : ¬ j ≥ 2 * (s : ℤ) + 3)]
      by_cases c2 : j + 1 ≥ 2 * (s : ℤ) + 3
      · rw [if_pos c2]
        exact (b0 _ (by omega) (by omega)).2
      · rw [if_neg c2]
        exact h.mono (by omega) (by omega) (by omega)
  · show breakKnots b s 2 < breakKnots b s 3
    rw [show (2 : ℤ) = 2 * 0 + 2 by norm_num, (h.pair le_rfl (by omega)).2, show (3 : ℤ) = 2 * 1 + 1 by norm_num,
      (h.pair (by omega) (by omega)).1]
    exact h.lt 0 le_rfl (by omega)
  · rw [(h.pair (i := s) (by omega) le_rfl).1, show 2 * (s : ℤ) = 2 * ((s : ℤ) - 1) + 2 by ring, (h.pair (by omega) (by omega)).2]
    have := h.lt ((s : ℤ) - 1) (by omega) (by omega)
    rwa [sub_add_cancel] at this

theorem find {u : ℝ} (h0 : 0 ≤ u) (h1 : u < 1) : ∃ i : ℤ, 0 ≤ i ∧ i < s ∧ b i ≤ u ∧ u < b (i + 1) := by
  have key : ∀ m : ℕ, u < b m → ∃ i : ℤ, 0 ≤ i ∧ i < m ∧ b i ≤ u ∧ u < b (i + 1) := by
    intro m
    induction m with
    | zero =>
      intro hm
      rw [Nat.cast_zero, h.zero] at hm
      exact absurd hm (not_lt.2 h0)
    | succ m ih =>
      intro hm
      rcases lt_or_ge u (b m) with hu | hu
      · obtain ⟨i, a, b', c⟩ := ih hu
        exact ⟨i, a, by push_cast; omega, c⟩
      · exact ⟨m, by omega, by push_cast; omega, hu, by exact_mod_cast hm⟩
  exact key s (by rw [h.one]; exact h1)

theorem span {u : ℝ} (h0 : 0 ≤ u) (h1 : u ≤ 1) : ∃ i : ℤ, 0 ≤ i ∧ i < s ∧ b i ≤ u ∧ u ≤ b (i + 1) ∧
    SpanOf (2 * (s : ℤ)) 2 (breakKnots b s) (2 * i + 2) u := by
  have hs := h.pos
  rcases h1.lt_or_eq with hu | rfl
  · obtain ⟨i, i0, i1, a, c⟩ := h.find h0 hu
    refine ⟨i, i0, i1, a, c.le, by push_cast; omega, by omega, Or.inl ⟨?_, ?_⟩⟩
    · rw [(h.pair i0 (by omega)).2]
      exact a
    · rw [show 2 * i + 2 + 1 = 2 * (i + 1) + 1 by ring, (h.pair (i := i + 1) (by omega) (by omega)).1]
      exact c
  · have hl := h.lt ((s : ℤ) - 1) (by omega) (by omega)
    rw [sub_add_cancel, h.one] at hl
    refine ⟨(s : ℤ) - 1, by omega, by omega, hl.le, by rw [sub_add_cancel, h.one], by push_cast; omega, by omega,
      Or.inr ⟨?_, ?_, ?_⟩⟩
    · rw [(h.pair (i := (s : ℤ) - 1) (by omega) (by omega)).2]
      exact hl
    · rw [show 2 * ((s : ℤ) - 1) + 2 + 1 = 2 * s + 1 by ring, (h.pair (i := s) (by omega) le_rfl).1, h.one]
    · rw [(h.pair (i := s) (by omega) le_rfl).1, h.one]

theorem map_eq {i : ℤ} (i0 : 0 ≤ i) (i1 : i < s) {u : ℝ} (a : b i ≤ u) (c : u ≤ b (i + 1)) :
    breakMap b s u = i + localPar b i u := by
  obtain ⟨k, rfl⟩ := Int.eq_ofNat_of_zero_le i0
  have i1 : k < s := by omega
  have lo : ∀ j : ℕ, j < k → min 1 (max 0 (localPar b j u)) = 1 := by
    intro j hj
    have l := h.lt j (by omega) (by omega)
    have m : b ((j : ℤ) + 1) ≤ b k := h.mono (by omega) (by omega) (by omega)
    have : 1 ≤ localPar b j u := by
      unfold localPar
      rw [le_div_iff₀ (by linarith)]
      linarith
    rw [max_eq_right (by linarith), min_eq_left this]
  have hi : ∀ j : ℕ, k < j → j < s → min 1 (max 0 (localPar b j u)) = 0 := by
    intro j hj js
    have l := h.lt j (by omega) (by omega)
    have m : b ((k : ℤ) + 1) ≤ b j := h.mono (by omega) (by omega) (by omega)
    have : localPar b j u ≤ 0 := by
      unfold localPar
      exact div_nonpos_of_nonpos_of_nonneg (by linarith) (by linarith)
    rw [max_eq_left this, min_eq_right zero_le_one]
  have l := h.lt k (by omega) (by omega)
  have mid : min 1 (max 0 (localPar b k u)) = localPar b k u := by
    have p0 : 0 ≤ localPar b k u := div_nonneg (by linarith) (by linarith)
    have p1 : localPar b k u ≤ 1 := by
      unfold localPar
      rw [div_le_one (by linarith)]
      linarith
    rw [max_eq_right p0, min_eq_right p1]
  unfold breakMap
  rw [← Finset.sum_range_add_sum_Ico _ (Nat.succ_le_of_lt i1), Finset.sum_range_succ, Finset.sum_congr rfl (g := fun _ => (1 : ℝ))
    (fun j hj => lo j (Finset.mem_range.1 hj)), mid, Finset.sum_eq_zero (s := Finset.Ico _ _) (fun j hj => by
      obtain ⟨p, q⟩ := Finset.mem_Ico.1 hj
      exact hi j (by omega) q)]
  simp

theorem map_cont : Continuous (breakMap b s) := by
  unfold breakMap localPar
  fun_prop

theorem map_strict : StrictMonoOn (breakMap b s) (Set.Icc 0 1) := by
  intro u hu v hv huv
  obtain ⟨i, i0, i1, a, c⟩ := h.find hu.1 (huv.trans_le hv.2)
  obtain ⟨k, rfl⟩ := Int.eq_ofNat_of_zero_le i0
  unfold breakMap
  refine Finset.sum_lt_sum (fun j hj => ?_) ⟨k, Finset.mem_range.2 (by omega), ?_⟩
  · have l := h.lt j (by omega) (by have := Finset.mem_range.1 hj; omega)
    have : localPar b j u ≤ localPar b j v := div_le_div_of_nonneg_right (by linarith) (by linarith)
    exact min_le_min le_rfl (max_le_max le_rfl this)
  · have l := h.lt k (by omega) (by omega)
    have lt : localPar b k u < localPar b k v := div_lt_div_of_pos_right (by linarith) (by linarith)
    have p0 : 0 ≤ localPar b k u := div_nonneg (by linarith) (by linarith)
    have p1 : localPar b k u < 1 := by
      unfold localPar
      rw [div_lt_one (by linarith)]
      linarith
    rw [max_eq_right p0, min_eq_right p1.le, max_eq_right (p0.trans lt.le)]
    exact lt_min p1 lt

theorem map_zero : breakMap b s 0 = 0 := by
  have hs := h.pos
  have l := h.lt 0 le_rfl (by omega)
  rw [h.map_eq (i := 0) le_rfl (by omega) h.zero.le (by rw [← h.zero]; exact l.le)]
  simp [localPar, h.zero]

theorem map_one : breakMap b s 1 = s := by
  have hs := h.pos
  have l := h.lt ((s : ℤ) - 1) (by omega) (by omega)
  rw [sub_add_cancel, h.one] at l
  rw [h.map_eq (i := (s : ℤ) - 1) (by omega) (by omega) l.le (by rw [sub_add_cancel, h.one])]
  unfold localPar
  rw [sub_add_cancel, h.one, div_self (by linarith)]
  push_cast
  ring

end Breaks

/-- the object over the knots of the breakpoints `b` with the control points of an arc runs along the circle -/
theorem break_core {b : ℤ → ℝ} {s : ℕ} (hb : Breaks b s) {α r start : ℝ} (hα : |α| < Real.pi) {N : Nrb ℝ 1}
    (hsh : N.shape = fun _ => 2 * (s : ℤ) + 1) (hlen : N.len = fun _ => 2 * ((s : ℤ) + 1) + 2) (hU : N.U = fun _ => breakKnots b s)
    (hP : ∀ idx (c : Fin 4), 0 ≤ idx 0 → idx 0 ≤ 2 * (s : ℤ) → N.P idx c = arcPt r start α (idx 0) c) :
    N.Valid ∧ N.degree 0 = 2 ∧ N.lo 0 = 0 ∧ N.hi 0 = 1 ∧ ∃ θ : ℝ → ℝ, Continuous θ ∧ θ 0 = start ∧ θ 1 = start + 2 * α * s ∧
      (0 < α → StrictMonoOn θ (Set.Icc 0 1)) ∧ (α < 0 → StrictAntiOn θ (Set.Icc 0 1)) ∧
      ∀ u, 0 ≤ u → u ≤ 1 → N.point ![u] = circlePoint 0 r (θ u) := by
  have hn : N.n 0 = 2 * (s : ℤ) := by
    unfold Nrb.n
    rw [hsh]
    ring
  have hdeg : N.degree 0 = ((2 : ℕ) : ℤ) := by
    unfold Nrb.degree
    rw [hsh, hlen]
    push_cast
    ring
  have hU0 : N.U 0 = breakKnots b s := by rw [hU]
  have hv := hb.valid
  have hs := hb.pos
  have key : ∀ u, 0 ≤ u → u ≤ 1 → 0 < N.eval ![u] 3 ∧
      N.eval ![u] 0 = N.eval ![u] 3 * (r * Real.cos (start + segAngle α (breakMap b s u))) ∧
      N.eval ![u] 1 = N.eval ![u] 3 * (r * Real.sin (start + segAngle α (breakMap b s u))) ∧
      N.eval ![u] 2 = 0 := by
    intro u h0 h1
    obtain ⟨i, i0, i1, bl, bu, hspan⟩ := hb.span h0 h1
    have k1 := (hb.pair i0 (by omega)).1
    have k2 := (hb.pair i0 (by omega)).2
    have k3 := (hb.pair (i := i + 1) (by omega) (by omega)).1
    have k4 := (hb.pair (i := i + 1) (by omega) (by omega)).2
    have hl : breakKnots b s (2 * i + 2 - 1) = breakKnots b s (2 * i + 2) := by
      rw [show 2 * i + 2 - 1 = 2 * i + 1 by ring, k1, k2]
    have hr : breakKnots b s (2 * i + 2 + 2) = breakKnots b s (2 * i + 2 + 1) := by
      rw [show 2 * i + 2 + 2 = 2 * (i + 1) + 2 by ring, show 2 * i + 2 + 1 = 2 * (i + 1) + 1 by ring, k3, k4]
    have hmap := hb.map_eq i0 i1 bl bu
    set τ := localPar b i u with hτ
    have ht : (u - breakKnots b s (2 * i + 2)) / (breakKnots b s (2 * i + 2 + 1) - breakKnots b s (2 * i + 2)) = τ := by
      rw [show 2 * i + 2 + 1 = 2 * (i + 1) + 1 by ring, k3, k2, hτ]
      rfl
    have hbez : ∀ c : Fin 4, N.eval ![u] (c : ℕ) = (1 - τ) ^ 2 * arcPt r start α (2 * i) c +
        2 * τ * (1 - τ) * arcPt r start α (2 * i + 1) c + τ ^ 2 * arcPt r start α (2 * i + 2) c := by
      intro c
      rw [← curve_comp, hn, hdeg, hU0]
      have := quad_bezier (P := fun j => N.P ![j] (c : ℕ)) hv.sorted hspan hl hr
      rw [ht, show 2 * i + 2 - 2 = 2 * i by ring, show 2 * i + 2 - 1 = 2 * i + 1 by ring] at this
      have p : ∀ j : ℤ, 0 ≤ j → j ≤ 2 * (s : ℤ) → N.P ![j] (c : ℕ) = arcPt r start α j c := fun j a b => hP ![j] c a b
      rw [p _ (by omega) (by omega), p _ (by omega) (by omega), p _ (by omega) (by omega)] at this
      exact this
    unfold arcPt at hbez
    rw [if_neg (by omega : ¬ (2 * i) % 2 = 1), if_pos (by omega : (2 * i + 1) % 2 = 1),
      if_neg (by omega : ¬ (2 * i + 2) % 2 = 1)] at hbez
    set φ := start + α * (2 * i + 1) with hφ
    rw [show start + α * ((2 * i : ℤ) : ℝ) = φ - α by rw [hφ]; push_cast; ring,
      show start + α * ((2 * i + 1 : ℤ) : ℝ) = φ by rw [hφ]; push_cast; ring,
      show start + α * ((2 * i + 2 : ℤ) : ℝ) = φ + α by rw [hφ]; push_cast; ring] at hbez
    have l := hb.lt i i0 i1
    have hang : start + segAngle α (breakMap b s u) = φ + 2 * Real.arctan ((2 * τ - 1) * Real.tan (α / 2)) := by
      rcases bu.lt_or_eq with hlt | heq
      · have t0 : 0 ≤ τ := div_nonneg (by linarith) (by linarith)
        have t1 : τ < 1 := by
          rw [hτ]
          unfold localPar
          rw [div_lt_one (by linarith)]
          linarith
        have fl : ⌊breakMap b s u⌋ = i := by
          rw [hmap, Int.floor_intCast_add, Int.floor_eq_zero_iff.2 ⟨t0, t1⟩, add_zero]
        unfold segAngle
        unfold Int.fract
        rw [fl, hmap, hφ]
        ring_nf
      · have eτ : τ = 1 := by
          rw [hτ, heq]
          unfold localPar
          exact div_self (by linarith)
        rw [hmap, eτ, show (i : ℝ) + 1 = ((i + 1 : ℤ) : ℝ) by push_cast; ring, segAngle_int hα,
          show (2 * (1 : ℝ) - 1) * Real.tan (α / 2) = Real.tan (α / 2) by ring, arctan_half hα, hφ]
        push_cast
        ring
    obtain ⟨p1, p2, p3⟩ := seg_point hα φ τ
    rw [← hang] at p2 p3
    have b0 := hbez 0
    have b1 := hbez 1
    have b2 : N.eval ![u] 2 = (1 - τ) ^ 2 * 0 + 2 * τ * (1 - τ) * 0 + τ ^ 2 * 0 := hbez 2
    have b3 : N.eval ![u] 3 = (1 - τ) ^ 2 * 1 + 2 * τ * (1 - τ) * Real.cos α + τ ^ 2 * 1 := hbez 3
    simp only [Fin.val_zero, Fin.val_one, Matrix.cons_val_zero, Matrix.cons_val_one] at b0 b1
    have e3 : N.eval ![u] 3 = (1 - τ) ^ 2 + 2 * τ * (1 - τ) * Real.cos α + τ ^ 2 := by rw [b3]; ring
    rw [e3]
    refine ⟨p1, ?_, ?_, by rw [b2]; ring⟩
    · rw [b0]
      linear_combination r * p2
    · rw [b1]
      linear_combination r * p3
  refine ⟨?_, by rw [hdeg]; rfl, ?_, ?_, fun u => start + segAngle α (breakMap b s u), ?_, ?_, ?_, ?_, ?_, ?_⟩
  · intro a
    fin_cases a
    show ValidKnots (N.n 0) (N.degree 0) (N.U 0)
    rw [hn, hdeg, hU0]
    exact hv
  · rw [Nrb.lo_eq, hdeg, hU0, ← hb.zero]
    simpa using (hb.pair (i := 0) le_rfl (by omega)).2
  · rw [Nrb.hi_eq, hn, hU0, (hb.pair (i := s) (by omega) le_rfl).1, hb.one]
  · have := segAngle_cont hα
    have := hb.map_cont
    fun_prop
  · have := segAngle_int hα 0
    simp only [Int.cast_zero, mul_zero] at this
    dsimp only
    rw [hb.map_zero, this, add_zero]
  · have := segAngle_int hα s
    push_cast at this
    dsimp only
    rw [hb.map_one, this]
  · intro hα0 u hu v hv huv
    have := segAngle_strictMono hα0 (by rwa [abs_of_pos hα0] at hα) (hb.map_strict hu hv huv)
    dsimp only
    linarith
  · intro hα0 u hu v hv huv
    have := segAngle_strictMono (neg_pos.2 hα0) (by rw [abs_of_neg hα0] at hα; exact hα) (hb.map_strict hu hv huv)
    rw [segAngle_neg, segAngle_neg] at this
    dsimp only
    linarith
  · intro u h0 h1
    obtain ⟨a, b, c, e⟩ := key u h0 h1
    funext j
    fin_cases j
    · show N.eval ![u] 0 / N.eval ![u] 3 = 0 + r * Real.cos (start + segAngle α _)
      rw [b, mul_div_cancel_left₀ _ a.ne', zero_add]
    · show N.eval ![u] 1 / N.eval ![u] 3 = 0 + r * Real.sin (start + segAngle α _)
      rw [c, mul_div_cancel_left₀ _ a.ne', zero_add]
    · show N.eval ![u] 2 / N.eval ![u] 3 = 0 + 0
      rw [e, zero_div, add_zero]

end Igakit
