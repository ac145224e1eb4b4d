import Verif.Proofs.Circle
import Mathlib.Analysis.Real.Pi.Bounds

/-! # C33: circles and circular arcs -/

set_option linter.unusedSectionVars false

namespace Igakit
open Spec Transform

/-- the point of the circle with center `t` and radius `r` at angle `a` -/
noncomputable def Spec.circlePoint (t : Fin 3 → ℝ) (r a : ℝ) : Fin 3 → ℝ :=
  t + ![r * Real.cos a, r * Real.sin a, 0]

/-- the center meant by the argument `center` -/
inductive IsCenter : Option (ArrArg ℝ) → (Fin 3 → ℝ) → Prop
  | origin : IsCenter none 0
  | given (c : ArrArg ℝ) (t : Fin 3 → ℝ) (h : IsDispl c none t) : IsCenter (some c) t

/-- the curve runs on `[0,1]` along the circle from angle `start` to angle `stop`: there is an angle
function, continuous and strictly monotone, with these end values -/
structure Nrb.RunsAlong (N : Nrb ℝ 1) (t : Fin 3 → ℝ) (r start stop : ℝ) : Prop where
  valid : N.Valid
  nc : N.nc = 4
  degree : N.degree 0 = 2
  lo : N.lo 0 = 0
  hi : N.hi 0 = 1
  weight : ∀ u, 0 ≤ u → u ≤ 1 → 0 < N.eval ![u] 3
  run : ∃ θ : ℝ → ℝ, Continuous θ ∧ θ 0 = start ∧ θ 1 = stop ∧
    (start < stop → StrictMono θ) ∧ (stop < start → StrictAnti θ) ∧
    ∀ u, 0 ≤ u → u ≤ 1 → N.point ![u] = circlePoint t r (θ u)

theorem call_transMat (t : Fin 3 → ℝ) (x y z w : ℝ) :
    Transform.call (transMat t) ![x, y, z, w] = ![x + t 0 * w, y + t 1 * w, z + t 2 * w, w] := by
  funext c
  unfold Transform.call
  rw [Fin.sum_univ_four]
  simp only [Matrix.transpose_apply]
  fin_cases c <;> simp [transMat, Matrix.one_apply] <;> ring

/-- the object `circle` builds from the control points of an arc runs along the arc -/
theorem circle_core {s : ℕ} (hs : 1 ≤ s) {α r start : ℝ} {t : Fin 3 → ℝ} (hα : |α| < Real.pi)
    {C : ℤ → Fin 4 → ℝ} (hC : ∀ k, 0 ≤ k → k ≤ 2 * (s : ℤ) → C k =
      Transform.call (transMat t) (arcPt r start α k)) :
    ∃ N, Cad.circleObj s C = .ok N ∧
      N.RunsAlong t r start (start + 2 * α * s) := by
  have hs' : (0 : ℝ) < s := by exact_mod_cast hs
  refine ⟨_, ctor_homogeneous (sh := fun _ => 2 * (s : ℤ) + 1) (len := fun _ => 2 * ((s : ℤ) + 1) + 2)
    (by norm_num) (by norm_num) (fun _ => rfl) (fun _ => by omega) rfl (fun _ => by omega), ?_⟩
  set N : Nrb ℝ 1 := (Nrb.mk _ _ _ _ _) with hN
  have hn : N.n 0 = 2 * (s : ℤ) := by show 2 * (s : ℤ) + 1 - 1 = _; ring
  have hdeg : N.degree 0 = ((2 : ℕ) : ℤ) := by
    show 2 * ((s : ℤ) + 1) + 2 - 1 - (2 * (s : ℤ) + 1 - 1) - 1 = _; push_cast; ring
  have hU : N.U 0 = Cad.circleKnots s := rfl
  have hv := circleKnots_valid hs
  have heval : ∀ u (c : Fin 4), N.eval ![u] (c : ℕ) = curve (2 * (s : ℤ)) 2 (Cad.circleKnots s) (fun k => C k c) u := by
    intro u c
    rw [← curve_comp, hn, hdeg, hU]
    congr 1
    funext j
    rw [hN]
    have hc : (((c : ℕ) : ℤ)).toNat < 4 := by have := c.2; omega
    simp only [List.ofFn_succ, List.ofFn_zero]
    simp
  have key : ∀ u, 0 ≤ u → u ≤ 1 → 0 < N.eval ![u] 3 ∧
      N.eval ![u] 0 = N.eval ![u] 3 * (t 0 + r * Real.cos (start + segAngle α (u * s))) ∧
      N.eval ![u] 1 = N.eval ![u] 3 * (t 1 + r * Real.sin (start + segAngle α (u * s))) ∧
      N.eval ![u] 2 = N.eval ![u] 3 * t 2 := by
    intro u h0 h1
    obtain ⟨i, i0, i1, hi, hspan⟩ := circle_span hs h0 h1
    have k1 := (circleKnots_pair hs i0 (by omega)).1
    have k2 := (circleKnots_pair hs i0 (by omega)).2
    have k3 := (circleKnots_pair hs (i := i + 1) (by omega) (by omega)).1
    have k4 := (circleKnots_pair hs (i := i + 1) (by omega) (by omega)).2
    have hl : Cad.circleKnots s (2 * i + 2 - 1) = Cad.circleKnots s (2 * i + 2) := by
      rw [show 2 * i + 2 - 1 = 2 * i + 1 by ring, k1, k2]
    have hr : Cad.circleKnots s (2 * i + 2 + 2) = Cad.circleKnots s (2 * i + 2 + 1) := by
      rw [show 2 * i + 2 + 2 = 2 * (i + 1) + 2 by ring, show 2 * i + 2 + 1 = 2 * (i + 1) + 1 by ring, k3, k4]
    set τ := u * s - i with hτ
    have ht : (u - Cad.circleKnots s (2 * i + 2)) / (Cad.circleKnots s (2 * i + 2 + 1) -
        Cad.circleKnots s (2 * i + 2)) = τ := by
      rw [show 2 * i + 2 + 1 = 2 * (i + 1) + 1 by ring, k3, k2, hτ]
      push_cast
      field_simp
      ring
    have hbez : ∀ c : Fin 4, N.eval ![u] (c : ℕ) = (1 - τ) ^ 2 * C (2 * i) c +
        2 * τ * (1 - τ) * C (2 * i + 1) c + τ ^ 2 * C (2 * i + 2) c := by
      intro c
      rw [heval, quad_bezier hv.sorted hspan hl hr, ht, show 2 * i + 2 - 2 = 2 * i by ring,
        show 2 * i + 2 - 1 = 2 * i + 1 by ring]
      rfl
    rw [hC (2 * i) (by omega) (by omega), hC (2 * i + 1) (by omega) (by omega),
      hC (2 * i + 2) (by omega) (by omega)] at hbez
    unfold arcPt at hbez
    simp only [call_transMat] at hbez
    rw [if_neg (by omega : ¬ (2 * i) % 2 = 1), if_pos (by omega : (2 * i + 1) % 2 = 1),
      if_neg (by omega : ¬ (2 * i + 2) % 2 = 1)] at hbez
    set φ := start + α * (2 * i + 1) with hφ
    rw [show start + α * ((2 * i : ℤ) : ℝ) = φ - α by rw [hφ]; push_cast; ring,
      show start + α * ((2 * i + 1 : ℤ) : ℝ) = φ by rw [hφ]; push_cast; ring,
      show start + α * ((2 * i + 2 : ℤ) : ℝ) = φ + α by rw [hφ]; push_cast; ring] at hbez
    have hang : start + segAngle α (u * s) = φ + 2 * Real.arctan ((2 * τ - 1) * Real.tan (α / 2)) := by
      rcases hi with hi | ⟨rfl, hi⟩
      · unfold segAngle
        rw [← hi, hφ, hτ]
        unfold Int.fract
        rw [← hi]
        ring
      · have e : (1 : ℝ) * s = ((s : ℤ) : ℝ) := by push_cast; ring
        have eτ : τ = 1 := by rw [hτ, hi]; push_cast; ring
        rw [e, segAngle_int hα, eτ, show (2 * (1 : ℝ) - 1) * Real.tan (α / 2) = Real.tan (α / 2) by ring,
          arctan_half hα, hφ, hi]
        push_cast
        ring
    obtain ⟨p1, p2, p3⟩ := seg_point hα φ τ
    rw [← hang] at p2 p3
    have b0 := hbez 0
    have b1 := hbez 1
    have b2 := hbez 2
    have b3 := hbez 3
    simp only [Fin.val_zero, Fin.val_one, Fin.val_two, Matrix.cons_val_zero, Matrix.cons_val_one] at b0 b1 b2
    have b2' : N.eval ![u] 2 = (1 - τ) ^ 2 * (0 + t 2 * 1) + 2 * τ * (1 - τ) * (0 + t 2 * Real.cos α) +
      τ ^ 2 * (0 + t 2 * 1) := b2
    have b3' : N.eval ![u] 3 = (1 - τ) ^ 2 * 1 + 2 * τ * (1 - τ) * Real.cos α + τ ^ 2 * 1 := b3
    have e3 : N.eval ![u] 3 = (1 - τ) ^ 2 + 2 * τ * (1 - τ) * Real.cos α + τ ^ 2 := by rw [b3']; ring
    rw [e3]
    refine ⟨p1, ?_, ?_, ?_⟩
    · rw [b0]
      linear_combination r * p2
    · rw [b1]
      linear_combination r * p3
    · rw [b2']
      ring
  refine ⟨?_, rfl, ?_, ?_, ?_, fun u h0 h1 => (key u h0 h1).1, ?_⟩
  · intro a
    fin_cases a
    show ValidKnots (N.n 0) (N.degree 0) (N.U 0)
    rw [hn, hdeg, hU]
    exact hv
  · rw [hdeg]; rfl
  · rw [Nrb.lo_eq, hdeg, hU]
    simpa using (circleKnots_pair hs (i := 0) le_rfl (by omega)).2
  · rw [Nrb.hi_eq, hn, hU, (circleKnots_pair hs (i := s) (by omega) le_rfl).1]
    push_cast
    field_simp
  · refine ⟨fun u => start + segAngle α (u * s), ?_, ?_, ?_, ?_, ?_, ?_⟩
    · have := segAngle_cont hα
      fun_prop
    · have := segAngle_int hα 0
      simp only [Int.cast_zero, mul_zero] at this
      dsimp only
      rw [zero_mul, this, add_zero]
    · have := segAngle_int hα s
      push_cast at this
      dsimp only
      rw [one_mul, this]
    · intro hlt u u' huu
      have hα0 : 0 < α := by
        by_contra hcon
        nlinarith
      have := segAngle_strictMono hα0 (by rwa [abs_of_pos hα0] at hα) (show u * s < u' * s by nlinarith)
      dsimp only
      linarith
    · intro hlt u u' huu
      have hα0 : 0 < -α := by
        by_contra hcon
        nlinarith
      have := segAngle_strictMono hα0 (by rw [← abs_neg, abs_of_pos hα0] at hα; exact hα)
        (show u * s < u' * s by nlinarith)
      rw [segAngle_neg, segAngle_neg] at this
      dsimp only
      linarith
    · intro u h0 h1
      obtain ⟨a, b, c, e⟩ := key u h0 h1
      funext j
      fin_cases j
      · show N.eval ![u] 0 / N.eval ![u] 3 = t 0 + r * Real.cos (start + segAngle α (u * s))
        rw [b, mul_div_cancel_left₀ _ a.ne']
      · show N.eval ![u] 1 / N.eval ![u] 3 = t 1 + r * Real.sin (start + segAngle α (u * s))
        rw [c, mul_div_cancel_left₀ _ a.ne']
      · show N.eval ![u] 2 / N.eval ![u] 3 = t 2 + 0
        rw [e, mul_div_cancel_left₀ _ a.ne', add_zero]

theorem arcSpans_pos {sweep : ℝ} (h : sweep ≠ 0) : 1 ≤ Cad.arcSpans sweep := by
  unfold Cad.arcSpans Cad.quadrants
  rw [List.filter_cons_of_pos (by simpa using h)]
  simp

/-- with less than two turns, each segment is less than half a turn -/
theorem arcSpans_alpha {sweep : ℝ} (h : sweep ≠ 0) (h4 : |sweep| < 4 * Real.pi) :
    |sweep / (2 * (Cad.arcSpans sweep : ℝ))| < Real.pi / 2 := by
  have hpi := Real.pi_pos
  have h0 : 0 < |sweep| := abs_pos.mpr h
  have hpos : (0 : ℝ) < Cad.arcSpans sweep := by exact_mod_cast arcSpans_pos h
  rw [abs_div, abs_of_pos (show (0 : ℝ) < 2 * (Cad.arcSpans sweep : ℝ) by positivity), div_lt_iff₀ (by positivity)]
  unfold Cad.arcSpans Cad.quadrants
  simp only [List.filter_cons, List.filter_nil]
  simp only [decide_eq_true_eq]
  split_ifs <;> simp <;> nlinarith

theorem center_translate {c : Option (ArrArg ℝ)} {t : Fin 3 → ℝ} (h : IsCenter c t) (C : ℤ → Fin 4 → ℝ) :
    Cad.toCenter C c =
      .ok (fun j => Transform.call (transMat t) (C j)) := by
  cases h with
  | origin =>
    unfold Cad.toCenter
    dsimp only
    rw [res_pure]
    congr 1
    funext j
    have : transMat (0 : Fin 3 → ℝ) = 1 := by
      ext a b
      fin_cases a <;> fin_cases b <;> simp [transMat, Matrix.one_apply]
    rw [this, call_one]
  | given c t h =>
    unfold Cad.toCenter
    dsimp only
    have hT : Transform.translate 1 c none = .ok (transMat t) := by
      unfold Transform.translate
      rw [transVec_ok h, res_ok_bind, compose, mul_one]
      rfl
    rw [hT]
    rfl

/-- start and end angle meant by the argument `angle`: none is the whole circle, one number goes from 0 to it, in a
pair a missing start is 0 and a missing end is `2π` -/
noncomputable def angles : AngleArg → ℝ × ℝ
  | .none => (0, 2 * Real.pi)
  | .one a => (0, a)
  | .pair (some a) (some b) => (a, b)
  | .pair (some a) none => (a, 2 * Real.pi)
  | .pair none (some b) => (0, b)
  | .pair none none => (0, 2 * Real.pi)

theorem arcEnds_eq (angle : AngleArg) : Cad.arcEnds angle = angles angle := by
  rcases angle with _ | a | ⟨_ | a, _ | b⟩ <;> rfl

/-- C33: a circle or an arc of less than two turns lies on the circle with the given center and radius.
It runs continuously and monotonically, with positive weight, from the start angle to the end angle,
for every parameter in `[0,1]`; the whole circle is the case of the angles 0 and `2π`. -/
theorem C33_circle (junk : ℤ → Fin 4 → ℝ) (r : ℝ) {center : Option (ArrArg ℝ)} {t : Fin 3 → ℝ}
    (ht : IsCenter center t) (angle : AngleArg)
    (h0 : (angles angle).1 ≠ (angles angle).2)
    (h4 : |(angles angle).2 - (angles angle).1| < 4 * Real.pi) :
    ∃ N, Cad.circle junk r center angle = .ok N ∧
      N.RunsAlong t r (angles angle).1 (angles angle).2 := by
  rw [← arcEnds_eq] at h0 h4 ⊢
  have hpi := Real.pi_pos
  have main : ∀ ang : AngleArg, ang ≠ .none → (Cad.arcEnds ang).1 ≠ (Cad.arcEnds ang).2 →
      |(Cad.arcEnds ang).2 - (Cad.arcEnds ang).1| < 4 * Real.pi →
      ∃ N, Cad.circle junk r center ang = .ok N ∧
        N.RunsAlong t r (Cad.arcEnds ang).1 (Cad.arcEnds ang).2 := by
    intro ang hang h0 h4
    have hsw : (Cad.arcEnds ang).2 - (Cad.arcEnds ang).1 ≠ 0 := sub_ne_zero.mpr h0.symm
    have hs := arcSpans_pos hsw
    have hα := arcSpans_alpha hsw h4
    have hcos : Real.cos (((Cad.arcEnds ang).2 - (Cad.arcEnds ang).1) /
        (2 * (Cad.arcSpans ((Cad.arcEnds ang).2 - (Cad.arcEnds ang).1) : ℝ))) ≠ 0 :=
      (Real.cos_pos_of_mem_Ioo ⟨by linarith [(abs_lt.mp hα).1], (abs_lt.mp hα).2⟩).ne'
    obtain ⟨C, hC, hCk⟩ := arcNet_eq junk (r := r) (start := (Cad.arcEnds ang).1) hs hcos
    obtain ⟨N, hN, hR⟩ := circle_core hs (t := t) (lt_trans hα (by linarith))
      (C := fun j => Transform.call (transMat t) (C j)) (fun k k0 k1 => by rw [hCk k k0 k1])
    refine ⟨N, ?_, ?_⟩
    · have hd : Cad.circleData junk r ang = .ok
          (Cad.arcSpans ((Cad.arcEnds ang).2 - (Cad.arcEnds ang).1), C) := by
        unfold Cad.circleData
        cases ang with
        | none => exact absurd rfl hang
        | one a =>
          dsimp only
          rw [if_neg (by omega : ¬ Cad.arcSpans _ = 0), hC]
          rfl
        | pair a b =>
          dsimp only
          rw [if_neg (by omega : ¬ Cad.arcSpans _ = 0), hC]
          rfl
      unfold Cad.circle
      rw [hd, res_ok_bind, center_translate ht, res_ok_bind]
      exact hN
    · have e : (Cad.arcEnds ang).1 + 2 * (((Cad.arcEnds ang).2 - (Cad.arcEnds ang).1) /
          (2 * (Cad.arcSpans ((Cad.arcEnds ang).2 - (Cad.arcEnds ang).1) : ℝ))) *
          (Cad.arcSpans ((Cad.arcEnds ang).2 - (Cad.arcEnds ang).1) : ℝ) = (Cad.arcEnds ang).2 := by
        have : (0 : ℝ) < Cad.arcSpans ((Cad.arcEnds ang).2 - (Cad.arcEnds ang).1) := by exact_mod_cast hs
        field_simp
        ring
      rw [e] at hR
      exact hR
  cases angle with
  | one a => exact main _ (by simp) h0 h4
  | pair a b => exact main _ (by simp) h0 h4
  | none =>
    have hα : |2 * Real.pi / (2 * ((4 : ℕ) : ℝ))| < Real.pi := by
      rw [abs_of_pos (by positivity)]
      push_cast
      linarith
    obtain ⟨N, hN, hR⟩ := circle_core (s := 4) (by norm_num) (t := t) (r := r) (start := 0) hα
      (C := fun j => Transform.call (transMat t) (Cad.circleNet r j)) (fun k k0 k1 => by
        rw [circleNet_eq r k k0 (by push_cast at k1; omega)])
    refine ⟨N, ?_, ?_⟩
    · unfold Cad.circle Cad.circleData
      dsimp only
      rw [res_pure, res_ok_bind]
      dsimp only
      rw [center_translate ht, res_ok_bind]
      exact hN
    · have e : (0 : ℝ) + 2 * (2 * Real.pi / (2 * ((4 : ℕ) : ℝ))) * ((4 : ℕ) : ℝ) = 2 * Real.pi := by
        push_cast; ring
      rw [e] at hR
      exact hR

/-- C33: every point is at distance `|r|` from the center -/
theorem C33_distance {N : Nrb ℝ 1} {t : Fin 3 → ℝ} {r a b : ℝ} (h : N.RunsAlong t r a b) {u : ℝ}
    (h0 : 0 ≤ u) (h1 : u ≤ 1) :
    norm3 (N.point ![u] - t) = |r| ∧ N.point ![u] 2 = t 2 ∧
    N.point ![0] = circlePoint t r a ∧ N.point ![1] = circlePoint t r b := by
  obtain ⟨θ, _, e0, e1, _, _, hp⟩ := h.run
  refine ⟨?_, ?_, ?_, ?_⟩
  · rw [hp u h0 h1]
    unfold norm3 circlePoint
    rw [add_sub_cancel_left, ← Real.sqrt_sq_eq_abs]
    congr 1
    simp
    linear_combination r ^ 2 * Real.sin_sq_add_cos_sq (θ u)
  · rw [hp u h0 h1]; simp [circlePoint]
  · rw [hp 0 le_rfl zero_le_one, e0]
  · rw [hp 1 zero_le_one le_rfl, e1]

/-- C33: every angle between the two is reached -/
theorem C33_covers {N : Nrb ℝ 1} {t : Fin 3 → ℝ} {r a b : ℝ} (h : N.RunsAlong t r a b) {φ : ℝ}
    (hφ : φ ∈ Set.uIcc a b) : ∃ u, 0 ≤ u ∧ u ≤ 1 ∧ N.point ![u] = circlePoint t r φ := by
  obtain ⟨θ, hc, e0, e1, _, _, hp⟩ := h.run
  have := intermediate_value_uIcc (a := 0) (b := 1) (f := θ) hc.continuousOn
  rw [e0, e1, Set.uIcc_of_le (zero_le_one (α := ℝ))] at this
  obtain ⟨u, hu, hu'⟩ := this hφ
  exact ⟨u, hu.1, hu.2, by rw [hp u hu.1 hu.2, hu']⟩

/-- C33: an empty arc is rejected -/
theorem C33_empty (junk : ℤ → Fin 4 → ℝ) (r : ℝ) (center : Option (ArrArg ℝ)) (angle : AngleArg)
    (h : (angles angle).1 = (angles angle).2) :
    Cad.circle junk r center angle = .error .value := by
  rw [← arcEnds_eq] at h
  have hs : Cad.arcSpans ((Cad.arcEnds angle).2 - (Cad.arcEnds angle).1) = 0 := by
    have hpi := Real.pi_pos
    rw [h, sub_self]
    unfold Cad.arcSpans Cad.quadrants
    simp only [List.filter_cons, List.filter_nil, abs_zero, lt_irrefl, decide_eq_true_eq]
    rw [if_neg (by simp), if_neg (by simp; positivity), if_neg (by simp; positivity),
      if_neg (by simp; positivity)]
    rfl
  unfold Cad.circle Cad.circleData
  cases angle with
  | none => exact absurd h (by simp [Cad.arcEnds, Real.pi_ne_zero.symm])
  | one a => dsimp only; rw [if_pos hs]; rfl
  | pair a b => dsimp only; rw [if_pos hs]; rfl

/-! ## Concrete cases -/

/-- a quarter turn backwards of radius 3 about (2,1) -/
example (junk : ℤ → Fin 4 → ℝ) : ∃ N, Cad.circle junk 3 (some (.vec [2, 1])) (.pair (some 1) (some (-1))) = .ok N ∧
    N.RunsAlong ![2, 1, 0] 3 1 (-1) := by
  have hd : IsDispl (.vec [2, 1]) none (![2, 1, 0] : Fin 3 → ℝ) := by
    have := IsDispl.vec (K := ℝ) [2, 1] (by norm_num)
    have e : (fun i : Fin 3 => ([2, 1] : List ℝ).getD i 0) = ![2, 1, 0] := by
      funext i; fin_cases i <;> rfl
    rwa [e] at this
  refine C33_circle junk 3 (.given _ _ hd) (.pair (some 1) (some (-1))) ?_ ?_
  · show (1 : ℝ) ≠ -1
    norm_num
  · show |(-1 : ℝ) - 1| < _
    rw [show (-1 : ℝ) - 1 = -2 by norm_num, abs_neg, abs_of_pos (by norm_num)]
    linarith [Real.pi_gt_three]

example (junk : ℤ → Fin 4 → ℝ) : ∃ N, Cad.circle junk 1 none .none = .ok N ∧
    N.RunsAlong 0 1 0 (2 * Real.pi) := by
  have hpi := Real.pi_pos
  refine C33_circle junk 1 .origin .none ?_ ?_
  · show (0 : ℝ) ≠ 2 * Real.pi
    positivity
  · show |2 * Real.pi - 0| < _
    rw [sub_zero, abs_of_pos (by positivity)]
    linarith

end Igakit
