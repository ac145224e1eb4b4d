import Verif.Proofs.Cad
import Mathlib.Topology.Algebra.Order.Floor
import Mathlib.Analysis.SpecialFunctions.Trigonometric.Arctan
import Mathlib.Tactic.LinearCombination

/-! # The circle: closed form of the net, the pieces, the angle -/

set_option linter.unusedSectionVars false

namespace Igakit
open Spec Transform

section quad
variable {K : Type*} [Field K] [LinearOrder K] [IsStrictOrderedRing K]
variable {E : Type*} [AddCommGroup E] [Module K E]

/-- a quadratic piece between double knots is a Bezier segment -/
theorem quad_bezier {n : ℤ} {U : ℤ → K} {P : ℤ → E} {u : K} {k : ℤ} (hs : SortedOn U 0 (n + (2 : ℕ) + 1))
    (h : SpanOf n 2 U k u) (hl : U (k - 1) = U k) (hr : U (k + 2) = U (k + 1)) :
    curve n 2 U P u = (1 - (u - U k) / (U (k + 1) - U k)) ^ 2 • P (k - 2) +
      (2 * ((u - U k) / (U (k + 1) - U k)) * (1 - (u - U k) / (U (k + 1) - U k))) • P (k - 1) +
      ((u - U k) / (U (k + 1) - U k)) ^ 2 • P k := by
  obtain ⟨f, hf, hrep⟩ := exists_form P (h.win hs)
  rw [h.curve_form hs hf hrep]
  have hne : U (k + 1) - U k ≠ 0 := sub_ne_zero.mpr h.ne.ne'
  push_cast at hrep
  have p0 : P (k - 2) = f {U k, U k} := by
    rw [hrep (k - 2) le_rfl (by omega), kn_succ_last, kn_succ_last, kn_zero]
    push_cast
    rw [show k - 2 + 1 + 1 = k by ring, show k - 2 + 1 + 0 = k - 1 by ring, hl]
    rfl
  have p1 : P (k - 1) = f {U (k + 1), U k} := by
    rw [hrep (k - 1) (by omega) (by omega), kn_succ_last, kn_succ_last, kn_zero]
    push_cast
    rw [show k - 1 + 1 + 1 = k + 1 by ring, show k - 1 + 1 + 0 = k by ring]
    rfl
  have p2 : P k = f {U (k + 1), U (k + 1)} := by
    rw [hrep k (by omega) le_rfl, kn_succ_last, kn_succ_last, kn_zero]
    push_cast
    rw [show k + 1 + 1 = k + 2 by ring, add_zero, hr]
    rfl
  have e0 : Multiset.replicate 2 u = u ::ₘ {u} := rfl
  have e1 : ∀ x : K, (x ::ₘ ({u} : Multiset K)) = u ::ₘ {x} := fun x => Multiset.cons_swap x u 0
  rw [e0, hf.interp' (by simp) hne u, e1, e1, hf.interp' (by simp) hne u,
    hf.interp' (m := {U k}) (by simp) hne u]
  rw [show (U k ::ₘ {U (k + 1)} : Multiset K) = {U (k + 1), U k} from Multiset.cons_swap _ _ 0,
    show (U (k + 1) ::ₘ {U (k + 1)} : Multiset K) = {U (k + 1), U (k + 1)} from rfl,
    show (U (k + 1) ::ₘ {U k} : Multiset K) = {U (k + 1), U k} from rfl,
    show (U k ::ₘ {U k} : Multiset K) = {U k, U k} from rfl, ← p0, ← p1, ← p2]
  match_scalars <;> ring

end quad

/-! ## the net -/

/-- closed form of the control points of an arc -/
noncomputable def arcPt (r s α : ℝ) (k : ℤ) : Fin 4 → ℝ :=
  ![r * Real.cos (s + α * k), r * Real.sin (s + α * k), 0, if k % 2 = 1 then Real.cos α else 1]

theorem rotZ (a : ℝ) : ∃ R, Transform.rotate 1 a (.int 2) = .ok R ∧ ∀ x y z w,
    Transform.call R ![x, y, z, w] =
      ![x * Real.cos a - y * Real.sin a, x * Real.sin a + y * Real.cos a, z, w] := by
  refine ⟨_, rotate_ok (IsAxis.int 2 2 (normAxis_self (2 : Fin 3))) 1 a, fun x y z w => ?_⟩
  rw [mul_one]
  funext c
  unfold Transform.call
  rw [Fin.sum_univ_four]
  simp only [Matrix.transpose_apply]
  fin_cases c <;> simp [embed3, rodrigues_eq, Pi.single_apply] <;> ring

theorem arcPt_rot {R : Mat4 ℝ} {r s α : ℝ}
    (hR : ∀ x y z w, Transform.call R ![x, y, z, w] =
      ![x * Real.cos (2 * α) - y * Real.sin (2 * α), x * Real.sin (2 * α) + y * Real.cos (2 * α), z, w])
    (k : ℤ) : Transform.call R (arcPt r s α k) = arcPt r s α (k + 2) := by
  unfold arcPt
  rw [hR, show s + α * ((k + 2 : ℤ) : ℝ) = (s + α * k) + 2 * α by push_cast; ring,
    Real.cos_add (s + α * k) (2 * α), Real.sin_add (s + α * k) (2 * α), show (k + 2) % 2 = k % 2 by omega]
  congr 1
  · ring
  · congr 1; ring

theorem arcNet_eq (junk : ℤ → Fin 4 → ℝ) {r start sweep : ℝ} {spans : ℕ} (hs : 1 ≤ spans)
    (hc : Real.cos (sweep / (2 * spans)) ≠ 0) :
    ∃ C, Cad.arcNet junk r start sweep spans = .ok C ∧
      ∀ k, 0 ≤ k → k ≤ 2 * (spans : ℤ) → C k = arcPt r start (sweep / (2 * spans)) k := by
  obtain ⟨R1, hR1, h1⟩ := rotZ (sweep / (2 * spans) + start)
  obtain ⟨R2, hR2, h2⟩ := rotZ (2 * (sweep / (2 * spans)))
  set α := sweep / (2 * (spans : ℝ)) with hα
  have hfirst : ∀ k, 0 ≤ k → k ≤ 2 →
      fillRange junk 0 2 0 (fun j => Transform.call R1 (Cad.arcSegment r α j)) k = arcPt r start α k := by
    intro k k0 k2
    have e : fillRange junk 0 2 0 (fun j => Transform.call R1 (Cad.arcSegment r α j)) k =
        Transform.call R1 (Cad.arcSegment r α k) := by
      unfold fillRange
      rw [if_pos ⟨by omega, by omega⟩]
      simp
    rw [e]
    have ht : Real.cos α * (r * Real.cos α + r * Real.sin α * Real.tan α) = r := by
      rw [Real.tan_eq_sin_div_cos]
      field_simp
      rw [Real.cos_sq_add_sin_sq, mul_one]
    have : k = 0 ∨ k = 1 ∨ k = 2 := by omega
    rcases this with rfl | rfl | rfl
    · unfold Cad.arcSegment arcPt
      dsimp only
      rw [if_pos rfl, h1]
      simp only [Int.cast_zero, mul_zero, add_zero]
      rw [Real.cos_add, Real.sin_add]
      congr 1
      · linear_combination (r * Real.cos start) * Real.sin_sq_add_cos_sq α
      · congr 1
        linear_combination (r * Real.sin start) * Real.sin_sq_add_cos_sq α
    · unfold Cad.arcSegment arcPt
      dsimp only
      rw [if_neg (by norm_num), if_pos rfl, h1, ht]
      simp only [Int.cast_one, mul_one]
      rw [show start + α = α + start by ring]
      congr 1
      · ring
      · congr 1; ring
    · unfold Cad.arcSegment arcPt
      dsimp only
      rw [if_neg (by norm_num), if_neg (by norm_num), h1]
      rw [show start + α * ((2 : ℤ) : ℝ) = α + (α + start) by push_cast; ring, Real.cos_add α (α + start),
        Real.sin_add α (α + start)]
      congr 1
      · ring
      · congr 1; ring
  unfold Cad.arcNet
  dsimp only
  rw [← hα, hR1, res_ok_bind]
  by_cases hsp : spans > 1
  · rw [if_pos hsp, hR2, res_ok_bind]
    refine ⟨_, rfl, ?_⟩
    have := forUp_inv (f := fun i Cw =>
        upd (upd Cw (2 * i + 1) (Transform.call R2 (Cw (2 * i + 1 - 2)))) (2 * i + 1 + 1)
          (Transform.call R2 (Cw (2 * i + 1 - 1))))
      (lo := 1) (hi := (spans : ℤ) - 1)
      (s := fillRange junk 0 2 0 (fun j => Transform.call R1 (Cad.arcSegment r α j)))
      (I := fun i Cw => ∀ k, 0 ≤ k → k ≤ 2 * i → Cw k = arcPt r start α k)
      (by omega) (by simpa using hfirst) (by
        intro i Cw hi1 hi2 ih k k0 k2
        by_cases e2 : k = 2 * i + 1 + 1
        · rw [e2, upd_same, ih _ (by omega) (by omega), arcPt_rot h2]
          congr 1; ring
        · rw [upd_ne _ _ (by omega)]
          by_cases e1 : k = 2 * i + 1
          · rw [e1, upd_same, ih _ (by omega) (by omega), arcPt_rot h2]
            congr 1; ring
          · rw [upd_ne _ _ (by omega)]
            exact ih k k0 (by omega))
    intro k k0 k2
    exact this k k0 (by omega)
  · rw [if_neg hsp]
    refine ⟨_, rfl, fun k k0 k2 => hfirst k k0 (by omega)⟩

theorem circleNet_eq (r : ℝ) : ∀ k, 0 ≤ k → k ≤ 8 →
    Cad.circleNet r k = arcPt r 0 (2 * Real.pi / (2 * (4 : ℕ))) k := by
  have hα : 2 * Real.pi / (2 * ((4 : ℕ) : ℝ)) = Real.pi / 4 := by push_cast; ring
  rw [hα]
  intro k h0 h8
  have : k = 0 ∨ k = 1 ∨ k = 2 ∨ k = 3 ∨ k = 4 ∨ k = 5 ∨ k = 6 ∨ k = 7 ∨ k = 8 := by omega
  have c1 := Real.cos_pi_div_four
  have s1 := Real.sin_pi_div_four
  have a2 : Real.pi / 4 * 2 = Real.pi / 2 := by ring
  have a3 : Real.pi / 4 * 3 = Real.pi - Real.pi / 4 := by ring
  have a4 : Real.pi / 4 * 4 = Real.pi := by ring
  have a5 : Real.pi / 4 * 5 = Real.pi / 4 + Real.pi := by ring
  have a6 : Real.pi / 4 * 6 = Real.pi / 2 + Real.pi := by ring
  have a7 : Real.pi / 4 * 7 = 2 * Real.pi - Real.pi / 4 := by ring
  have a8 : Real.pi / 4 * 8 = 2 * Real.pi := by ring
  rcases this with rfl | rfl | rfl | rfl | rfl | rfl | rfl | rfl | rfl
  · simp [Cad.circleNet, arcPt, Cad.circlePts]
  · simp [Cad.circleNet, arcPt, Cad.circlePts, c1, s1]
  · simp [Cad.circleNet, arcPt, Cad.circlePts, a2]
  · simp [Cad.circleNet, arcPt, Cad.circlePts, a3, c1, s1]
  · simp [Cad.circleNet, arcPt, Cad.circlePts, a4]
  · simp [Cad.circleNet, arcPt, Cad.circlePts, a5, Real.cos_add_pi, Real.sin_add_pi, c1, s1]
  · simp [Cad.circleNet, arcPt, Cad.circlePts, a6, Real.cos_add_pi, Real.sin_add_pi]
  · simp [Cad.circleNet, arcPt, Cad.circlePts, a7, Real.cos_two_pi_sub, Real.sin_two_pi_sub, c1, s1]
  · simp [Cad.circleNet, arcPt, Cad.circlePts, a8]

/-! ## the knots -/

theorem circleKnots_pair {s : ℕ} (hs : 1 ≤ s) {i : ℤ} (h0 : 0 ≤ i) (h1 : i ≤ s) :
    Cad.circleKnots s (2 * i + 1) = i / s ∧ Cad.circleKnots s (2 * i + 2) = i / s := by
  constructor
  · unfold Cad.circleKnots
    rw [if_neg (by omega), if_neg (by omega), show (2 * i + 1 - 1) / 2 = i by omega]
  · unfold Cad.circleKnots
    rw [if_neg (by omega), if_neg (by omega), show (2 * i + 2 - 1) / 2 = i by omega]

theorem circleKnots_valid {s : ℕ} (hs : 1 ≤ s) :
    ValidKnots (2 * (s : ℤ)) ((2 : ℕ) : ℤ) (Cad.circleKnots s) := by
  have hs' : (0 : ℝ) < s := by exact_mod_cast hs
  have e0 : Cad.circleKnots s 0 = 0 := if_pos le_rfl
  have e2 : Cad.circleKnots s 2 = 0 := by simpa using (circleKnots_pair hs (i := 0) le_rfl (by omega)).2
  have e3 : Cad.circleKnots s 3 = 1 / s := by
    simpa using (circleKnots_pair hs (i := 1) (by omega) (by omega)).1
  have en : Cad.circleKnots s (2 * s + 1) = 1 := by
    rw [(circleKnots_pair hs (i := s) (by omega) le_rfl).1]
    push_cast
    field_simp
  have em : Cad.circleKnots s (2 * s) = (((s : ℤ) - 1 : ℤ) : ℝ) / s := by
    have := (circleKnots_pair hs (i := (s : ℤ) - 1) (by omega) (by omega)).2
    rwa [show 2 * ((s : ℤ) - 1) + 2 = 2 * s by ring] at this
  refine ⟨by norm_num, by push_cast; omega, ?_, ?_, ?_⟩
  · apply Ex.sortedOn_of_steps
    intro j h0 h1
    unfold Cad.circleKnots
    by_cases c0 : j ≤ 0
    · rw [if_pos c0]
      by_cases c1 : j + 1 ≤ 0
      · rw [if_pos c1]
      · rw [if_neg c1]
        by_cases c2 : j + 1 ≥ 2 * s + 3
        · rw [if_pos c2]; exact zero_le_one
        · rw [if_neg c2]
          have : (0 : ℤ) ≤ (j + 1 - 1) / 2 := by omega
          have : (0 : ℝ) ≤ (((j + 1 - 1) / 2 : ℤ) : ℝ) := by exact_mod_cast this
          positivity
    · rw [if_neg c0, if_neg (by omega : ¬ j + 1 ≤ 0)]
      push_cast at h1
      rw [if_neg (by omega : ¬ j ≥ 2 * s + 3)]
      by_cases c2 : j + 1 ≥ 2 * s + 3
      · rw [if_pos c2, div_le_one hs']
        have : (j - 1) / 2 ≤ (s : ℤ) := by omega
        exact_mod_cast this
      · rw [if_neg c2]
        have : (j - 1) / 2 ≤ (j + 1 - 1) / 2 := by omega
        have : (((j - 1) / 2 : ℤ) : ℝ) ≤ (((j + 1 - 1) / 2 : ℤ) : ℝ) := by exact_mod_cast this
        gcongr
  · show Cad.circleKnots s 2 < Cad.circleKnots s 3
    rw [e2, e3]
    positivity
  · rw [en, em, div_lt_one hs']
    push_cast
    linarith

/-- every parameter lies in one of the segments -/
theorem circle_span {s : ℕ} (hs : 1 ≤ s) {u : ℝ} (h0 : 0 ≤ u) (h1 : u ≤ 1) :
    ∃ i : ℤ, 0 ≤ i ∧ i ≤ (s : ℤ) - 1 ∧ (i = ⌊u * s⌋ ∨ (u = 1 ∧ i = s - 1)) ∧
      SpanOf (2 * (s : ℤ)) 2 (Cad.circleKnots s) (2 * i + 2) u := by
  have hs' : (0 : ℝ) < s := by exact_mod_cast hs
  have en : Cad.circleKnots s (2 * s + 1) = 1 := by
    rw [(circleKnots_pair hs (i := s) (by omega) le_rfl).1]
    push_cast
    field_simp
  rcases h1.lt_or_eq with h | h
  · have i0 : 0 ≤ ⌊u * s⌋ := Int.floor_nonneg.mpr (by positivity)
    have i1 : ⌊u * s⌋ < s := by
      rw [Int.floor_lt]
      push_cast
      nlinarith
    refine ⟨⌊u * s⌋, i0, by omega, Or.inl rfl, by push_cast; omega, by omega, Or.inl ⟨?_, ?_⟩⟩
    · rw [(circleKnots_pair hs i0 (by omega)).2, div_le_iff₀ hs']
      exact Int.floor_le _
    · rw [show 2 * ⌊u * s⌋ + 2 + 1 = 2 * (⌊u * s⌋ + 1) + 1 by ring,
        (circleKnots_pair hs (i := ⌊u * s⌋ + 1) (by omega) (by omega)).1, lt_div_iff₀ hs']
      push_cast
      exact Int.lt_floor_add_one _
  · refine ⟨s - 1, by omega, le_rfl, Or.inr ⟨h, rfl⟩, by push_cast; omega, by omega, Or.inr ⟨?_, ?_, ?_⟩⟩
    · rw [(circleKnots_pair hs (i := (s : ℤ) - 1) (by omega) (by omega)).2, h, div_lt_one hs']
      push_cast
      linarith
    · rw [show 2 * ((s : ℤ) - 1) + 2 + 1 = 2 * s + 1 by ring, en, h]
    · rw [en, h]

/-! ## the angle -/

/-- angle on the pieces: `start + α (2 ⌊y⌋ + 1) + 2 arctan ((2 fract y - 1) tan (α/2))`, `y = u*spans` -/
noncomputable def segAngle (α y : ℝ) : ℝ :=
  α * (2 * ⌊y⌋ + 1) + 2 * Real.arctan ((2 * Int.fract y - 1) * Real.tan (α / 2))

theorem arctan_half {α : ℝ} (h : |α| < Real.pi) : Real.arctan (Real.tan (α / 2)) = α / 2 := by
  have := abs_lt.mp h
  exact Real.arctan_tan (by linarith) (by linarith)

theorem segAngle_int {α : ℝ} (h : |α| < Real.pi) (i : ℤ) : segAngle α i = 2 * α * i := by
  unfold segAngle
  rw [Int.floor_intCast, Int.fract_intCast]
  rw [show (2 * (0 : ℝ) - 1) * Real.tan (α / 2) = -Real.tan (α / 2) by ring, Real.arctan_neg, arctan_half h]
  ring

theorem segAngle_cont {α : ℝ} (h : |α| < Real.pi) : Continuous (segAngle α) := by
  have e : segAngle α = fun y => 2 * α * y +
      (fun t => α - 2 * α * t + 2 * Real.arctan ((2 * t - 1) * Real.tan (α / 2))) (Int.fract y) := by
    funext y
    have := Int.floor_add_fract y
    unfold segAngle
    dsimp only
    linear_combination (2 * α) * this
  rw [e]
  refine Continuous.add (by fun_prop) ?_
  refine ContinuousOn.comp_fract'' (f := fun t => α - 2 * α * t + 2 * Real.arctan ((2 * t - 1) * Real.tan (α / 2)))
    (by fun_prop) ?_
  rw [show (2 * (0 : ℝ) - 1) * Real.tan (α / 2) = -Real.tan (α / 2) by ring,
    show (2 * (1 : ℝ) - 1) * Real.tan (α / 2) = Real.tan (α / 2) by ring, Real.arctan_neg, arctan_half h]
  ring

theorem segAngle_strictMono {α : ℝ} (h0 : 0 < α) (h : α < Real.pi) : StrictMono (segAngle α) := by
  have habs : |α| < Real.pi := by rwa [abs_of_pos h0]
  have ht : 0 < Real.tan (α / 2) := Real.tan_pos_of_pos_of_lt_pi_div_two (by linarith) (by linarith)
  have hhalf := arctan_half habs
  have hlo : ∀ y, 2 * α * ⌊y⌋ ≤ segAngle α y := by
    intro y
    have : Real.arctan (-Real.tan (α / 2)) ≤ Real.arctan ((2 * Int.fract y - 1) * Real.tan (α / 2)) := by
      apply Real.arctan_strictMono.monotone
      have := Int.fract_nonneg y
      nlinarith
    rw [Real.arctan_neg, hhalf] at this
    unfold segAngle
    linarith
  have hhi : ∀ y, segAngle α y < 2 * α * (⌊y⌋ + 1) := by
    intro y
    have : Real.arctan ((2 * Int.fract y - 1) * Real.tan (α / 2)) < Real.arctan (Real.tan (α / 2)) := by
      apply Real.arctan_strictMono
      have := Int.fract_lt_one y
      nlinarith
    rw [hhalf] at this
    unfold segAngle
    linarith
  intro y y' hy
  rcases (Int.floor_mono hy.le).lt_or_eq with hf | hf
  · refine lt_of_lt_of_le (hhi y) (le_trans ?_ (hlo y'))
    have : ((⌊y⌋ + 1 : ℤ) : ℝ) ≤ (⌊y'⌋ : ℝ) := by exact_mod_cast hf
    push_cast at this
    nlinarith
  · have hfr : Int.fract y < Int.fract y' := by
      unfold Int.fract
      rw [hf]
      linarith
    unfold segAngle
    rw [hf]
    have : Real.arctan ((2 * Int.fract y - 1) * Real.tan (α / 2)) <
        Real.arctan ((2 * Int.fract y' - 1) * Real.tan (α / 2)) := by
      apply Real.arctan_strictMono
      nlinarith
    linarith

theorem segAngle_neg (α y : ℝ) : segAngle (-α) y = -segAngle α y := by
  unfold segAngle
  rw [show -α / 2 = -(α / 2) by ring, Real.tan_neg, mul_neg, Real.arctan_neg]
  ring

/-- one segment: `t` is the local parameter -/
theorem seg_point {α : ℝ} (h : |α| < Real.pi) (φ t : ℝ) :
    0 < (1 - t) ^ 2 + 2 * t * (1 - t) * Real.cos α + t ^ 2 ∧
    (1 - t) ^ 2 * Real.cos (φ - α) + 2 * t * (1 - t) * Real.cos φ + t ^ 2 * Real.cos (φ + α) =
      ((1 - t) ^ 2 + 2 * t * (1 - t) * Real.cos α + t ^ 2) *
        Real.cos (φ + 2 * Real.arctan ((2 * t - 1) * Real.tan (α / 2))) ∧
    (1 - t) ^ 2 * Real.sin (φ - α) + 2 * t * (1 - t) * Real.sin φ + t ^ 2 * Real.sin (φ + α) =
      ((1 - t) ^ 2 + 2 * t * (1 - t) * Real.cos α + t ^ 2) *
        Real.sin (φ + 2 * Real.arctan ((2 * t - 1) * Real.tan (α / 2))) := by
  have hb := abs_lt.mp h
  have hC : 0 < Real.cos (α / 2) := Real.cos_pos_of_mem_Ioo ⟨by linarith, by linarith⟩
  set C := Real.cos (α / 2) with hCd
  set S := Real.sin (α / 2) with hSd
  have hCS : S ^ 2 + C ^ 2 = 1 := Real.sin_sq_add_cos_sq _
  have hcos : Real.cos α = C ^ 2 - S ^ 2 := by
    rw [show α = 2 * (α / 2) by ring, Real.cos_two_mul, ← hCd]
    linarith
  have hsin : Real.sin α = 2 * S * C := by
    rw [show α = 2 * (α / 2) by ring, Real.sin_two_mul]
  set x := (2 * t - 1) * Real.tan (α / 2) with hx
  have hxC : x * C = (2 * t - 1) * S := by
    rw [hx, Real.tan_eq_sin_div_cos, ← hCd, ← hSd]
    field_simp
  have hW : (1 - t) ^ 2 + 2 * t * (1 - t) * Real.cos α + t ^ 2 = C ^ 2 * (1 + x ^ 2) := by
    rw [hcos]
    linear_combination (-(2 * t ^ 2 - 2 * t + 1)) * hCS - (x * C + (2 * t - 1) * S) * hxC
  have hpos : (0 : ℝ) < 1 + x ^ 2 := by positivity
  have hc2 : Real.cos (2 * Real.arctan x) = (1 - x ^ 2) / (1 + x ^ 2) := by
    rw [Real.cos_two_mul, Real.cos_sq_arctan]
    field_simp
    ring
  have hs2 : Real.sin (2 * Real.arctan x) = 2 * x / (1 + x ^ 2) := by
    have e : Real.sin (Real.arctan x) = x * Real.cos (Real.arctan x) := by
      have := Real.tan_arctan x
      rw [Real.tan_eq_sin_div_cos, div_eq_iff (Real.cos_arctan_pos x).ne'] at this
      exact this
    rw [Real.sin_two_mul, e, show 2 * (x * Real.cos (Real.arctan x)) * Real.cos (Real.arctan x) =
      2 * x * Real.cos (Real.arctan x) ^ 2 by ring, Real.cos_sq_arctan]
    field_simp
  have hWc : C ^ 2 * (1 + x ^ 2) * Real.cos (2 * Real.arctan x) = C ^ 2 - (x * C) ^ 2 := by
    rw [hc2]; field_simp
  have hWs : C ^ 2 * (1 + x ^ 2) * Real.sin (2 * Real.arctan x) = 2 * C * (x * C) := by
    rw [hs2]; field_simp
  rw [hW]
  refine ⟨by positivity, ?_, ?_⟩
  · rw [Real.cos_add φ (2 * _), mul_sub (C ^ 2 * (1 + x ^ 2)), show C ^ 2 * (1 + x ^ 2) * (Real.cos φ * Real.cos (2 * Real.arctan x)) =
      Real.cos φ * (C ^ 2 * (1 + x ^ 2) * Real.cos (2 * Real.arctan x)) by ring,
      show C ^ 2 * (1 + x ^ 2) * (Real.sin φ * Real.sin (2 * Real.arctan x)) =
      Real.sin φ * (C ^ 2 * (1 + x ^ 2) * Real.sin (2 * Real.arctan x)) by ring, hWc, hWs, hxC,
      Real.cos_sub, Real.cos_add, hcos, hsin]
    linear_combination (-(Real.cos φ * (2 * t * (1 - t)))) * hCS
  · rw [Real.sin_add φ (2 * _), mul_add (C ^ 2 * (1 + x ^ 2)), show C ^ 2 * (1 + x ^ 2) * (Real.sin φ * Real.cos (2 * Real.arctan x)) =
      Real.sin φ * (C ^ 2 * (1 + x ^ 2) * Real.cos (2 * Real.arctan x)) by ring,
      show C ^ 2 * (1 + x ^ 2) * (Real.cos φ * Real.sin (2 * Real.arctan x)) =
      Real.cos φ * (C ^ 2 * (1 + x ^ 2) * Real.sin (2 * Real.arctan x)) by ring, hWc, hWs, hxC,
      Real.sin_sub, Real.sin_add, hcos, hsin]
    linear_combination (-(Real.sin φ * (2 * t * (1 - t)))) * hCS

end Igakit
