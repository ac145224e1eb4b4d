import Verif.Model.FloatArc
import Verif.Props.FloatCircle
import Verif.Proofs.ArcKnots

/-!
# Property C107: circular arcs in floating point
-/

set_option linter.unusedSectionVars false

namespace Igakit
open Spec Transform

/-- the bound of the size may grow -/
theorem Carried.wide {δ : ℝ} (h0 : 0 ≤ δ) (hδ : δ < 1) {m : ℕ} {x' x A B : ℝ} (h : Carried δ m x' x A) (hAB : A ≤ B) :
    Carried δ m x' x B :=
  ⟨h.le.trans hAB, h.err.trans (mul_le_mul_of_nonneg_left hAB (by linarith [Fp.growth_pow h0 hδ m]))⟩

/-- a control point of the rounded arc beside the one of the exact arc -/
structure RowNear (rd : ℝ → ℝ) (δ : ℝ) (m : ℕ) (S : ℝ) (v' v : Fin 4 → ℝ) : Prop where
  x : Carried δ m (v' 0) (v 0) (S * v 3)
  y : Carried δ m (v' 1) (v 1) (S * v 3)
  z : Carried δ m (v' 2) (v 2) 0
  w : Carried δ m (v' 3) (v 3) (v 3)
  pos : 0 < v 3
  pos' : 0 < v' 3
  within : Within δ 1 (v' 3) (v 3)
  machine : rd (v' 3) = v' 3

theorem RowNear.mono {rd : ℝ → ℝ} {δ : ℝ} (h0 : 0 ≤ δ) (hδ : δ < 1) {m n : ℕ} {S T : ℝ} {v' v : Fin 4 → ℝ}
    (h : RowNear rd δ m S v' v) (hmn : m ≤ n) (hST : S ≤ T) : RowNear rd δ n T v' v :=
  ⟨(h.x.mono h0 hδ hmn).wide h0 hδ (mul_le_mul_of_nonneg_right hST h.pos.le),
    (h.y.mono h0 hδ hmn).wide h0 hδ (mul_le_mul_of_nonneg_right hST h.pos.le), h.z.mono h0 hδ hmn, h.w.mono h0 hδ hmn, h.pos, h.pos',
    h.within, h.machine⟩

theorem abs_cos_sin_le (a : ℝ) : |Real.cos a| + |Real.sin a| ≤ Real.sqrt 2 := by
  apply Real.le_sqrt_of_sq_le
  nlinarith [sq_abs (Real.cos a), sq_abs (Real.sin a), Real.sin_sq_add_cos_sq a, sq_nonneg (|Real.cos a| - |Real.sin a|)]

/-- the matrix of a rotation about the third axis -/
theorem rotZF_near {rd : ℝ → ℝ} {δ a : ℝ} (h0 : 0 ≤ δ) (hδ : δ < 1) (hr : RelErr δ rd) (hone : rd 1 = 1) {A : Mat4 ℝ}
    (h : Cad.RotZF rd δ a A) : IsAffine A ∧ ∀ i j, Carried δ 6 (A i j) (embed3 (axisRot (Real.cos a) (Real.sin a) 2) i j)
      |embed3 (axisRot (Real.cos a) (Real.sin a) 2) i j| := by
  unfold Cad.RotZF at h
  split_ifs at h with ha
  · subst ha h
    refine ⟨⟨rfl, rfl, rfl, rfl⟩, fun i j => ?_⟩
    have e : embed3 (axisRot (Real.cos 0) (Real.sin 0) 2) = (1 : Mat4 ℝ) := by
      ext i j
      fin_cases i <;> fin_cases j <;> simp [embed3, axisRot]
    rw [e]
    exact (Carried.exact δ _).mono h0 hδ (by norm_num)
  · obtain ⟨R, hR, hA⟩ := h
    have hm : rotMat a (.int 2) = .ok (axisRot (Real.cos a) (Real.sin a) 2) := by
      show (normAxis 3 2 >>= fun b => pure (axisRot (Real.cos a) (Real.sin a) b)) = _
      rw [show (normAxis 3 2) = .ok (2 : Fin 3) from normAxis_self (2 : Fin 3)]
      rfl
    have hc := C104_axis h0 hδ hR hm
    constructor
    · refine C101_affine hr hone hA fun M hM => ?_
      rw [List.mem_singleton.1 hM]
      refine ⟨?_, ?_, ?_, ?_⟩ <;> simp [embed3]
    · intro i j
      have k := C104_chain h0 hδ hr [⟨embed3 R, embed3 (axisRot (Real.cos a) (Real.sin a) 2),
        embed3 ((axisRot (Real.cos a) (Real.sin a) 2).map abs), 1⟩] (fun s hs i j => by
          rw [List.mem_singleton.1 hs]
          exact carried_embed h0 hδ (A := (axisRot (Real.cos a) (Real.sin a) 2).map abs) hc i j) hA i j
      simp only [List.map_cons, List.map_nil, List.prod_cons, List.prod_nil, mul_one, List.sum_cons, List.sum_nil,
        List.length_cons, List.length_nil] at k
      have e : |embed3 (axisRot (Real.cos a) (Real.sin a) 2) i j| = embed3 ((axisRot (Real.cos a) (Real.sin a) 2).map abs) i j := by
        unfold embed3
        split_ifs <;> simp
      rw [e]
      exact k

/-- one rotation costs eleven roundings -/
theorem RowNear.rot {rd : ℝ → ℝ} {δ : ℝ} (h0 : 0 ≤ δ) (hδ : δ < 1) (hr : RelErr δ rd) (hone : rd 1 = 1) {m : ℕ} {S r s α φ : ℝ}
    {k : ℤ} {v' x : Fin 4 → ℝ} (hS : 0 ≤ S) (h : RowNear rd δ m S v' (arcPt r s α k)) {A : Mat4 ℝ} (hA : Cad.RotZF rd δ φ A)
    (hx : Cad.RowF rd A v' x) : RowNear rd δ (m + 11) (Real.sqrt 2 * S) x (arcPt r (s + φ) α k) := by
  obtain ⟨aff, hc⟩ := rotZF_near h0 hδ hr hone hA
  have hw : arcPt r (s + φ) α k 3 = arcPt r s α k 3 := rfl
  have x3 : x 3 = v' 3 := by
    have hz : rd 0 = 0 := rd_zero hr
    obtain ⟨a0, a1, a2, a3⟩ := aff
    have := C99_dot_exact hr (hx 3) (by
      rw [a0, a1, a2, a3]
      simp only [mul_zero, List.countP_cons, List.countP_nil]
      simp
      split_ifs <;> simp) (by
      intro t ht
      simp only [List.mem_cons, List.not_mem_nil, or_false] at ht
      rcases ht with rfl | rfl | rfl | rfl
      · simp [a0, hz]
      · simp [a1, hz]
      · simp [a2, hz]
      · simp [a3, h.machine])
    rw [this]
    simp [dotSum, a0, a1, a2, a3]
  have key : ∀ i, Carried δ (m + 11) (x i) (∑ j, arcPt r s α k j * embed3 (axisRot (Real.cos φ) (Real.sin φ) 2) i j)
      (∑ j, (![S * arcPt r s α k 3, S * arcPt r s α k 3, 0, arcPt r s α k 3] : Fin 4 → ℝ) j *
        |embed3 (axisRot (Real.cos φ) (Real.sin φ) 2) i j|) := by
    intro i
    refine dot_both h0 hδ hr (a' := v') (b' := fun j => A i j) (m := 6) (hx i) (fun j => ?_) (fun j => hc i j)
    fin_cases j
    · exact h.x
    · exact h.y
    · exact h.z
    · exact h.w
  have cs := abs_cos_sin_le φ
  have Sw : 0 ≤ S * arcPt r s α k 3 := mul_nonneg hS h.pos.le
  have le : S * arcPt r s α k 3 * |Real.cos φ| + S * arcPt r s α k 3 * |Real.sin φ| ≤ Real.sqrt 2 * S * arcPt r s α k 3 := by
    nlinarith [mul_le_mul_of_nonneg_left cs Sw]
  have sp := show s + φ + α * k = (s + α * k) + φ by ring
  refine ⟨?_, ?_, ?_, ?_, h.pos, by rw [x3]; exact h.pos', by rw [x3, hw]; exact h.within, by rw [x3]; exact h.machine⟩
  · have := key 0
    simp only [Fin.sum_univ_four] at this
    simp [embed3, axisRot] at this
    refine Carried.wide h0 hδ ?_ le
    have e : arcPt r (s + φ) α k 0 = arcPt r s α k 0 * Real.cos φ + -(arcPt r s α k 1 * Real.sin φ) := by
      show r * Real.cos (s + φ + α * k) = r * Real.cos (s + α * k) * Real.cos φ + -(r * Real.sin (s + α * k) * Real.sin φ)
      rw [sp, Real.cos_add]
      ring
    rw [e]
    exact this
  · have := key 1
    simp only [Fin.sum_univ_four] at this
    simp [embed3, axisRot] at this
    refine Carried.wide h0 hδ ?_ ((add_comm _ _).trans_le le)
    have e : arcPt r (s + φ) α k 1 = arcPt r s α k 0 * Real.sin φ + arcPt r s α k 1 * Real.cos φ := by
      show r * Real.sin (s + φ + α * k) = r * Real.cos (s + α * k) * Real.sin φ + r * Real.sin (s + α * k) * Real.cos φ
      rw [sp, Real.sin_add]
      ring
    rw [e]
    exact this
  · have := key 2
    simp only [Fin.sum_univ_four] at this
    simp [embed3, axisRot] at this
    exact this
  · rw [x3, hw]
    exact h.w.mono h0 hδ (by omega)

/-- the first segment -/
theorem arcSegmentF_near {rd : ℝ → ℝ} {δ r α s c t : ℝ} (h0 : 0 ≤ δ) (hδ : δ < 1) (hr : RelErr δ rd) (hone : rd 1 = 1)
    (hα : |α| ≤ Real.pi / 3) (hl : Libm δ α s c) (ht : |t - Real.tan α| ≤ δ * |Real.tan α|) (hcm : rd c = c) (j : ℤ) (j0 : 0 ≤ j)
    (j2 : j ≤ 2) : RowNear rd δ 7 (2 * |r|) (Cad.arcSegmentF rd r s c t j) (arcPt r (-α) α j) := by
  have hpi := Real.pi_pos
  have c12 : 1 / 2 ≤ Real.cos α := by
    rw [← Real.cos_abs α, ← Real.cos_pi_div_three]
    exact Real.cos_le_cos_of_nonneg_of_le_pi (abs_nonneg _) (by linarith) hα
  have cpos : 0 < Real.cos α := by linarith
  have g := Fp.le_growth h0 hδ
  have g1 := Fp.growth_mul hδ
  obtain ⟨cs, cc⟩ := hl.carried h0 hδ
  have ct : Carried δ 1 t (Real.tan α) |Real.tan α| := ⟨le_rfl, ht.trans (by
    rw [pow_one]
    exact mul_le_mul_of_nonneg_right (by linarith) (abs_nonneg _))⟩
  have lc := abs_le.1 hl.cos
  rw [abs_of_pos cpos] at lc cc
  have c'pos : 0 < c := by nlinarith [lc.1]
  have wc : Within δ 1 c (Real.cos α) := by
    have gp := Fp.one_le_growth h0 hδ
    constructor
    · rw [pow_one]
      have := mul_le_mul_of_nonneg_left (show (1 - δ) * Real.cos α ≤ c by linarith [lc.1]) (by linarith : 0 ≤ growth δ)
      nlinarith
    · rw [pow_one]
      nlinarith [lc.2]
  have w1 : Within δ 1 (1 : ℝ) 1 := ⟨by simpa using Fp.one_le_growth h0 hδ, by simpa using Fp.one_le_growth h0 hδ⟩
  have crx : Carried δ 2 (rd (r * c)) (r * Real.cos α) (|r| * Real.cos α) :=
    (((Carried.exact δ r).mul h0 hδ cc).mono h0 hδ (by norm_num) : Carried δ 1 _ _ _).rd h0 hδ hr
  have cry : Carried δ 2 (rd (r * s)) (r * Real.sin α) (|r| * |Real.sin α|) :=
    (((Carried.exact δ r).mul h0 hδ cs).mono h0 hδ (by norm_num) : Carried δ 1 _ _ _).rd h0 hδ hr
  have cyt : Carried δ 4 (rd (rd (r * s) * t)) (r * Real.sin α * Real.tan α) (|r| * |Real.sin α| * |Real.tan α|) :=
    (cry.mul h0 hδ ct).rd h0 hδ hr
  have cxm := ((crx.mono h0 hδ (show 2 ≤ 4 by norm_num)).add cyt).rd h0 hδ hr
  have cwm : Carried δ 7 _ _ _ := ((cc.mul h0 hδ cxm).mono h0 hδ (show 1 + (4 + 1) ≤ 6 by norm_num)).rd h0 hδ hr
  have one : Carried δ 7 (1 : ℝ) 1 1 := by
    have := (Carried.exact δ (1 : ℝ)).mono h0 hδ (show 0 ≤ 7 by norm_num)
    rwa [abs_one] at this
  have zero : ∀ B : ℝ, 0 ≤ B → Carried δ 7 (0 : ℝ) 0 B := fun B hB => by
    have := (Carried.exact δ (0 : ℝ)).mono h0 hδ (show 0 ≤ 7 by norm_num)
    rw [abs_zero] at this
    exact this.wide h0 hδ hB
  have r0 := abs_nonneg r
  have sx : |r| * Real.cos α ≤ 2 * |r| * 1 := by nlinarith [Real.cos_le_one α]
  have sy : |r| * |Real.sin α| ≤ 2 * |r| * 1 := by nlinarith [Real.abs_sin_le_one α]
  have : j = 0 ∨ j = 1 ∨ j = 2 := by omega
  rcases this with rfl | rfl | rfl
  · have e : arcPt r (-α) α 0 = ![r * Real.cos α, -(r * Real.sin α), 0, 1] := by
      unfold arcPt
      simp
    rw [e]
    unfold Cad.arcSegmentF
    rw [if_pos rfl]
    exact ⟨(crx.mono h0 hδ (by norm_num)).wide h0 hδ sx, (cry.neg.mono h0 hδ (by norm_num)).wide h0 hδ sy, zero 0 le_rfl, one,
      one_pos, one_pos, w1, hone⟩
  · have e : arcPt r (-α) α 1 = ![r, 0, 0, Real.cos α] := by
      unfold arcPt
      simp
    rw [e]
    unfold Cad.arcSegmentF
    rw [if_neg (by norm_num), if_pos rfl]
    have e1 : Real.cos α * (r * Real.cos α + r * Real.sin α * Real.tan α) = r := by
      rw [Real.tan_eq_sin_div_cos]
      field_simp
      rw [Real.cos_sq_add_sin_sq, mul_one]
    have e2 : Real.cos α * (|r| * Real.cos α + |r| * |Real.sin α| * |Real.tan α|) = |r| := by
      rw [Real.tan_eq_sin_div_cos, abs_div, abs_of_pos cpos]
      field_simp
      rw [sq_abs, Real.cos_sq_add_sin_sq, mul_one]
    rw [e1, e2] at cwm
    refine ⟨cwm.wide h0 hδ ?_, zero _ (by positivity), zero 0 le_rfl, cc.mono h0 hδ (by norm_num), cpos, c'pos, wc, hcm⟩
    show |r| ≤ 2 * |r| * Real.cos α
    nlinarith
  · have e : arcPt r (-α) α 2 = ![r * Real.cos α, r * Real.sin α, 0, 1] := by
      unfold arcPt
      rw [show -α + α * ((2 : ℤ) : ℝ) = α by push_cast; ring]
      simp
    rw [e]
    unfold Cad.arcSegmentF
    rw [if_neg (by norm_num), if_neg (by norm_num)]
    exact ⟨(crx.mono h0 hδ (by norm_num)).wide h0 hδ sx, (cry.mono h0 hδ (by norm_num)).wide h0 hδ sy, zero 0 le_rfl, one,
      one_pos, one_pos, w1, hone⟩

/-- the net of the arc -/
theorem arcNetF_near {rd : ℝ → ℝ} {δ r start α : ℝ} {spans : ℕ} (h0 : 0 ≤ δ) (hδ : δ < 1) (hr : RelErr δ rd) (hone : rd 1 = 1)
    (h2 : rd (2 * α) = 2 * α) (hα : |α| ≤ Real.pi / 3) {C : ℤ → Fin 4 → ℝ} (h : Cad.ArcNetF rd δ r start α spans C) (hs : spans ≤ 4)
    (j : ℤ) (j0 : 0 ≤ j) (j1 : j ≤ 2 * (spans : ℤ)) (j2 : 1 ≤ spans) :
    RowNear rd δ 51 (8 * |r|) (C j) (arcPt r (rd (α + start) - α) α j) := by
  obtain ⟨s, c, t, A, B, hl, ht, hcm, hA, hfirst, hB, hrest⟩ := h
  rw [h2] at hB
  have q0 := Real.sqrt_nonneg (2 : ℝ)
  have q1 : 1 ≤ Real.sqrt 2 := by
    rw [← Real.sqrt_one]
    exact Real.sqrt_le_sqrt (by norm_num)
  have r0 := abs_nonneg r
  have first : ∀ j, 0 ≤ j → j ≤ 2 → RowNear rd δ 18 (Real.sqrt 2 ^ 1 * (2 * |r|)) (C j) (arcPt r (rd (α + start) - α) α j) := by
    intro j j0 j2
    have := (arcSegmentF_near (r := r) h0 hδ hr hone hα hl ht hcm j j0 j2).rot h0 hδ hr hone (by positivity) hA (hfirst j j0 j2)
    rw [neg_add_eq_sub] at this
    rw [pow_one]
    exact this
  have shift : ∀ k, arcPt r (rd (α + start) - α + 2 * α) α k = arcPt r (rd (α + start) - α) α (k + 2) := by
    intro k
    unfold arcPt
    rw [show rd (α + start) - α + 2 * α + α * (k : ℝ) = rd (α + start) - α + α * ((k + 2 : ℤ) : ℝ) by push_cast; ring,
      show (k + 2) % 2 = k % 2 by omega]
  have all : ∀ i : ℕ, ∀ j, 0 ≤ j → j ≤ 2 + 2 * (i : ℤ) → j ≤ 2 * (spans : ℤ) →
      RowNear rd δ (18 + 11 * i) (Real.sqrt 2 ^ (i + 1) * (2 * |r|)) (C j) (arcPt r (rd (α + start) - α) α j) := by
    intro i
    induction i with
    | zero => exact fun j a b _ => first j a (by push_cast at b; omega)
    | succ i ih =>
      intro j a b b'
      rcases le_or_gt j 2 with hj | hj
      · refine (first j a hj).mono h0 hδ (by omega) (mul_le_mul_of_nonneg_right (pow_le_pow_right₀ q1 (by omega)) (by positivity))
      · have := (ih (j - 2) (by omega) (by push_cast at b; omega) (by omega)).rot h0 hδ hr hone (by positivity) hB
          (hrest j (by omega) b')
        rw [shift, show j - 2 + 2 = j by ring, ← mul_assoc, ← pow_succ'] at this
        exact this
  have := all 3 j j0 (by push_cast; omega) j1
  have e : Real.sqrt 2 ^ (3 + 1) * (2 * |r|) = 8 * |r| := by
    rw [show Real.sqrt 2 ^ (3 + 1) = (Real.sqrt 2 ^ 2) ^ 2 by ring, Real.sq_sqrt (by norm_num)]
    ring
  rw [e] at this
  exact this

/-- no segment exceeds a third of half a turn -/
theorem arcAlphaF_le {rd : ℝ → ℝ} {δ sweep : ℝ} (h0 : 0 ≤ δ) (hδ : δ ≤ 1 / 20) (hr : RelErr δ rd) (hsp : Cad.arcSpansF rd sweep ≠ 0)
    (h : |sweep| ≤ (1 + δ) ^ 2 * (2 * Real.pi)) : |rd (sweep / (2 * (Cad.arcSpansF rd sweep : ℝ)))| ≤ Real.pi / 3 := by
  have hpi := Real.pi_pos
  have up : ∀ x, |rd x| ≤ (1 + δ) * |x| := fun x => by
    have := abs_add_le (rd x - x) x
    rw [sub_add_cancel] at this
    linarith [hr x]
  have up' : ∀ {x y}, |x| ≤ y → |rd x| ≤ (1 + δ) * y := fun {x y} hxy =>
    (up x).trans (mul_le_mul_of_nonneg_left hxy (by linarith))
  have p1 : |rd Real.pi| ≤ (1 + δ) * Real.pi := up' (abs_of_pos hpi).le
  have q1 : |rd (rd Real.pi / 2)| ≤ (1 + δ) * ((1 + δ) * Real.pi / 2) := up' (by
    rw [abs_div, abs_two]
    linarith)
  have q3 : |rd (rd (3 * rd Real.pi) / 2)| ≤ (1 + δ) * ((1 + δ) * (3 * ((1 + δ) * Real.pi)) / 2) := up' (by
    rw [abs_div, abs_two]
    have : |rd (3 * rd Real.pi)| ≤ (1 + δ) * (3 * ((1 + δ) * Real.pi)) := up' (by
      rw [abs_mul, abs_of_pos (by norm_num : (0 : ℝ) < 3)]
      linarith)
    linarith)
  have d1 : (1 + δ) ≤ 21 / 20 := by linarith
  have d0 : 0 ≤ 1 + δ := by linarith
  have e2 : (1 + δ) ^ 2 ≤ (21 / 20) ^ 2 := pow_le_pow_left₀ d0 d1 2
  have e3 : (1 + δ) ^ 3 ≤ (21 / 20) ^ 3 := pow_le_pow_left₀ d0 d1 3
  have e4 : (1 + δ) ^ 4 ≤ (21 / 20) ^ 4 := pow_le_pow_left₀ d0 d1 4
  have fin : ∀ {n : ℕ} {c : ℝ}, 0 < n → |sweep| ≤ c * Real.pi → (1 + δ) * c ≤ 2 / 3 * n → |rd (sweep / (2 * (n : ℝ)))| ≤ Real.pi / 3 := by
    intro n c hn hc hd
    have hn' : (0 : ℝ) < n := by exact_mod_cast hn
    refine (up' (y := c * Real.pi / (2 * n)) ?_).trans ?_
    · rw [abs_div, abs_of_pos (by positivity : (0 : ℝ) < 2 * n)]
      exact div_le_div_of_nonneg_right hc (by positivity)
    · rw [← mul_div_assoc, div_le_iff₀ (by positivity)]
      nlinarith
  unfold Cad.arcSpansF at hsp ⊢
  dsimp only at hsp ⊢
  split_ifs at hsp ⊢ with c0 c1 c2 c3
  · exact absurd rfl hsp
  · refine fin one_pos (c := (1 + δ) ^ 2 / 2) ((c1.trans (le_abs_self _)).trans (q1.trans (le_of_eq (by ring)))) ?_
    push_cast
    nlinarith
  · refine fin two_pos (c := 1 + δ) (c2.trans ((le_abs_self _).trans p1)) ?_
    push_cast
    nlinarith
  · refine fin three_pos (c := 3 * (1 + δ) ^ 3 / 2) ((c3.trans (le_abs_self _)).trans (q3.trans (le_of_eq (by ring)))) ?_
    push_cast
    nlinarith
  · refine fin four_pos (c := (1 + δ) ^ 2 * 2) (h.trans (le_of_eq (by ring))) ?_
    push_cast
    nlinarith

/-- the rounded breakpoints are in order -/
theorem linspaceF_breaks {rd : ℝ → ℝ} {δ : ℝ} (h0 : 0 ≤ δ) (hδ : δ ≤ 1 / 20) (hr : RelErr δ rd) {s : ℕ} (s1 : 1 ≤ s) (s4 : s ≤ 4) :
    Breaks (Cad.linspaceF rd s) s := by
  have sR : (0 : ℝ) < s := by exact_mod_cast s1
  have two : ∀ i : ℤ, 0 ≤ i → (1 - δ) ^ 2 * (i / s) ≤ rd (i * rd (1 / s)) ∧ rd (i * rd (1 / s)) ≤ (1 + δ) ^ 2 * (i / s) := by
    intro i i0
    have iR : (0 : ℝ) ≤ i := by exact_mod_cast i0
    have st := hr (1 / s)
    have sp : (0 : ℝ) < 1 / s := by positivity
    rw [abs_of_pos sp] at st
    obtain ⟨a, b⟩ := abs_le.1 st
    have nn : 0 ≤ rd (1 / s) := by nlinarith
    have k := hr (i * rd (1 / s))
    rw [abs_of_nonneg (mul_nonneg iR nn)] at k
    obtain ⟨c, d⟩ := abs_le.1 k
    have lo : (1 - δ) * (i / s) ≤ i * rd (1 / s) := by
      have := mul_le_mul_of_nonneg_left (show (1 - δ) * (1 / s) ≤ rd (1 / s) by linarith) iR
      calc _ = i * ((1 - δ) * (1 / s)) := by ring
        _ ≤ _ := this
    have hi : i * rd (1 / s) ≤ (1 + δ) * (i / s) := by
      have := mul_le_mul_of_nonneg_left (show rd (1 / s) ≤ (1 + δ) * (1 / s) by linarith) iR
      calc _ ≤ i * ((1 + δ) * (1 / s)) := this
        _ = _ := by ring
    have lo' := mul_le_mul_of_nonneg_left lo (show 0 ≤ 1 - δ by linarith)
    have hi' := mul_le_mul_of_nonneg_left hi (show 0 ≤ 1 + δ by linarith)
    constructor
    · calc _ = (1 - δ) * ((1 - δ) * (i / s)) := by ring
        _ ≤ _ := by linarith
    · calc _ ≤ (1 + δ) * ((1 + δ) * (i / s)) := by linarith
        _ = _ := by ring
  have d2 : (1 + δ) ^ 2 ≤ (21 / 20) ^ 2 := pow_le_pow_left₀ (by linarith) (by linarith) 2
  have m2 : (19 / 20 : ℝ) ^ 2 ≤ (1 - δ) ^ 2 := pow_le_pow_left₀ (by norm_num) (by linarith) 2
  refine ⟨s1, ?_, if_pos rfl, fun i i0 i1 => ?_⟩
  · unfold Cad.linspaceF
    rw [if_neg (by omega)]
    simp [rd_zero hr]
  · have iR : (0 : ℝ) ≤ i := by exact_mod_cast i0
    have i4 : (i : ℝ) + 1 ≤ 4 := by exact_mod_cast (show i + 1 ≤ 4 by omega)
    have s4' : (s : ℝ) ≤ 4 := by exact_mod_cast s4
    unfold Cad.linspaceF
    rw [if_neg (by omega)]
    refine (two i i0).2.trans_lt ?_
    split_ifs with h
    · have e : (i : ℝ) + 1 = s := by exact_mod_cast h
      rw [← mul_div_assoc, div_lt_one sR, ← e]
      nlinarith
    · refine lt_of_lt_of_le ?_ (two (i + 1) (by omega)).1
      rw [← mul_div_assoc, ← mul_div_assoc]
      refine div_lt_div_of_pos_right ?_ sR
      push_cast
      nlinarith

/-- the object built from a net -/
theorem circleObjF_form (rd : ℝ → ℝ) (s : ℕ) (hs : 1 ≤ s) (C : ℤ → Fin 4 → ℝ) : ∃ N, Cad.circleObjF rd s C = .ok N ∧
    N.shape = (fun _ => 2 * (s : ℤ) + 1) ∧ N.len = (fun _ => 2 * ((s : ℤ) + 1) + 2) ∧
    N.U = (fun _ => breakKnots (Cad.linspaceF rd s) s) ∧ ∀ idx (c : Fin 4), N.P idx c = C (idx 0) c := by
  refine ⟨_, ctor_homogeneous (sh := fun _ => 2 * (s : ℤ) + 1) (len := fun _ => 2 * ((s : ℤ) + 1) + 2)
    (by norm_num) (by norm_num) (fun _ => rfl) (fun _ => by omega) rfl (fun _ => by omega), rfl, rfl, rfl, fun idx c => ?_⟩
  have hc : (((c : ℕ) : ℤ)).toNat < 4 := by have := c.2; omega
  simp only [List.ofFn_succ, List.ofFn_zero]
  simp

/-- the arc before evaluation -/
theorem arcF_ok {rd : ℝ → ℝ} {δ : ℝ} (h0 : 0 ≤ δ) (hδ : δ ≤ 1 / 20) (hr : RelErr δ rd) (hone : rd 1 = 1)
    (h2 : ∀ x, rd (2 * rd x) = 2 * rd x) (r : ℝ) {start stop : ℝ} (hturn : |stop - start| ≤ (1 + δ) * (2 * Real.pi)) {L : Nrb ℝ 1}
    (hL : Cad.ArcF rd δ r start stop L) :
    ∃ θ : ℝ → ℝ, Continuous θ ∧ (start < stop → StrictMonoOn θ (Set.Icc 0 1)) ∧ (stop < start → StrictAntiOn θ (Set.Icc 0 1)) ∧
      |θ 0 - start| ≤ δ * (2 + |start|) ∧ |θ 1 - stop| ≤ δ * (2 + |start|) + 3 * δ * |stop - start| ∧
      L.Valid ∧ L.degree 0 = 2 ∧ L.lo 0 = 0 ∧ L.hi 0 = 1 ∧ (∀ idx, L.InNet idx → 0 < L.P idx 3 ∧ rd (L.P idx 3) = L.P idx 3) ∧
      (∀ idx, L.InNet idx → ∀ c : Fin 3, |L.P idx c / L.P idx 3| ≤ growth δ ^ 52 * (![8 * |r|, 8 * |r|, 0] : Fin 3 → ℝ) c) ∧
      ∀ u, 0 ≤ u → u ≤ 1 → ∀ c : Fin 3,
        Carried δ 52 (L.point ![u] c) (circlePoint 0 r (θ u) c) ((![8 * |r|, 8 * |r|, 0] : Fin 3 → ℝ) c) := by
  have hδ1 : δ < 1 := by linarith
  have hpi := Real.pi_pos
  obtain ⟨hsp, D, hD, hDL⟩ := hL
  set sweep := rd (stop - start) with hsweep
  set s := Cad.arcSpansF rd sweep with hs
  have s4 : s ≤ 4 := by
    rw [hs]
    unfold Cad.arcSpansF
    dsimp only
    split_ifs <;> norm_num
  have s1 : 1 ≤ s := Nat.one_le_iff_ne_zero.2 hsp
  have sR : (0 : ℝ) < s := by exact_mod_cast s1
  have sw : |sweep - (stop - start)| ≤ δ * |stop - start| := hr _
  have swle : |sweep| ≤ (1 + δ) * |stop - start| := by
    have := abs_add_le (sweep - (stop - start)) (stop - start)
    rw [sub_add_cancel] at this
    linarith
  have hα := arcAlphaF_le h0 hδ hr hsp (swle.trans (by nlinarith))
  rw [← hs] at hα
  set α := rd (sweep / (2 * s)) with hαd
  have near := arcNetF_near h0 hδ1 hr hone (h2 _) hα hD s4
  set β := rd (α + start) with hβ
  have hb := linspaceF_breaks h0 hδ hr s1 s4
  obtain ⟨N, hN, n1, n2, n3, n4⟩ := circleObjF_form rd s s1 (arcPt r (β - α) α)
  obtain ⟨Nv, Nd, Nlo, Nhi, θ, t1, t2, t3, t4, t5, t6⟩ := break_core hb (by linarith) n1 n2 n3 (fun idx c _ _ => n4 idx c)
  obtain ⟨L', hL', l1, l2, l3, l4⟩ := circleObjF_form rd s s1 D
  rw [hDL] at hL'
  obtain rfl := Except.ok.inj hL'
  have hs' : L.shape = N.shape := l1.trans n1.symm
  have hl : L.len = N.len := l2.trans n2.symm
  have hU : L.U = N.U := l3.trans n3.symm
  have e1 : L.degree = N.degree := by funext a; unfold Nrb.degree; rw [hs', hl]
  have e2 : L.lo = N.lo := by funext a; unfold Nrb.lo; rw [e1, hU]
  have e3 : L.hi = N.hi := by funext a; unfold Nrb.hi; rw [e1, hU, hl]
  have hv : L.Valid := by
    intro a
    have := Nv a
    unfold Nrb.n at this ⊢
    rw [e1, hU, hs']
    exact this
  have inN : ∀ idx : Fin 1 → ℤ, N.InNet idx → 0 ≤ idx 0 ∧ idx 0 ≤ 2 * (s : ℤ) := by
    intro idx hi
    have := hi 0
    rw [n1] at this
    dsimp only at this
    omega
  have inL : ∀ idx : Fin 1 → ℤ, L.InNet idx → 0 ≤ idx 0 ∧ idx 0 ≤ 2 * (s : ℤ) := by
    intro idx hi
    have := hi 0
    rw [l1] at this
    dsimp only at this
    omega
  have w3 : ∀ idx, N.P idx 3 = arcPt r (β - α) α (idx 0) 3 := fun idx => n4 idx 3
  have v3 : ∀ idx, L.P idx 3 = D (idx 0) 3 := fun idx => l4 idx 3
  have hB : ∀ (c : Fin 3) j, 0 ≤ j → j ≤ 2 * (s : ℤ) → Carried δ 51 (D j c.castSucc) (arcPt r (β - α) α j c.castSucc)
      ((![8 * |r|, 8 * |r|, 0] : Fin 3 → ℝ) c * arcPt r (β - α) α j 3) := by
    intro c j j0 j1
    have k := near j j0 j1 s1
    fin_cases c
    · exact k.x
    · exact k.y
    · show Carried δ 51 _ _ (0 * _)
      rw [zero_mul]
      exact k.z
  have hsz : ∀ idx, L.InNet idx → ∀ c : Fin 3, |L.P idx c / L.P idx 3| ≤ growth δ ^ 52 * (![8 * |r|, 8 * |r|, 0] : Fin 3 → ℝ) c := by
    intro idx hi c
    obtain ⟨i0, i1⟩ := inL idx hi
    have k := near (idx 0) i0 i1 s1
    rw [v3, show L.P idx c = D (idx 0) c.castSucc from l4 idx c.castSucc]
    have := ((hB c (idx 0) i0 i1).mul h0 hδ1 (carried_div h0 hδ1 k.pos' k.pos k.within 1)).size
    have kp := k.pos
    rw [abs_of_pos (by positivity : 0 < 1 / arcPt r (β - α) α (idx 0) 3), mul_one_div, mul_one_div,
      mul_div_cancel_right₀ _ k.pos.ne'] at this
    exact this
  have sg : ∀ x, 0 < x → 0 < rd x := fun x hx => by
    have := (abs_le.1 (hr x)).1
    rw [abs_of_pos hx] at this
    nlinarith
  have sg' : ∀ x, x < 0 → rd x < 0 := fun x hx => by
    have := (abs_le.1 (hr x)).2
    rw [abs_of_neg hx] at this
    nlinarith
  have ab : |β - (α + start)| ≤ δ * (2 + |start|) := by
    refine (hr _).trans (mul_le_mul_of_nonneg_left ((abs_add_le _ _).trans ?_) h0)
    linarith [Real.pi_le_four]
  have bs : |2 * α * s - sweep| ≤ δ * |sweep| := by
    have k := hr (sweep / (2 * s))
    rw [← hαd] at k
    rw [show 2 * α * s - sweep = (α - sweep / (2 * s)) * (2 * s) by field_simp, abs_mul, abs_of_pos (by positivity : (0 : ℝ) < 2 * s)]
    rw [abs_div, abs_of_pos (by positivity : (0 : ℝ) < 2 * s)] at k
    calc _ ≤ δ * (|sweep| / (2 * s)) * (2 * s) := mul_le_mul_of_nonneg_right k (by positivity)
      _ = δ * |sweep| := by field_simp
  refine ⟨θ, t1, fun hlt => t4 ?_, fun hlt => t5 ?_, ?_, ?_, hv, by rw [e1, Nd], by rw [e2, Nlo], by rw [e3, Nhi], fun idx hi => ?_, hsz,
    fun u u0 u1 c => ?_⟩
  · exact sg _ (div_pos (sg _ (by linarith)) (by positivity))
  · exact sg' _ (div_neg_of_neg_of_pos (sg' _ (by linarith)) (by positivity))
  · rw [t2, show β - α - start = β - (α + start) by ring]
    exact ab
  · rw [t3, show β - α + 2 * α * s - stop = (β - (α + start)) + ((2 * α * s - sweep) + (sweep - (stop - start))) by ring]
    refine (abs_add_le _ _).trans (add_le_add ab ((abs_add_le _ _).trans ?_))
    have k1 := mul_le_mul_of_nonneg_left swle h0
    have k2 := mul_nonneg h0 (abs_nonneg (stop - start))
    nlinarith
  · obtain ⟨i0, i1⟩ := inL idx hi
    rw [v3]
    exact ⟨(near _ i0 i1 s1).pos', (near _ i0 i1 s1).machine⟩
  · have hin : N.InDom ![u] := by
      intro a
      rw [Subsingleton.elim a 0, Nlo, Nhi]
      exact ⟨u0, u1⟩
    have k := proj_near h0 hδ1 hs' hl hU Nv (fun idx hi => by
        obtain ⟨i0, i1⟩ := inN idx hi
        rw [w3]
        exact (near _ i0 i1 s1).pos) (m := 51) (n := 1) (c := c) (B := (![8 * |r|, 8 * |r|, 0] : Fin 3 → ℝ) c)
      (fun idx hi => by
        obtain ⟨i0, i1⟩ := inN idx hi
        rw [show L.P idx c = D (idx 0) c.castSucc from l4 idx c.castSucc,
          show N.P idx c = arcPt r (β - α) α (idx 0) c.castSucc from n4 idx c.castSucc, w3]
        exact hB c _ i0 i1)
      (fun idx hi => by
        obtain ⟨i0, i1⟩ := inN idx hi
        rw [v3, w3]
        exact ⟨(near _ i0 i1 s1).pos', (near _ i0 i1 s1).within⟩) hin
    rw [← t6 u u0 u1]
    exact k

/-- C107: `circle(radius, angle=(start, stop))`, built and evaluated in floating point: the points are on the circle up to 85 roundings
of eight times the radius; the third coordinate is zero; the angle runs monotonically between angles near those given -/
theorem C107_arc {rd : ℝ → ℝ} {δ : ℝ} (h0 : 0 ≤ δ) (hδ : δ ≤ 1 / 20) (hr : RelErr δ rd) (hone : rd 1 = 1)
    (h2 : ∀ x, rd (2 * rd x) = 2 * rd x) (r : ℝ) {start stop : ℝ} (hturn : |stop - start| ≤ (1 + δ) * (2 * Real.pi))
    (jk : ℤ → Fp ℝ) (je : ℤ → ℕ → Fp ℝ) {n : ℤ} (hn : 0 ≤ n) {u : ℤ → ℝ} (hu : ∀ i, 0 ≤ i → i ≤ n → 0 ≤ u i ∧ u i ≤ 1) {L : Nrb ℝ 1}
    (hL : Cad.ArcF rd δ r start stop L) :
    ∃ θ : ℝ → ℝ, Continuous θ ∧ (start < stop → StrictMonoOn θ (Set.Icc 0 1)) ∧ (stop < start → StrictAntiOn θ (Set.Icc 0 1)) ∧
      |θ 0 - start| ≤ δ * (2 + |start|) ∧ |θ 1 - stop| ≤ δ * (2 + |start|) + 3 * δ * |stop - start| ∧
    ∃ C, L.callF rd jk je (fun _ => n) (fun _ => u) = .ok C ∧
      ∀ i, 0 ≤ i → i ≤ n → ∃ x y, (C ![i]).1 0 = some x ∧ (C ![i]).1 1 = some y ∧ (C ![i]).1 2 = some 0 ∧
        |x - r * Real.cos (θ (u i))| ≤ (growth δ ^ 85 - 1) * (8 * |r|) ∧
        |y - r * Real.sin (θ (u i))| ≤ (growth δ ^ 85 - 1) * (8 * |r|) := by
  have hδ1 : δ < 1 := by linarith
  obtain ⟨θ, t1, t2, t3, t4, t5, hv, hdeg, hlo, hhi, hp, hsz, hpt⟩ := arcF_ok h0 hδ hr hone h2 r hturn hL
  refine ⟨θ, t1, t2, t3, t4, t5, ?_⟩
  obtain ⟨C, c1, c2⟩ := C72_call h0 hδ1 hr jk je (N := L) (by norm_num) hv (r := fun _ => n) (X := fun _ => u) (fun _ => hn)
    (fun a i i0 i1 => by rw [Subsingleton.elim a 0, hlo, hhi]; exact hu i i0 i1) (fun idx hi => (hp idx hi).1) (m := 16) (by
      rw [Fin.sum_univ_one, Fin.prod_univ_one, hdeg]
      rfl)
  refine ⟨C, c1, fun i i0 i1 => ?_⟩
  have e : (fun a : Fin 1 => u ((![i] : Fin 1 → ℤ) a)) = ![u i] := by
    funext a
    rw [Subsingleton.elim a 0]
    rfl
  obtain ⟨b0, b1⟩ := hu i i0 i1
  have main : ∀ c : Fin 3, ∃ y, (C ![i]).1 c = some y ∧
      |y - circlePoint 0 r (θ (u i)) c| ≤ (growth δ ^ 85 - 1) * (![8 * |r|, 8 * |r|, 0] : Fin 3 → ℝ) c := by
    intro c
    obtain ⟨y, y1, y2⟩ := (c2 ![i] (fun a => by rw [Subsingleton.elim a 0]; exact ⟨i0, i1⟩) c _).1 (fun idx hi => hsz idx hi c)
    refine ⟨y, y1, ?_⟩
    rw [e] at y2
    have k := (hpt (u i) b0 b1 c).err
    have f := abs_sub_le y (L.proj ![u i] c) (circlePoint 0 r (θ (u i)) c)
    change |L.proj ![u i] c - _| ≤ _ at k
    generalize (![8 * |r|, 8 * |r|, 0] : Fin 3 → ℝ) c = B at *
    rw [show (growth δ ^ 85 - 1) * B = (growth δ ^ (2 * 16 + 1) - 1) * (growth δ ^ 52 * B) + (growth δ ^ 52 - 1) * B by ring]
    linarith
  obtain ⟨x, x1, x2⟩ := main 0
  obtain ⟨y, y1, y2⟩ := main 1
  obtain ⟨z, z1, z2⟩ := main 2
  have hz : z = 0 := by
    change |z - circlePoint 0 r (θ (u i)) 2| ≤ (growth δ ^ 85 - 1) * 0 at z2
    rw [mul_zero] at z2
    rw [sub_eq_zero.1 (abs_eq_zero.1 (le_antisymm z2 (abs_nonneg _)))]
    simp [circlePoint]
  refine ⟨x, y, x1, y1, by rw [hz] at z1; exact z1, ?_, ?_⟩
  · simpa [circlePoint] using x2
  · simpa [circlePoint] using y2

/-- C107: the arc about a centre: up to 95 roundings of eight times the radius and the centre -/
theorem C107_center {rd : ℝ → ℝ} {δ : ℝ} (h0 : 0 ≤ δ) (hδ : δ ≤ 1 / 20) (hr : RelErr δ rd) (hone : rd 1 = 1)
    (h2 : ∀ x, rd (2 * rd x) = 2 * rd x) (r : ℝ) (t : Fin 3 → ℝ) {start stop : ℝ} (hturn : |stop - start| ≤ (1 + δ) * (2 * Real.pi))
    (jk : ℤ → Fp ℝ) (je : ℤ → ℕ → Fp ℝ) {n : ℤ} (hn : 0 ≤ n) {u : ℤ → ℝ} (hu : ∀ i, 0 ≤ i → i ≤ n → 0 ≤ u i ∧ u i ≤ 1) {L : Nrb ℝ 1}
    (hL : Cad.ArcAtF rd δ r t start stop L) :
    ∃ θ : ℝ → ℝ, Continuous θ ∧ (start < stop → StrictMonoOn θ (Set.Icc 0 1)) ∧ (stop < start → StrictAntiOn θ (Set.Icc 0 1)) ∧
      |θ 0 - start| ≤ δ * (2 + |start|) ∧ |θ 1 - stop| ≤ δ * (2 + |start|) + 3 * δ * |stop - start| ∧
    ∃ C, L.callF rd jk je (fun _ => n) (fun _ => u) = .ok C ∧
      ∀ i, 0 ≤ i → i ≤ n → ∀ c : Fin 3, ∃ y, (C ![i]).1 c = some y ∧
        |y - circlePoint t r (θ (u i)) c| ≤ (growth δ ^ 95 - 1) * ((![8 * |r|, 8 * |r|, 0] : Fin 3 → ℝ) c + |t c|) := by
  have hδ1 : δ < 1 := by linarith
  obtain ⟨L0, A, hL0, hA, hT⟩ := hL
  obtain ⟨θ, t1, t2, t3, t4, t5, hv, hdeg, hlo, hhi, hp, hsz, hpt⟩ := arcF_ok h0 hδ hr hone h2 r hturn hL0
  refine ⟨θ, t1, t2, t3, t4, t5, ?_⟩
  obtain ⟨C, c1, c2⟩ := C105_call h0 hδ1 hr hone jk je [⟨transMat t, transMat t, Matrix.of fun i j => |transMat t i j|, 0⟩]
    (fun s hs i j => by
      rw [List.mem_singleton.1 hs]
      exact Carried.exact δ _)
    (fun s hs => by
      rw [List.mem_singleton.1 hs]
      exact transMat_affine t) hA (by norm_num) hv hT (fun idx hi => (hp idx hi).1) (fun idx hi => (hp idx hi).2) hsz
    (r := fun _ => n) (X := fun _ => u) (fun _ => hn)
    (fun a i i0 i1 => by rw [Subsingleton.elim a 0, hlo, hhi]; exact hu i i0 i1) (m := 16) (by
      rw [Fin.sum_univ_one, Fin.prod_univ_one, hdeg]
      rfl)
  refine ⟨C, c1, fun i i0 i1 c => ?_⟩
  obtain ⟨y, y1, y2⟩ := c2 ![i] (fun a => by rw [Subsingleton.elim a 0]; exact ⟨i0, i1⟩) c
  refine ⟨y, y1, ?_⟩
  have e : (fun a : Fin 1 => u ((![i] : Fin 1 → ℤ) a)) = ![u i] := by
    funext a
    rw [Subsingleton.elim a 0]
    rfl
  simp only [List.map_cons, List.map_nil, List.prod_cons, List.prod_nil, mul_one, List.sum_cons, List.sum_nil,
    List.length_cons, List.length_nil] at y2
  obtain ⟨b0, b1⟩ := hu i i0 i1
  have k := (hpt (u i) b0 b1 c).err
  rw [e] at y2
  have e1 : affPart (transMat t) (L0.point ![u i]) c = L0.point ![u i] c + t c := by
    unfold affPart
    fin_cases c <;> simp [transMat, Matrix.one_apply]
  have e2 : reach (Matrix.of fun i j => |transMat t i j|) (fun c => growth δ ^ 52 * (![8 * |r|, 8 * |r|, 0] : Fin 3 → ℝ) c) c.castSucc =
      growth δ ^ 52 * (![8 * |r|, 8 * |r|, 0] : Fin 3 → ℝ) c + |t c| := by
    unfold reach
    fin_cases c <;> simp [transMat, Matrix.one_apply]
  have e3 : circlePoint t r (θ (u i)) c = circlePoint 0 r (θ (u i)) c + t c := by
    unfold circlePoint
    fin_cases c <;> simp [add_comm]
  rw [e1, e2] at y2
  rw [e3]
  have f := abs_sub_le y (L0.point ![u i] c + t c) (circlePoint 0 r (θ (u i)) c + t c)
  rw [add_sub_add_right_eq_sub] at f
  have g := mul_le_mul_of_nonneg_right (Fp.growth_sub h0 hδ1 (show 43 ≤ 95 by norm_num)) (abs_nonneg (t c))
  generalize (![8 * |r|, 8 * |r|, 0] : Fin 3 → ℝ) c = B at *
  have h := show (growth δ ^ 95 - 1) * B = (growth δ ^ 43 - 1) * (growth δ ^ 52 * B) + (growth δ ^ 52 - 1) * B by ring
  norm_num at y2
  linarith

/-! ## such objects exist -/

/-- the image of a row, summed from the left -/
def seqRow (rd : ℝ → ℝ) (A : Mat4 ℝ) (v : Fin 4 → ℝ) : Fin 4 → ℝ := fun i =>
  rd (rd (rd (rd (v 0 * A i 0) + rd (v 1 * A i 1)) + rd (v 2 * A i 2)) + rd (v 3 * A i 3))

theorem seqRow_ok (rd : ℝ → ℝ) (A : Mat4 ℝ) (v : Fin 4 → ℝ) : Cad.RowF rd A v (seqRow rd A v) := fun _ =>
  (((Fp.Dot.prod _ _).add (.prod _ _) (.refl _)).add (.prod _ _) (.refl _)).add (.prod _ _) (.refl _)

/-- the rows one after the other -/
def arcRows (f : ℕ → Fin 4 → ℝ) (g : (Fin 4 → ℝ) → Fin 4 → ℝ) : ℕ → Fin 4 → ℝ
  | 0 => f 0
  | 1 => f 1
  | 2 => f 2
  | n + 3 => g (arcRows f g (n + 1))

theorem rotZF_total {rd : ℝ → ℝ} {δ : ℝ} (h0 : 0 ≤ δ) (hδ : δ < 1) (hr : RelErr δ rd) (a : ℝ) : ∃ A, Cad.RotZF rd δ a A := by
  unfold Cad.RotZF
  split_ifs with h
  · exact ⟨1, rfl⟩
  · obtain ⟨R, hR⟩ := (C104_accepts h0 hδ hr a (.int 2)).2 ⟨axisRot (Real.cos a) (Real.sin a) 2, by
      show (normAxis 3 2 >>= fun b => pure (axisRot (Real.cos a) (Real.sin a) b)) = _
      rw [show (normAxis 3 2) = .ok (2 : Fin 3) from normAxis_self (2 : Fin 3)]
      rfl⟩
    obtain ⟨A, hA⟩ := C101_total rd [embed3 R]
    exact ⟨A, R, hR, hA⟩

/-- C107: with different angles there is a result -/
theorem C107_total {rd : ℝ → ℝ} {δ : ℝ} (h0 : 0 ≤ δ) (hδ : δ < 1) (hr : RelErr δ rd) (hid : ∀ x, rd (rd x) = rd x) (r : ℝ)
    {start stop : ℝ} : (∃ L, Cad.ArcF rd δ r start stop L) ↔ start ≠ stop := by
  constructor
  · rintro ⟨L, hsp, _⟩ rfl
    apply hsp
    unfold Cad.arcSpansF
    dsimp only
    rw [sub_self, rd_zero hr, if_pos (by simp)]
  · intro hne
    have hsw : rd (stop - start) ≠ 0 := by
      intro h
      have k := hr (stop - start)
      rw [h, zero_sub, abs_neg] at k
      have : 0 < |stop - start| := abs_pos.2 (sub_ne_zero.2 hne.symm)
      nlinarith
    have hsp : Cad.arcSpansF rd (rd (stop - start)) ≠ 0 := by
      unfold Cad.arcSpansF
      dsimp only
      rw [if_neg (by simpa using hsw)]
      split_ifs <;> norm_num
    set s := Cad.arcSpansF rd (rd (stop - start)) with hs
    set α := rd (rd (stop - start) / (2 * s)) with hα
    obtain ⟨A, hA⟩ := rotZF_total h0 hδ hr (rd (α + start))
    obtain ⟨B, hB⟩ := rotZF_total h0 hδ hr (rd (2 * α))
    let seg := Cad.arcSegmentF rd r (rd (Real.sin α)) (rd (Real.cos α)) (rd (Real.tan α))
    let C : ℤ → Fin 4 → ℝ := fun j => arcRows (fun j => seqRow rd A (seg j)) (seqRow rd B) j.toNat
    obtain ⟨L, hL, _⟩ := circleObjF_form rd s (Nat.one_le_iff_ne_zero.2 hsp) C
    refine ⟨L, hsp, C, ⟨rd (Real.sin α), rd (Real.cos α), rd (Real.tan α), A, B, ⟨hr _, hr _⟩, hr _, hid _, hA, fun j j0 j2 => ?_, hB,
      fun j j3 _ => ?_⟩, hL⟩
    · have : j = 0 ∨ j = 1 ∨ j = 2 := by omega
      rcases this with rfl | rfl | rfl <;> exact seqRow_ok _ _ _
    · obtain ⟨m, rfl⟩ : ∃ m : ℕ, j = m + 3 := ⟨(j - 3).toNat, by omega⟩
      have a : C (m + 3) = seqRow rd B (C (m + 3 - 2)) := by
        show arcRows _ _ ((m : ℤ) + 3).toNat = seqRow rd B (arcRows _ _ ((m : ℤ) + 3 - 2).toNat)
        rw [show ((m : ℤ) + 3).toNat = m + 3 by omega, show ((m : ℤ) + 3 - 2).toNat = m + 1 by omega]
        rfl
      rw [a]
      exact seqRow_ok _ _ _

namespace Ex

theorem flR_double {t : ℕ} (ht : 1 ≤ t) (x : ℝ) : flR t (2 * flR t x) = 2 * flR t x := by
  rcases eq_or_ne x 0 with rfl | hx
  · simp [flR]
  obtain ⟨k, e, hk, h⟩ := flR_form ht hx
  rw [h, show 2 * ((k : ℝ) * 2 ^ e) = k * 2 ^ (e + 1) by rw [zpow_add₀ (by norm_num)]; ring]
  exact flR_exact ht k _ hk

/-- with doubles, the arc of radius 2 from angle 1 down to -3 (three spans) -/
example (jk : ℤ → Fp ℝ) (je : ℤ → ℕ → Fp ℝ) : ∃ L, Cad.ArcF (flR 53) (2 ^ (-(53 : ℕ) : ℤ)) 2 1 (-3) L ∧ ∃ θ : ℝ → ℝ,
    StrictAntiOn θ (Set.Icc 0 1) ∧ |θ 1 - -3| ≤ 15 * 2 ^ (-(53 : ℕ) : ℤ) ∧ ∃ C,
    L.callF (flR 53) jk je (fun _ => 10) (fun _ i => (i : ℝ) / 10) = .ok C ∧ ∀ i, 0 ≤ i → i ≤ 10 → ∃ x y,
      (C ![i]).1 0 = some x ∧ (C ![i]).1 1 = some y ∧ (C ![i]).1 2 = some 0 ∧
      |x - 2 * Real.cos (θ (i / 10))| ≤ (growth (2 ^ (-(53 : ℕ) : ℤ)) ^ 85 - 1) * 16 ∧
      |y - 2 * Real.sin (θ (i / 10))| ≤ (growth (2 ^ (-(53 : ℕ) : ℤ)) ^ 85 - 1) * 16 := by
  obtain ⟨L, hL⟩ := (C107_total d53.1 d53.2 (flR_relErr 53) (flR_idem (by norm_num)) 2 (start := 1) (stop := -3)).2 (by norm_num)
  have hp := Real.pi_gt_three
  obtain ⟨θ, _, _, a, _, b, C, c, h⟩ := C107_arc d53.1 (by norm_num) (flR_relErr 53) (by exact_mod_cast flR_nat (n := 1) (by norm_num))
    (flR_double (by norm_num)) 2 (start := 1) (stop := -3) (by
      rw [show |(-3 : ℝ) - 1| = 4 by norm_num]
      have := d53.1
      nlinarith) jk je (n := 10) (by norm_num) (u := fun i => (i : ℝ) / 10) (fun i i0 i1 => by
      have a : (0 : ℝ) ≤ i := by exact_mod_cast i0
      have b : (i : ℝ) ≤ 10 := by exact_mod_cast i1
      constructor
      · positivity
      · linarith) hL
  refine ⟨L, hL, θ, a (by norm_num), ?_, C, c, fun i i0 i1 => ?_⟩
  · refine b.trans (le_of_eq ?_)
    rw [show |(-3 : ℝ) - 1| = 4 by norm_num, abs_one]
    ring
  · obtain ⟨x, y, x1, y1, z1, x2, y2⟩ := h i i0 i1
    rw [show 8 * |(2 : ℝ)| = 16 by norm_num] at x2 y2
    exact ⟨x, y, x1, y1, z1, x2, y2⟩

/-- with doubles, the arc of radius 2 about (1, -2, 5) from 0 to 1 -/
example (jk : ℤ → Fp ℝ) (je : ℤ → ℕ → Fp ℝ) : ∃ L, Cad.ArcAtF (flR 53) (2 ^ (-(53 : ℕ) : ℤ)) 2 ![1, -2, 5] 0 1 L ∧ ∃ θ : ℝ → ℝ,
    StrictMonoOn θ (Set.Icc 0 1) ∧ ∃ C,
    L.callF (flR 53) jk je (fun _ => 10) (fun _ i => (i : ℝ) / 10) = .ok C ∧ ∀ i, 0 ≤ i → i ≤ 10 → ∀ c : Fin 3, ∃ y,
      (C ![i]).1 c = some y ∧ |y - circlePoint ![1, -2, 5] 2 (θ (i / 10)) c| ≤
        (growth (2 ^ (-(53 : ℕ) : ℤ)) ^ 95 - 1) * ((![8 * |2|, 8 * |2|, 0] : Fin 3 → ℝ) c + |(![1, -2, 5] : Fin 3 → ℝ) c|) := by
  obtain ⟨L0, hL0⟩ := (C107_total d53.1 d53.2 (flR_relErr 53) (flR_idem (by norm_num)) 2 (start := 0) (stop := 1)).2 (by norm_num)
  obtain ⟨A, hA⟩ := C101_total (flR 53) [transMat ![1, -2, 5]]
  have hL : Cad.ArcAtF (flR 53) (2 ^ (-(53 : ℕ) : ℤ)) 2 ![1, -2, 5] 0 1 (seqTrans (flR 53) L0 A) := ⟨L0, A, hL0, hA, C99_total _ _ _⟩
  have hp := Real.pi_gt_three
  obtain ⟨θ, _, a, _, _, _, C, h⟩ := C107_center d53.1 (by norm_num) (flR_relErr 53) (by exact_mod_cast flR_nat (n := 1) (by norm_num))
    (flR_double (by norm_num)) 2 ![1, -2, 5] (start := 0) (stop := 1) (by
      rw [show |(1 : ℝ) - 0| = 1 by norm_num]
      have := d53.1
      nlinarith) jk je (n := 10) (by norm_num) (u := fun i => (i : ℝ) / 10) (fun i i0 i1 => by
      have a : (0 : ℝ) ≤ i := by exact_mod_cast i0
      have b : (i : ℝ) ≤ 10 := by exact_mod_cast i1
      constructor
      · positivity
      · linarith) hL
  exact ⟨_, hL, θ, a (by norm_num), C, h⟩

end Ex
end Igakit
