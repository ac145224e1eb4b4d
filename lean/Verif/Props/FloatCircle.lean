import Verif.Model.FloatCircle
import Verif.Props.FloatPlace
import Verif.Props.Circle

/-!
# Property C106: the full circle in floating point
-/

set_option linter.unusedSectionVars false

namespace Igakit
open Spec Transform

variable {d : ℕ}

/-- objects over the same knots with nearby control points and weights: the maps are near -/
theorem proj_near {δ : ℝ} (h0 : 0 ≤ δ) (hδ : δ < 1) {N L : Nrb ℝ d} (hs : L.shape = N.shape) (hl : L.len = N.len) (hU : L.U = N.U)
    (hv : N.Valid) (hw : ∀ idx, N.InNet idx → 0 < N.P idx 3) {m n c : ℕ} {B : ℝ}
    (hc : ∀ idx, N.InNet idx → Carried δ m (L.P idx c) (N.P idx c) (B * N.P idx 3))
    (h3 : ∀ idx, N.InNet idx → 0 < L.P idx 3 ∧ Within δ n (L.P idx 3) (N.P idx 3)) {x : Fin d → ℝ} (hx : N.InDom x) :
    Carried δ (m + n) (L.proj x c) (N.proj x c) B := by
  have hnet : ∀ idx : Fin d → ℤ, (∀ a, 0 ≤ idx a ∧ idx a ≤ N.n a) → N.InNet idx := by
    intro idx hi a
    have := hi a
    unfold Nrb.n at this
    omega
  have hmem : ∀ idx ∈ Fintype.piFinset (fun a => Finset.Icc 0 (N.n a)), N.InNet idx ∧ 0 ≤ N.wt x idx := by
    intro idx hi
    have hi : ∀ a, 0 ≤ idx a ∧ idx a ≤ N.n a := fun a => Finset.mem_Icc.mp (Fintype.mem_piFinset.mp hi a)
    exact ⟨hnet idx hi, Nrb.wt_nonneg hv hx hi⟩
  have hE : ∀ c, L.eval x c = ∑ idx ∈ Fintype.piFinset (fun a => Finset.Icc 0 (N.n a)), N.wt x idx * L.P idx c := by
    intro c
    have e : L.eval x = ({ N with P := L.P } : Nrb ℝ d).eval x := by
      obtain ⟨sh, nc, len, U, P⟩ := L
      obtain ⟨sh', nc', len', U', P'⟩ := N
      simp only at hs hl hU
      subst hs hl hU
      rfl
    rw [e, Nrb.eval_apply]
    rfl
  have hN : ∀ c, N.eval x c = ∑ idx ∈ Fintype.piFinset (fun a => Finset.Icc 0 (N.n a)), N.wt x idx * N.P idx c := by
    intro c
    rw [Nrb.eval_apply]
  have p3 : 0 < N.eval x 3 := Nrb.eval_pos hv hx (fun idx hi => hw idx (hnet idx hi))
  have q3 : Within δ n (L.eval x 3) (N.eval x 3) := by
    rw [hE, hN]
    constructor
    · rw [Finset.mul_sum]
      refine Finset.sum_le_sum fun idx hi => ?_
      rw [mul_left_comm]
      exact mul_le_mul_of_nonneg_left (h3 idx (hmem idx hi).1).2.lower (hmem idx hi).2
    · rw [Finset.mul_sum]
      refine Finset.sum_le_sum fun idx hi => ?_
      rw [mul_left_comm]
      exact mul_le_mul_of_nonneg_left (h3 idx (hmem idx hi).1).2.upper (hmem idx hi).2
  have g : 0 < growth δ ^ n := by linarith [Fp.growth_pow h0 hδ n]
  have pL : 0 < L.eval x 3 := pos_of_mul_pos_right (p3.trans_le q3.lower) g.le
  have hX : Carried δ m (L.eval x c) (N.eval x c) (B * N.eval x 3) := by
    rw [hE, hN, hN]
    constructor
    · rw [Finset.mul_sum]
      refine (Finset.abs_sum_le_sum_abs _ _).trans (Finset.sum_le_sum fun idx hi => ?_)
      rw [abs_mul, abs_of_nonneg (hmem idx hi).2, mul_left_comm]
      exact mul_le_mul_of_nonneg_left (hc idx (hmem idx hi).1).le (hmem idx hi).2
    · rw [← Finset.sum_sub_distrib, Finset.mul_sum, Finset.mul_sum]
      refine (Finset.abs_sum_le_sum_abs _ _).trans (Finset.sum_le_sum fun idx hi => ?_)
      rw [← mul_sub, abs_mul, abs_of_nonneg (hmem idx hi).2, mul_left_comm B, mul_left_comm]
      exact mul_le_mul_of_nonneg_left (hc idx (hmem idx hi).1).err (hmem idx hi).2
  have := hX.mul h0 hδ (carried_div h0 hδ pL p3 q3 1)
  rw [abs_of_pos (by positivity : 0 < 1 / N.eval x 3), mul_one_div, mul_one_div, mul_one_div, mul_div_cancel_right₀ _ p3.ne'] at this
  exact this

/-- the object `circle` builds from a net -/
theorem circleObj_form (s : ℕ) (hs : 1 ≤ s) (C : ℤ → Fin 4 → ℝ) : ∃ N, Cad.circleObj s C = .ok N ∧ N.shape = (fun _ => 2 * (s : ℤ) + 1) ∧
    N.len = (fun _ => 2 * ((s : ℤ) + 1) + 2) ∧ N.U = (fun _ => Cad.circleKnots s) ∧
    ∀ idx (c : Fin 4), N.P idx c = C (idx 0) c := by
  refine ⟨_, ctor_homogeneous (sh := fun _ => 2 * (s : ℤ) + 1) (len := fun _ => 2 * ((s : ℤ) + 1) + 2)
    (by norm_num) (by norm_num) (fun _ => rfl) (fun _ => by omega) rfl (fun _ => by omega), rfl, rfl, rfl, fun idx c => ?_⟩
  have hc : (((c : ℕ) : ℤ)).toNat < 4 := by have := c.2; omega
  simp only [List.ofFn_succ, List.ofFn_zero]
  simp

theorem circlePts_le (n : ℕ) : |(Cad.circlePts.getD n (0, 0)).1| ≤ 1 ∧ |(Cad.circlePts.getD n (0, 0)).2| ≤ 1 := by
  rcases lt_or_ge n 9 with h | h
  · interval_cases n <;> decide
  · have : Cad.circlePts[n]? = none := List.getElem?_eq_none h
    rw [List.getD_eq_getElem?_getD, this]
    decide

/-- the control points of the full circle in floating point -/
theorem circleNetF_near {rd : ℝ → ℝ} {δ : ℝ} (h0 : 0 ≤ δ) (hδ : δ < 1) (hr : RelErr δ rd) (r : ℝ) (j : ℤ) :
    0 < Cad.circleNet r j 3 ∧ 0 < Cad.circleNetF rd r j 3 ∧ Within δ 3 (Cad.circleNetF rd r j 3) (Cad.circleNet r j 3) ∧
    Carried δ 4 (Cad.circleNetF rd r j 0) (Cad.circleNet r j 0) (|r| * Cad.circleNet r j 3) ∧
    Carried δ 4 (Cad.circleNetF rd r j 1) (Cad.circleNet r j 1) (|r| * Cad.circleNet r j 3) ∧
    Carried δ 4 (Cad.circleNetF rd r j 2) (Cad.circleNet r j 2) (0 * Cad.circleNet r j 3) := by
  obtain ⟨q1, q2⟩ := circlePts_le j.toNat
  unfold Cad.circleNet Cad.circleNetF
  generalize Cad.circlePts.getD j.toNat (0, 0) = q at *
  have s2 : (0 : ℝ) < Real.sqrt 2 := by positivity
  have ck : ∀ a : ℤ, |a| ≤ 1 → Carried δ 1 (rd (a * r)) (a * r) |r| := by
    intro a ha
    have ha' : |(a : ℝ)| ≤ 1 := by exact_mod_cast ha
    have : Carried δ 0 (a * r) (a * r) |r| :=
      ⟨by rw [abs_mul]; exact mul_le_of_le_one_left (abs_nonneg _) ha', by simp⟩
    exact this.rd h0 hδ hr
  split_ifs with hj
  · have w0 : Within δ 0 (Real.sqrt 2) (Real.sqrt 2) := ⟨by simp, by simp⟩
    have w1 : Within δ 1 (rd (Real.sqrt 2)) (Real.sqrt 2) := w0.rd h0 hδ hr s2.le
    have g1 : 0 < growth δ ^ 1 := by linarith [Fp.growth_pow h0 hδ 1]
    have g3 : 0 < growth δ ^ 3 := by linarith [Fp.growth_pow h0 hδ 3]
    have r1 : 0 < rd (Real.sqrt 2) := pos_of_mul_pos_right (s2.trans_le w1.lower) g1.le
    have w1' : Within δ 1 (rd (Real.sqrt 2) / 2) (Real.sqrt 2 / 2) :=
      ⟨by rw [← mul_div_assoc]; linarith [w1.lower], by rw [← mul_div_assoc]; linarith [w1.upper]⟩
    have w2 : Within δ 2 (rd (rd (Real.sqrt 2) / 2)) (Real.sqrt 2 / 2) := w1'.rd h0 hδ hr (by positivity)
    have g2 : 0 < growth δ ^ 2 := by linarith [Fp.growth_pow h0 hδ 2]
    have r2 : 0 < rd (rd (Real.sqrt 2) / 2) := pos_of_mul_pos_right ((half_pos s2).trans_le w2.lower) g2.le
    have w3 := w2.rd h0 hδ hr r2.le
    have r3 : 0 < rd (rd (rd (Real.sqrt 2) / 2)) := pos_of_mul_pos_right ((half_pos s2).trans_le w3.lower) g3.le
    have cw : Carried δ 2 (rd (rd (Real.sqrt 2) / 2)) (Real.sqrt 2 / 2) (Real.sqrt 2 / 2) := by
      refine ⟨le_of_eq (abs_of_pos (half_pos s2)), ?_⟩
      have g := Fp.growth_pow h0 hδ 2
      have l := w2.lower
      rw [abs_le]
      constructor
      · have := mul_le_mul_of_nonneg_left w2.upper g2.le
        nlinarith [w2.upper, mul_self_nonneg (growth δ ^ 2 - 1)]
      · linarith [w2.upper]
    have hz : rd 0 = 0 := rd_zero hr
    have cz : Carried δ 4 (0 : ℝ) 0 0 := ⟨by simp, by simp⟩
    refine ⟨?_, ?_, ?_, ?_, ?_, ?_⟩
    · show 0 < 1 * (Real.sqrt 2 / 2)
      positivity
    · show 0 < rd (1 * _)
      rw [one_mul]
      exact r3
    · show Within δ 3 (rd (1 * _)) (1 * _)
      rw [one_mul, one_mul]
      exact w3
    · show Carried δ 4 _ (q.1 * r * (Real.sqrt 2 / 2)) (|r| * (1 * (Real.sqrt 2 / 2)))
      rw [one_mul (Real.sqrt 2 / 2)]
      exact ((ck _ q1).mul h0 hδ cw).rd h0 hδ hr
    · show Carried δ 4 _ (q.2 * r * (Real.sqrt 2 / 2)) (|r| * (1 * (Real.sqrt 2 / 2)))
      rw [one_mul (Real.sqrt 2 / 2)]
      exact ((ck _ q2).mul h0 hδ cw).rd h0 hδ hr
    · show Carried δ 4 (rd (0 * _)) (0 * _) (0 * _)
      rw [zero_mul, zero_mul, zero_mul, hz]
      exact cz
  · have cz : Carried δ 4 (0 : ℝ) 0 0 := ⟨by simp, by simp⟩
    have g := Fp.growth_pow h0 hδ 3
    refine ⟨?_, ?_, ?_, ?_, ?_, ?_⟩
    · show (0 : ℝ) < 1 * 1
      norm_num
    · show (0 : ℝ) < 1
      norm_num
    · show Within δ 3 1 (1 * 1)
      rw [one_mul]
      exact ⟨by linarith, by linarith⟩
    · show Carried δ 4 (rd (q.1 * r)) (q.1 * r * 1) (|r| * (1 * 1))
      rw [mul_one, mul_one, mul_one]
      exact (ck _ q1).mono h0 hδ (by norm_num)
    · show Carried δ 4 (rd (q.2 * r)) (q.2 * r * 1) (|r| * (1 * 1))
      rw [mul_one, mul_one, mul_one]
      exact (ck _ q2).mono h0 hδ (by norm_num)
    · show Carried δ 4 0 (0 * 1) (0 * (1 * 1))
      rw [zero_mul, zero_mul]
      exact cz

/-- `circle(radius)` in floating point, before evaluation: a valid quadratic curve over [0,1] with positive weights, control points
not larger than the radius and near the circle, up to seven roundings -/
theorem circleF_ok {rd : ℝ → ℝ} {δ : ℝ} (h0 : 0 ≤ δ) (hδ : δ < 1) (hr : RelErr δ rd) (r : ℝ) :
    ∃ θ : ℝ → ℝ, Continuous θ ∧ StrictMono θ ∧ θ 0 = 0 ∧ θ 1 = 2 * Real.pi ∧
    ∃ L, Cad.circleF rd r = .ok L ∧ L.Valid ∧ L.degree 0 = 2 ∧ L.lo 0 = 0 ∧ L.hi 0 = 1 ∧ (∀ idx, 0 < L.P idx 3) ∧
      (∀ idx, L.P idx 3 = 1 ∨ L.P idx 3 = rd (rd (rd (Real.sqrt 2) / 2))) ∧
      (∀ idx (c : Fin 3), |L.P idx c / L.P idx 3| ≤ growth δ ^ 7 * (![|r|, |r|, 0] : Fin 3 → ℝ) c) ∧
      ∀ u, 0 ≤ u → u ≤ 1 → ∀ c : Fin 3,
        Carried δ 7 (L.point ![u] c) (circlePoint 0 r (θ u) c) ((![|r|, |r|, 0] : Fin 3 → ℝ) c) := by
  obtain ⟨N, hN, run⟩ := C33_circle (fun _ _ => 0) r IsCenter.origin .none (by
    show (0 : ℝ) ≠ 2 * Real.pi
    exact (by positivity : (0 : ℝ) < 2 * Real.pi).ne) (by
    show |2 * Real.pi - 0| < 4 * Real.pi
    rw [sub_zero, abs_of_pos (by positivity)]
    linarith [Real.pi_pos])
  obtain ⟨N', hN', n1, n2, n3, n4⟩ := circleObj_form 4 (by norm_num) (Cad.circleNet r)
  have e : N' = N := by
    have : Cad.circle (fun _ _ => 0) r none .none = Cad.circleObj 4 (Cad.circleNet r) := rfl
    rw [this, hN'] at hN
    exact Except.ok.inj hN
  subst e
  obtain ⟨L, hL, l1, l2, l3, l4⟩ := circleObj_form 4 (by norm_num) (Cad.circleNetF rd r)
  obtain ⟨θ, t1, t2, t3, t4, _, t5⟩ := run.run
  have hs : L.shape = N'.shape := l1.trans n1.symm
  have hl : L.len = N'.len := l2.trans n2.symm
  have hU : L.U = N'.U := l3.trans n3.symm
  have near := circleNetF_near h0 hδ hr r
  have e1 : L.degree = N'.degree := by funext a; unfold Nrb.degree; rw [hs, hl]
  have e2 : L.lo = N'.lo := by funext a; unfold Nrb.lo; rw [e1, hU]
  have e3 : L.hi = N'.hi := by funext a; unfold Nrb.hi; rw [e1, hU, hl]
  have hv : L.Valid := by
    intro a
    have := run.valid a
    unfold Nrb.n at this ⊢
    rw [e1, hU, hs]
    exact this
  have w3 : ∀ idx, N'.P idx 3 = Cad.circleNet r (idx 0) 3 := fun idx => n4 idx 3
  have v3 : ∀ idx, L.P idx 3 = Cad.circleNetF rd r (idx 0) 3 := fun idx => l4 idx 3
  have nc : ∀ idx (c : Fin 3), N'.P idx c = Cad.circleNet r (idx 0) c.castSucc := fun idx c => n4 idx c.castSucc
  have lc : ∀ idx (c : Fin 3), L.P idx c = Cad.circleNetF rd r (idx 0) c.castSucc := fun idx c => l4 idx c.castSucc
  have hB : ∀ (c : Fin 3) j, Carried δ 4 (Cad.circleNetF rd r j c.castSucc) (Cad.circleNet r j c.castSucc)
      ((![|r|, |r|, 0] : Fin 3 → ℝ) c * Cad.circleNet r j 3) := by
    intro c j
    obtain ⟨_, _, _, a, b, c'⟩ := near j
    fin_cases c
    · exact a
    · exact b
    · exact c'
  refine ⟨θ, t1, t4 (by show (0 : ℝ) < 2 * Real.pi; positivity), t2, t3, L, hL, hv, by rw [e1]; exact run.degree,
    by rw [e2]; exact run.lo, by rw [e3]; exact run.hi, fun idx => by rw [v3]; exact (near _).2.1, fun idx => ?_, fun idx c => ?_,
    fun u u0 u1 c => ?_⟩
  · rw [v3]
    unfold Cad.circleNetF
    split_ifs with hj
    · right
      show rd (1 * _) = _
      rw [one_mul]
    · left
      rfl
  · rw [lc, v3]
    obtain ⟨a1, a2, a3, _⟩ := near (idx 0)
    have := ((hB c (idx 0)).mul h0 hδ (carried_div h0 hδ a2 a1 a3 1)).size
    rw [abs_of_pos (by positivity : 0 < 1 / Cad.circleNet r (idx 0) 3), mul_one_div, mul_one_div,
      mul_div_cancel_right₀ _ a1.ne'] at this
    exact this
  · have hin : N'.InDom ![u] := by
      intro a
      rw [Subsingleton.elim a 0, run.lo, run.hi]
      exact ⟨u0, u1⟩
    have k := proj_near h0 hδ hs hl hU run.valid (fun idx _ => by rw [w3]; exact (near _).1) (m := 4) (n := 3) (c := c)
      (B := (![|r|, |r|, 0] : Fin 3 → ℝ) c)
      (fun idx _ => by rw [nc, lc, w3]; exact hB _ _) (fun idx _ => by rw [v3, w3]; exact ⟨(near _).2.1, (near _).2.2.1⟩) hin
    rw [← t5 u u0 u1]
    exact k

/-- C106: `circle(radius)` evaluated, all in floating point: the points are on the circle, up to 40 roundings of the radius in each
coordinate; the third one is zero -/
theorem C106_circle {rd : ℝ → ℝ} {δ : ℝ} (h0 : 0 ≤ δ) (hδ : δ < 1) (hr : RelErr δ rd) (r : ℝ) (jk : ℤ → Fp ℝ) (je : ℤ → ℕ → Fp ℝ)
    {n : ℤ} (hn : 0 ≤ n) {u : ℤ → ℝ} (hu : ∀ i, 0 ≤ i → i ≤ n → 0 ≤ u i ∧ u i ≤ 1) :
    ∃ θ : ℝ → ℝ, Continuous θ ∧ StrictMono θ ∧ θ 0 = 0 ∧ θ 1 = 2 * Real.pi ∧
    ∃ L C, Cad.circleF rd r = .ok L ∧ L.callF rd jk je (fun _ => n) (fun _ => u) = .ok C ∧
      ∀ i, 0 ≤ i → i ≤ n → ∃ x y, (C ![i]).1 0 = some x ∧ (C ![i]).1 1 = some y ∧ (C ![i]).1 2 = some 0 ∧
        |x - r * Real.cos (θ (u i))| ≤ (growth δ ^ 40 - 1) * |r| ∧ |y - r * Real.sin (θ (u i))| ≤ (growth δ ^ 40 - 1) * |r| := by
  obtain ⟨θ, t1, t2, t3, t4, L, hL, hv, hdeg, hlo, hhi, hp, _, hsz, hpt⟩ := circleF_ok h0 hδ hr r
  refine ⟨θ, t1, t2, t3, t4, L, ?_⟩
  obtain ⟨C, c1, c2⟩ := C72_call h0 hδ hr jk je (N := L) (by norm_num) hv (r := fun _ => n) (X := fun _ => u) (fun _ => hn)
    (fun a i i0 i1 => by rw [Subsingleton.elim a 0, hlo, hhi]; exact hu i i0 i1) (fun idx _ => hp idx) (m := 16) (by
      rw [Fin.sum_univ_one, Fin.prod_univ_one, hdeg]
      rfl)
  refine ⟨C, hL, c1, fun i i0 i1 => ?_⟩
  have e : (fun a : Fin 1 => u ((![i] : Fin 1 → ℤ) a)) = ![u i] := by
    funext a
    rw [Subsingleton.elim a 0]
    rfl
  obtain ⟨b0, b1⟩ := hu i i0 i1
  have main : ∀ c : Fin 3, ∃ y, (C ![i]).1 c = some y ∧
      |y - circlePoint 0 r (θ (u i)) c| ≤ (growth δ ^ 40 - 1) * (![|r|, |r|, 0] : Fin 3 → ℝ) c := by
    intro c
    obtain ⟨y, y1, y2⟩ := (c2 ![i] (fun a => by rw [Subsingleton.elim a 0]; exact ⟨i0, i1⟩) c _).1 (fun idx _ => hsz idx c)
    refine ⟨y, y1, ?_⟩
    rw [e] at y2
    have k := (hpt (u i) b0 b1 c).err
    have f := abs_sub_le y (L.proj ![u i] c) (circlePoint 0 r (θ (u i)) c)
    change |L.proj ![u i] c - _| ≤ _ at k
    generalize (![|r|, |r|, 0] : Fin 3 → ℝ) c = B at *
    rw [show (growth δ ^ 40 - 1) * B = (growth δ ^ (2 * 16 + 1) - 1) * (growth δ ^ 7 * B) + (growth δ ^ 7 - 1) * B by ring]
    linarith
  obtain ⟨x, x1, x2⟩ := main 0
  obtain ⟨y, y1, y2⟩ := main 1
  obtain ⟨z, z1, z2⟩ := main 2
  have hz : z = 0 := by
    change |z - circlePoint 0 r (θ (u i)) 2| ≤ (growth δ ^ 40 - 1) * 0 at z2
    rw [mul_zero] at z2
    rw [sub_eq_zero.1 (abs_eq_zero.1 (le_antisymm z2 (abs_nonneg _)))]
    simp [circlePoint]
  refine ⟨x, y, x1, y1, by rw [hz] at z1; exact z1, ?_, ?_⟩
  · simpa [circlePoint] using x2
  · simpa [circlePoint] using y2

/-- C106: `circle(radius, center)`, all in floating point: up to 50 roundings of radius and centre -/
theorem C106_center {rd : ℝ → ℝ} {δ : ℝ} (h0 : 0 ≤ δ) (hδ : δ < 1) (hr : RelErr δ rd) (hone : rd 1 = 1) (hid : ∀ x, rd (rd x) = rd x)
    (r : ℝ) (t : Fin 3 → ℝ) (jk : ℤ → Fp ℝ) (je : ℤ → ℕ → Fp ℝ)
    {n : ℤ} (hn : 0 ≤ n) {u : ℤ → ℝ} (hu : ∀ i, 0 ≤ i → i ≤ n → 0 ≤ u i ∧ u i ≤ 1) {L : Nrb ℝ 1} (hL : Cad.CircleAtF rd r t L) :
    ∃ θ : ℝ → ℝ, Continuous θ ∧ StrictMono θ ∧ θ 0 = 0 ∧ θ 1 = 2 * Real.pi ∧
    ∃ C, L.callF rd jk je (fun _ => n) (fun _ => u) = .ok C ∧
      ∀ i, 0 ≤ i → i ≤ n → ∀ c : Fin 3, ∃ y, (C ![i]).1 c = some y ∧
        |y - circlePoint t r (θ (u i)) c| ≤ (growth δ ^ 50 - 1) * ((![|r|, |r|, 0] : Fin 3 → ℝ) c + |t c|) := by
  obtain ⟨L0, A, hL0, hA, hT⟩ := hL
  obtain ⟨θ, t1, t2, t3, t4, L', hL', hv, hdeg, hlo, hhi, hp, hw, hsz, hpt⟩ := circleF_ok h0 hδ hr r
  rw [hL0] at hL'
  obtain rfl := Except.ok.inj hL'
  refine ⟨θ, t1, t2, t3, t4, ?_⟩
  obtain ⟨C, c1, c2⟩ := C105_call h0 hδ hr hone jk je [⟨transMat t, transMat t, Matrix.of fun i j => |transMat t i j|, 0⟩]
    (fun s hs i j => by
      rw [List.mem_singleton.1 hs]
      exact Carried.exact δ _)
    (fun s hs => by
      rw [List.mem_singleton.1 hs]
      exact transMat_affine t) hA (by norm_num) hv hT (fun idx _ => hp idx)
    (fun idx _ => by
      rcases hw idx with h | h <;> rw [h]
      · exact hone
      · rw [hid]) (fun idx _ => hsz idx) (r := fun _ => n) (X := fun _ => u) (fun _ => hn)
    (fun a i i0 i1 => by rw [Subsingleton.elim a 0, hlo, hhi]; exact hu i i0 i1) (m := 16) (by
      rw [Fin.sum_univ_one, Fin.prod_univ_one, hdeg]
      rfl)
  refine ⟨C, c1, fun i i0 i1 c => ?_⟩
  obtain ⟨y, y1, y2⟩ := c2 ![i] (fun a => by rw [Subsingleton.elim a 0]; exact ⟨i0, i1⟩) c
  refine ⟨y, y1, ?_⟩
  have e : (fun a : Fin 1 => u ((![i] : Fin 1 → ℤ) a)) = ![u i] := by
    funext a
    rw [Subsingleton.elim a 0]
    rfl
  simp only [List.map_cons, List.map_nil, List.prod_cons, List.prod_nil, mul_one, List.sum_cons, List.sum_nil,
    List.length_cons, List.length_nil] at y2
  obtain ⟨b0, b1⟩ := hu i i0 i1
  have k := (hpt (u i) b0 b1 c).err
  have kn := (hpt (u i) b0 b1 c).nonneg
  rw [e] at y2
  have e1 : affPart (transMat t) (L0.point ![u i]) c = L0.point ![u i] c + t c := by
    unfold affPart
    fin_cases c <;> simp [transMat, Matrix.one_apply]
  have e2 : reach (Matrix.of fun i j => |transMat t i j|) (fun c => growth δ ^ 7 * (![|r|, |r|, 0] : Fin 3 → ℝ) c) c.castSucc =
      growth δ ^ 7 * (![|r|, |r|, 0] : Fin 3 → ℝ) c + |t c| := by
    unfold reach
    fin_cases c <;> simp [transMat, Matrix.one_apply]
  have e3 : circlePoint t r (θ (u i)) c = circlePoint 0 r (θ (u i)) c + t c := by
    unfold circlePoint
    fin_cases c <;> simp [add_comm]
  rw [e1, e2] at y2
  rw [e3]
  have f := abs_sub_le y (L0.point ![u i] c + t c) (circlePoint 0 r (θ (u i)) c + t c)
  rw [add_sub_add_right_eq_sub] at f
  have g := mul_le_mul_of_nonneg_right (Fp.growth_sub h0 hδ (show 43 ≤ 50 by norm_num)) (abs_nonneg (t c))
  generalize (![|r|, |r|, 0] : Fin 3 → ℝ) c = B at *
  have h := show (growth δ ^ 50 - 1) * B = (growth δ ^ 43 - 1) * (growth δ ^ 7 * B) + (growth δ ^ 7 - 1) * B by ring
  norm_num at y2
  linarith

/-- C106: the distance from the origin is the radius, up to 40 roundings in each coordinate -/
theorem C106_distance {rd : ℝ → ℝ} {δ : ℝ} (h0 : 0 ≤ δ) (hδ : δ < 1) (hr : RelErr δ rd) (r : ℝ) (jk : ℤ → Fp ℝ) (je : ℤ → ℕ → Fp ℝ)
    {n : ℤ} (hn : 0 ≤ n) {u : ℤ → ℝ} (hu : ∀ i, 0 ≤ i → i ≤ n → 0 ≤ u i ∧ u i ≤ 1) :
    ∃ L C, Cad.circleF rd r = .ok L ∧ L.callF rd jk je (fun _ => n) (fun _ => u) = .ok C ∧
      ∀ i, 0 ≤ i → i ≤ n → ∃ x y, (C ![i]).1 0 = some x ∧ (C ![i]).1 1 = some y ∧
        abs (Real.sqrt (x ^ 2 + y ^ 2) - |r|) ≤ Real.sqrt 2 * ((growth δ ^ 40 - 1) * |r|) := by
  obtain ⟨θ, _, _, _, _, L, C, h1, h2, h3⟩ := C106_circle h0 hδ hr r jk je hn hu
  refine ⟨L, C, h1, h2, fun i i0 i1 => ?_⟩
  obtain ⟨x, y, x1, y1, _, ex, ey⟩ := h3 i i0 i1
  refine ⟨x, y, x1, y1, ?_⟩
  set φ := θ (u i)
  set ε := (growth δ ^ 40 - 1) * |r|
  have e0 : 0 ≤ ε := (abs_nonneg _).trans ex
  have en : ∀ a b : ℝ, Real.sqrt (a ^ 2 + b ^ 2) = ‖(⟨a, b⟩ : ℂ)‖ := by
    intro a b
    rw [Complex.norm_def, Complex.normSq_mk]
    congr 1
    ring
  have er : |r| = ‖(⟨r * Real.cos φ, r * Real.sin φ⟩ : ℂ)‖ := by
    rw [← en, ← Real.sqrt_sq_eq_abs]
    congr 1
    linear_combination (-r ^ 2) * Real.sin_sq_add_cos_sq φ
  rw [er, en]
  refine (abs_norm_sub_norm_le _ _).trans ?_
  have es : (⟨x, y⟩ : ℂ) - ⟨r * Real.cos φ, r * Real.sin φ⟩ = ⟨x - r * Real.cos φ, y - r * Real.sin φ⟩ := by
    apply Complex.ext <;> simp
  rw [es, ← en, ← Real.sqrt_sq e0, ← Real.sqrt_mul (by norm_num)]
  refine Real.sqrt_le_sqrt ?_
  have a := sq_le_sq' (abs_le.1 ex).1 (abs_le.1 ex).2
  have b := sq_le_sq' (abs_le.1 ey).1 (abs_le.1 ey).2
  linarith

namespace Ex

/-- numbers with at most `t` bits are kept -/
theorem flR_exact {t : ℕ} (ht : 1 ≤ t) (k e : ℤ) (hk : |k| ≤ 2 ^ t) : flR t (k * 2 ^ e) = k * 2 ^ e := by
  have fine : ∀ (m b : ℤ) (x : ℝ), x = m * 2 ^ b → Int.log 2 |x| + 1 - (t : ℤ) ≤ b → flR t x = x := by
    intro m b x hx hb
    obtain ⟨c, hc⟩ := Int.eq_ofNat_of_zero_le (sub_nonneg.2 hb)
    unfold flR
    generalize Int.log 2 |x| + 1 - (t : ℤ) = f at *
    have h2 : (2 : ℝ) ^ f ≠ 0 := by positivity
    have : x / 2 ^ f = ((m * 2 ^ c : ℤ) : ℝ) := by
      rw [hx, show b = c + f by omega, zpow_add₀ (by norm_num), zpow_natCast]
      push_cast
      field_simp
    rw [this, round_intCast, ← this]
    field_simp
  rcases eq_or_ne k 0 with rfl | hk0
  · simp [flR]
  have hx0 : (0 : ℝ) < |(k : ℝ) * 2 ^ e| := abs_pos.mpr (mul_ne_zero (by exact_mod_cast hk0) (by positivity))
  have habs : |(k : ℝ) * 2 ^ e| = (|k| : ℤ) * 2 ^ e := by
    rw [abs_mul, abs_of_pos (by positivity : (0 : ℝ) < 2 ^ e)]
    push_cast
    rfl
  rcases hk.lt_or_eq with h | h
  · refine fine k e _ rfl ?_
    have : Int.log 2 |(k : ℝ) * 2 ^ e| < t + e := by
      rw [← Int.lt_zpow_iff_log_lt (by norm_num) hx0, habs]
      push_cast
      rw [zpow_add₀ (by norm_num), zpow_natCast]
      refine mul_lt_mul_of_pos_right ?_ (by positivity)
      exact_mod_cast h
    omega
  · have hlog : Int.log 2 |(k : ℝ) * 2 ^ e| = t + e := by
      have e1 : |(k : ℝ) * 2 ^ e| = ((2 : ℕ) : ℝ) ^ ((t : ℤ) + e) := by
        rw [habs, h]
        push_cast
        rw [zpow_add₀ (by norm_num), zpow_natCast]
      rw [e1, Int.log_zpow (by norm_num)]
    obtain ⟨s, rfl⟩ : ∃ s, t = s + 1 := ⟨t - 1, by omega⟩
    rcases abs_choice k with hc | hc
    · refine fine (2 ^ s) (e + 1) _ ?_ (by rw [hlog]; omega)
      rw [← hc, h, zpow_add₀ (by norm_num)]
      push_cast
      ring
    · refine fine (-2 ^ s) (e + 1) _ ?_ (by rw [hlog]; omega)
      rw [show k = -|k| by omega, h, zpow_add₀ (by norm_num)]
      push_cast
      ring

/-- a rounded number has at most `t` bits -/
theorem flR_form {t : ℕ} (ht : 1 ≤ t) {x : ℝ} (hx : x ≠ 0) : ∃ k e : ℤ, |k| ≤ 2 ^ t ∧ flR t x = k * 2 ^ e := by
  refine ⟨round (x / 2 ^ (Int.log 2 |x| + 1 - (t : ℤ))), Int.log 2 |x| + 1 - (t : ℤ), ?_, rfl⟩
  have hp : (0 : ℝ) < 2 ^ (Int.log 2 |x| + 1 - (t : ℤ)) := by positivity
  have hl : |x| < (2 : ℝ) ^ (Int.log 2 |x| + 1) := by
    exact_mod_cast Int.lt_zpow_succ_log_self (b := 2) (by norm_num) |x|
  have ha : |x / 2 ^ (Int.log 2 |x| + 1 - (t : ℤ))| < 2 ^ t := by
    rw [abs_div, abs_of_pos hp, div_lt_iff₀ hp, ← zpow_natCast, ← zpow_add₀ (by norm_num)]
    rwa [show (t : ℤ) + (Int.log 2 |x| + 1 - t) = Int.log 2 |x| + 1 by ring]
  generalize x / (2 : ℝ) ^ (Int.log 2 |x| + 1 - (t : ℤ)) = a at *
  have hr := abs_sub_round a
  have h1 := abs_sub_abs_le_abs_sub ((round a : ℤ) : ℝ) a
  rw [abs_sub_comm] at h1
  have h2 : ((|round a| : ℤ) : ℝ) < ((2 ^ t + 1 : ℤ) : ℝ) := by
    push_cast
    linarith
  have := Int.cast_lt.1 h2
  omega

theorem flR_idem {t : ℕ} (ht : 1 ≤ t) (x : ℝ) : flR t (flR t x) = flR t x := by
  rcases eq_or_ne x 0 with rfl | hx
  · simp [flR]
  obtain ⟨k, e, hk, h⟩ := flR_form ht hx
  rw [h]
  exact flR_exact ht k e hk

/-- a circle of radius 3 about (1, -2, 5) with doubles -/
example (jk : ℤ → Fp ℝ) (je : ℤ → ℕ → Fp ℝ) : ∃ L, Cad.CircleAtF (flR 53) 3 ![1, -2, 5] L ∧ ∃ θ : ℝ → ℝ, ∃ C,
    L.callF (flR 53) jk je (fun _ => 10) (fun _ i => (i : ℝ) / 10) = .ok C ∧ ∀ i, 0 ≤ i → i ≤ 10 → ∀ c : Fin 3, ∃ y,
      (C ![i]).1 c = some y ∧ |y - circlePoint ![1, -2, 5] 3 (θ (i / 10)) c| ≤
        (growth (2 ^ (-(53 : ℕ) : ℤ)) ^ 50 - 1) * ((![|3|, |3|, 0] : Fin 3 → ℝ) c + |(![1, -2, 5] : Fin 3 → ℝ) c|) := by
  obtain ⟨_, _, _, _, _, L0, hL0, _⟩ := circleF_ok d53.1 d53.2 (flR_relErr 53) 3
  obtain ⟨A, hA⟩ := C101_total (flR 53) [transMat ![1, -2, 5]]
  have hL : Cad.CircleAtF (flR 53) 3 ![1, -2, 5] (seqTrans (flR 53) L0 A) := ⟨L0, A, hL0, hA, C99_total _ _ _⟩
  obtain ⟨θ, _, _, _, _, C, h⟩ := C106_center d53.1 d53.2 (flR_relErr 53) (by exact_mod_cast flR_nat (n := 1) (by norm_num))
    (flR_idem (by norm_num)) 3 ![1, -2, 5] jk je (n := 10) (by norm_num) (u := fun i => (i : ℝ) / 10) (fun i i0 i1 => by
      have a : (0 : ℝ) ≤ i := by exact_mod_cast i0
      have b : (i : ℝ) ≤ 10 := by exact_mod_cast i1
      constructor
      · positivity
      · linarith) hL
  exact ⟨_, hL, θ, C, h⟩

/-- a circle of radius 3 with doubles, evaluated at eleven parameters -/
example (jk : ℤ → Fp ℝ) (je : ℤ → ℕ → Fp ℝ) : ∃ L C, Cad.circleF (flR 53) 3 = .ok L ∧
    L.callF (flR 53) jk je (fun _ => 10) (fun _ i => (i : ℝ) / 10) = .ok C ∧ ∀ i, 0 ≤ i → i ≤ 10 → ∃ x y,
      (C ![i]).1 0 = some x ∧ (C ![i]).1 1 = some y ∧
      abs (Real.sqrt (x ^ 2 + y ^ 2) - |(3 : ℝ)|) ≤ Real.sqrt 2 * ((growth (2 ^ (-(53 : ℕ) : ℤ)) ^ 40 - 1) * |(3 : ℝ)|) :=
  C106_distance d53.1 d53.2 (flR_relErr 53) 3 jk je (by norm_num) fun i i0 i1 => by
    have a : (0 : ℝ) ≤ i := by exact_mod_cast i0
    have b : (i : ℝ) ≤ 10 := by exact_mod_cast i1
    constructor
    · positivity
    · linarith

end Ex
end Igakit
