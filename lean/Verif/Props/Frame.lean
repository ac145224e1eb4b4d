import Verif.Props.Revolve
import Verif.Props.Coons
import Mathlib.LinearAlgebra.Matrix.Adjugate

/-!
# Properties C96 and C97: constructions do not depend on the coordinate frame
-/

set_option linter.unusedSectionVars false

namespace Igakit
open Spec Transform

section field
variable {K : Type} [Field K] [LinearOrder K] [IsStrictOrderedRing K] {d : ℕ}

/-- the linear part of a matrix -/
def linPart (M : Mat4 K) : Matrix (Fin 3) (Fin 3) K := fun i j => M i.castSucc j.castSucc

theorem affPart_eq (M : Mat4 K) (v : Fin 3 → K) :
    affPart M v = (linPart M).mulVec v + affPart M 0 := by
  funext c
  rw [Pi.add_apply, Matrix.mulVec, dotProduct, Fin.sum_univ_three]
  simp [affPart, linPart]

/-- C96: moving an object with an affine map and extruding it along the moved direction gives the moved
extrusion: the same knots and the same control points. -/
theorem C96_extrude (h1 : d ≤ 2) {N : Nrb K d} (hv : N.Valid) {M : Mat4 K} (hM : IsAffine M)
    {displ displ' : ArrArg K} {axis axis' : Option ℤ} {t : Fin 3 → K} (ht : IsDispl displ axis t)
    (ht' : IsDispl displ' axis' ((linPart M).mulVec t)) :
    ∃ R, Cad.extrude N displ axis = .ok R ∧
      Cad.extrude (N.transform M) displ' axis' = .ok (R.transform M) := by
  have hT : ∀ {e : ArrArg K} {b : Option ℤ} {t : Fin 3 → K}, IsDispl e b t →
      Transform.translate 1 e b = .ok (transMat t) := by
    intro e b t ht
    unfold Transform.translate
    rw [transVec_ok ht, res_ok_bind, compose, mul_one]
    rfl
  have hex : ∀ {N : Nrb K d} {e : ArrArg K} {b : Option ℤ} {t : Fin 3 → K}, N.Valid → IsDispl e b t →
      Cad.extrude N e b = .ok (N.stack 2 4 uk (fun idx j c =>
        if j = 0 then N.P idx c else (N.transform (transMat t)).P idx c)) := by
    intro N e b t hv ht
    unfold Cad.extrude
    rw [pyAssert_ok h1, res_ok_bind, hT ht, res_ok_bind]
    exact ctor_netWith N h1 (valid_len hv) (fun a => (hv a).one_le) rfl (fun _ => rfl) (by norm_num)
      (by norm_num) _
  have hv' : (N.transform M).Valid := hv
  refine ⟨_, hex hv ht, ?_⟩
  rw [hex hv' ht']
  congr 1
  unfold Nrb.stack Nrb.transform
  congr 1
  funext idx c
  obtain ⟨m0, m1, m2, m3⟩ := hM
  by_cases hc : c < 4
  · by_cases hj : idx (Fin.last d) = 0
    · simp [hj, hc]
    · interval_cases c <;>
        simp [hj, transMat, Matrix.one_apply, Matrix.mulVec, dotProduct, Fin.sum_univ_three, linPart,
          m0, m1, m2, m3] <;> ring
  · by_cases hj : idx (Fin.last d) = 0 <;> simp [hj, hc]

/-- C96: the same for `sweep`, whose trajectory is moved by the linear part only. -/
theorem C96_sweep (h1 : 1 ≤ d) (h2 : d ≤ 2) {S : Nrb K d} {T : Nrb K 1} (hS : S.Valid) (hT : T.Valid)
    {M : Mat4 K} (hM : IsAffine M) :
    ∃ R, Cad.sweep S T = .ok R ∧
      Cad.sweep (S.transform M) (T.transform (embed3 (linPart M))) = .ok (R.transform M) := by
  have hsw : ∀ {S : Nrb K d} {T : Nrb K 1}, S.Valid → T.Valid → Cad.sweep S T =
      .ok (S.stack (T.shape 0) (T.len 0) (T.U 0) (fun idx j c =>
        if c < 3 then (S.P idx c / S.weights idx + T.P ![j] c / T.weights ![j]) *
          (S.weights idx * T.weights ![j])
        else if c = 3 then S.weights idx * T.weights ![j] else 0)) := by
    intro S T hS hT
    have hdg : T.len 0 - T.shape 0 - 1 = T.degree 0 := by unfold Nrb.degree; ring
    unfold Cad.sweep
    rw [pyAssert_ok ⟨h1, h2⟩, res_ok_bind]
    refine ctor_netPair S h2 (valid_len hS) (fun a => (hS a).one_le) (l := T.len 0) (V := T.U 0) rfl (fun _ => rfl)
      (valid_len hT 0) ?_ _ (fun idx j => S.weights idx * T.weights ![j]) rfl (fun _ => rfl)
    rw [hdg]; exact (hT 0).one_le
  have hS' : (S.transform M).Valid := hS
  have hT' : (T.transform (embed3 (linPart M))).Valid := hT
  refine ⟨_, hsw hS hT, ?_⟩
  rw [hsw hS' hT']
  congr 1
  unfold Nrb.stack Nrb.transform Nrb.weights
  congr 1
  funext idx c
  obtain ⟨m0, m1, m2, m3⟩ := hM
  by_cases hc : c < 4
  · by_cases hw : S.P (Fin.init idx) 3 = 0
    · interval_cases c <;> simp [hw, embed3, linPart, m0, m1, m2, m3]
    · by_cases hw' : T.P ![idx (Fin.last d)] 3 = 0
      · interval_cases c <;> simp [hw', embed3, linPart, m0, m1, m2, m3]
      · interval_cases c <;> simp [embed3, linPart, m0, m1, m2, m3] <;> field_simp <;> ring
  · have : ¬ c < 3 := by omega
    have h3 : c ≠ 3 := by omega
    simp [hc, this, h3]

/-! ## Constructions that make their arguments compatible first -/

theorem transform_eval (N : Nrb K d) (M : Mat4 K) (x : Fin d → K) {k : ℕ} (hk : k < 4) :
    (N.transform M).eval x k = M ⟨k, hk⟩ 0 * N.eval x 0 + M ⟨k, hk⟩ 1 * N.eval x 1 +
      M ⟨k, hk⟩ 2 * N.eval x 2 + M ⟨k, hk⟩ 3 * N.eval x 3 := by
  have := (C21_transform_homogeneous N M x).1 ⟨k, hk⟩
  rw [Fin.sum_univ_four] at this
  exact this

/-- C97: the ruled object between moved objects is the moved ruled object, for every matrix, also
projective ones; uninitialised memory may differ in the two calls.  (As `C35_ruled_partial`: for inputs
that `compat` treats correctly.) -/
theorem C97_ruled_partial {eps : K} (heps : 0 < eps) (M1 M2 M1' M2' : Fin 2 → Fin (d + 1) → Mem K d)
    (hd : d + 1 ≤ 2) {N1 N2 : Nrb K (d + 1)} (hv1 : N1.Valid) (hv2 : N2.Valid)
    (hcomp : ∀ a, Compatible eps ![N1, N2] a (min (N1.lo a) (N2.lo a)) (max (N1.hi a) (N2.hi a)))
    (M : Mat4 K) :
    ∃ R R', Cad.ruled eps M1 M2 N1 N2 = .ok R ∧
      Cad.ruled eps M1' M2' (N1.transform M) (N2.transform M) = .ok R' ∧ R.Valid ∧ R'.Valid ∧
      (∀ a, R'.lo a = R.lo a ∧ R'.hi a = R.hi a ∧ R'.degree a = R.degree a) ∧
      ∀ x, R.InDom x → ∀ k < 4, R'.eval x k = (R.transform M).eval x k := by
  have hcomp' : ∀ a, Compatible eps ![N1.transform M, N2.transform M] a
      (min (N1.lo a) (N2.lo a)) (max (N1.hi a) (N2.hi a)) := by
    intro a
    obtain ⟨c1, c2, c3, c4, c5⟩ := hcomp a
    refine ⟨fun i => ?_, fun i => ?_, fun i => ?_, fun i j k l => ?_, fun i j => ?_⟩
    · have := c1 i; fin_cases i <;> exact this
    · have := c2 i; fin_cases i <;> exact this
    · have := c3 i; fin_cases i <;> exact this
    · have := c4 i j k l; fin_cases i <;> fin_cases j <;> exact this
    · have := c5 i j
      intro h
      have h' : ∀ k, (![N1, N2] k).degree a ≤ (![N1, N2] j).degree a := by
        intro k
        have := h k
        fin_cases j <;> fin_cases k <;> exact this
      have := this h'
      fin_cases i <;> fin_cases j <;> exact this
  obtain ⟨R, r1, r2, r3, r4, r5, r6, r7⟩ := C35_ruled_partial heps M1 M2 hd hv1 hv2
    (fun a => rfl) (fun a => rfl) hcomp
  have hv1' : (N1.transform M).Valid := hv1
  have hv2' : (N2.transform M).Valid := hv2
  obtain ⟨R', q1, q2, q3, q4, q5, q6, q7⟩ := C35_ruled_partial heps M1' M2' hd hv1' hv2'
    (c := fun a => min (N1.lo a) (N2.lo a)) (e := fun a => max (N1.hi a) (N2.hi a))
    (fun a => rfl) (fun a => rfl) hcomp'
  have hfr : ∀ a, R'.lo a = R.lo a ∧ R'.hi a = R.hi a ∧ R'.degree a = R.degree a := by
    intro a
    refine Fin.lastCases ?_ (fun b => ?_) a
    · rw [r3, r4, r5, q3, q4, q5]; exact ⟨rfl, rfl, rfl⟩
    · obtain ⟨s1, s2, s3⟩ := r6 b
      obtain ⟨t1, t2, t3⟩ := q6 b
      rw [s1, s2, s3, t1, t2, t3]
      exact ⟨rfl, rfl, rfl⟩
  refine ⟨R, R', r1, q1, r2, q2, hfr, ?_⟩
  intro x hx k hk
  have hx' : R'.InDom x := by
    intro a
    rw [(hfr a).1, (hfr a).2.1]
    exact hx a
  rw [q7 x hx' k hk, transform_eval R M x hk, r7 x hx 0 (by norm_num), r7 x hx 1 (by norm_num),
    r7 x hx 2 (by norm_num), r7 x hx 3 (by norm_num), transform_eval _ _ _ hk, transform_eval _ _ _ hk]
  have e : ∀ C : Nrb K (d + 1), (C.transform M).lo = C.lo ∧ (C.transform M).hi = C.hi :=
    fun C => ⟨rfl, rfl⟩
  simp only [(e _).1, (e _).2]
  ring

/-- C97: the Coons patch of moved curves is the moved Coons patch, for affine maps under which the
corners still pass the test, whatever the corner weights.  (As `C37_coons_partial`: for inputs that
`compat` treats correctly.) -/
theorem C97_coons_partial {eps : K} (heps : 0 < eps) (J J' : Cad.CoonsMem K) {C0 C1 : Fin 2 → Nrb K 1}
    (hC : CoonsCurves eps C0 C1) {M : Mat4 K} (hM : IsAffine M)
    (hgap : ∀ i j : Fin 2, ∀ k < 3, cornerGap C0 C1 i j k ≤ 1 / 10 ^ 15)
    (hgap' : ∀ i j : Fin 2, ∀ k < 3, cornerGap (fun i => (C0 i).transform M)
      (fun i => (C1 i).transform M) i j k ≤ 1 / 10 ^ 15)
    (hw : ∀ i j, (C1 i).eval ((C1 i).endParam j) 3 ≠ 0) :
    ∃ R R', Cad.coons eps J (C0 0) (C0 1) (C1 0) (C1 1) = .ok R ∧
      Cad.coons eps J' ((C0 0).transform M) ((C0 1).transform M) ((C1 0).transform M)
        ((C1 1).transform M) = .ok R' ∧ R.Valid ∧ R'.Valid ∧
      (∀ a, R'.lo a = R.lo a ∧ R'.hi a = R.hi a) ∧
      ∀ x, R.InDom x → ∀ k < 4, R'.eval x k = (R.transform M).eval x k := by
  have hv0' : ∀ i, ((C0 i).transform M).Valid := hC.valid0
  have hv1' : ∀ i, ((C1 i).transform M).Valid := hC.valid1
  have hp0 : Compatible eps (fun i => (C0 i).transform M) 0 (min ((C0 0).lo 0) ((C0 1).lo 0))
      (max ((C0 0).hi 0) ((C0 1).hi 0)) :=
    ⟨hC.pair0.left, hC.pair0.right, hC.pair0.mult, hC.pair0.sep, hC.pair0.jump⟩
  have hp1 : Compatible eps (fun i => (C1 i).transform M) 0 (min ((C1 0).lo 0) ((C1 1).lo 0))
      (max ((C1 0).hi 0) ((C1 1).hi 0)) :=
    ⟨hC.pair1.left, hC.pair1.right, hC.pair1.mult, hC.pair1.sep, hC.pair1.jump⟩
  obtain ⟨R, r1, r2, r3, r4, r5, r6, r7, r8⟩ := coons_formula heps J hC.valid0 hC.valid1 rfl rfl rfl rfl
    hC.pair0 hC.pair1 hgap
  obtain ⟨R', q1, q2, q3, q4, q5, q6, q7, q8⟩ := coons_formula heps J' (C0 := fun i => (C0 i).transform M)
    (C1 := fun i => (C1 i).transform M) hv0' hv1' (c0 := min ((C0 0).lo 0) ((C0 1).lo 0))
    (e0 := max ((C0 0).hi 0) ((C0 1).hi 0)) (c1 := min ((C1 0).lo 0) ((C1 1).lo 0))
    (e1 := max ((C1 0).hi 0) ((C1 1).hi 0)) rfl rfl rfl rfl hp0 hp1 hgap'
  have hfr : ∀ a, R'.lo a = R.lo a ∧ R'.hi a = R.hi a := by
    intro a
    fin_cases a
    · exact ⟨q4.trans r4.symm, q5.trans r5.symm⟩
    · exact ⟨q6.trans r6.symm, q7.trans r7.symm⟩
  refine ⟨R, R', r1, q1, r2, q2, hfr, ?_⟩
  intro x hx k hk
  have hx' : R'.InDom x := by
    intro a
    rw [(hfr a).1, (hfr a).2]
    exact hx a
  have hend : ∀ i j, ((C1 i).transform M).endCoord j k = M ⟨k, hk⟩ 0 * (C1 i).endCoord j 0 +
      M ⟨k, hk⟩ 1 * (C1 i).endCoord j 1 + M ⟨k, hk⟩ 2 * (C1 i).endCoord j 2 +
      M ⟨k, hk⟩ 3 * (C1 i).endCoord j 3 := by
    intro i j
    have hw' := hw i j
    have e3 : ((C1 i).transform M).eval ((C1 i).endParam j) 3 = (C1 i).eval ((C1 i).endParam j) 3 := by
      rw [transform_eval _ _ _ (by norm_num)]
      obtain ⟨m0, m1, m2, m3⟩ := hM
      change M 3 0 * _ + M 3 1 * _ + M 3 2 * _ + M 3 3 * _ = _
      rw [m0, m1, m2, m3]
      ring
    by_cases h3 : k = 3
    · subst h3
      obtain ⟨m0, m1, m2, m3⟩ := hM
      change (1 : K) = M 3 0 * _ + M 3 1 * _ + M 3 2 * _ + M 3 3 * 1
      rw [m0, m1, m2, m3]
      ring
    · simp only [Nrb.endCoord, if_neg h3]
      change ((C1 i).transform M).eval ((C1 i).endParam j) k / ((C1 i).transform M).eval ((C1 i).endParam j) 3 = _
      rw [e3, transform_eval _ _ _ hk]
      simp [Nrb.proj]
      field_simp
  rw [transform_eval R M x hk, r8 x hx _ _ rfl rfl 0 (by norm_num), r8 x hx _ _ rfl rfl 1 (by norm_num),
    r8 x hx _ _ rfl rfl 2 (by norm_num), r8 x hx _ _ rfl rfl 3 (by norm_num),
    q8 x hx' _ _ rfl rfl k hk, (hfr 0).1, (hfr 0).2, (hfr 1).1, (hfr 1).2]
  simp only [hend, transform_eval _ _ _ hk]
  change _ + _ + (_ + _) - _ = _
  have e : ∀ (C : Nrb K 1), (C.transform M).lo = C.lo ∧ (C.transform M).hi = C.hi := fun C => ⟨rfl, rfl⟩
  simp only [(e _).1, (e _).2]
  ring

end field

/-! ## Revolution -/

theorem circleObj_eval {s : ℕ} {C : ℤ → Fin 4 → ℝ} {N : Nrb ℝ 1} (h : Cad.circleObj s C = .ok N)
    (u : ℝ) (c : Fin 4) :
    N.eval ![u] (c : ℕ) = curve (2 * (s : ℤ)) 2 (Cad.circleKnots s) (fun k => C k c) u := by
  have h' : Cad.circleObj s C = .ok _ :=
    ctor_homogeneous (sh := fun _ => 2 * (s : ℤ) + 1) (len := fun _ => 2 * ((s : ℤ) + 1) + 2)
      (by norm_num) (by norm_num) (fun _ => rfl) (fun _ => by omega) rfl (fun _ => by omega)
  obtain rfl := Except.ok.inj (h'.symm.trans h)
  set N : Nrb ℝ 1 := (Nrb.mk _ _ _ _ _) with hN
  have hn : N.n 0 = 2 * (s : ℤ) := by show 2 * (s : ℤ) + 1 - 1 = _; ring
  have hdeg : N.degree 0 = ((2 : ℕ) : ℤ) := by
    show 2 * ((s : ℤ) + 1) + 2 - 1 - (2 * (s : ℤ) + 1 - 1) - 1 = _; push_cast; ring
  have hU : N.U 0 = Cad.circleKnots s := rfl
  rw [← curve_comp, hn, hdeg, hU]
  congr 1
  funext j
  rw [hN]
  have hc : (((c : ℕ) : ℤ)).toNat < 4 := by have := c.2; omega
  simp only [List.ofFn_succ, List.ofFn_zero]
  simp

/-- the arc does not depend on uninitialised memory -/
theorem circle_memory (junk junk' : ℤ → Fin 4 → ℝ) {r : ℝ} {angle : AngleArg}
    (h0 : (angles angle).1 ≠ (angles angle).2)
    (h4 : |(angles angle).2 - (angles angle).1| < 4 * Real.pi) {A A' : Nrb ℝ 1}
    (hA : Cad.circle junk r none angle = .ok A) (hA' : Cad.circle junk' r none angle = .ok A') :
    A'.len = A.len ∧ A'.U = A.U ∧ ∀ u (c : Fin 4), A'.eval ![u] (c : ℕ) = A.eval ![u] (c : ℕ) := by
  have hcase : A' = A ∨ ∃ s C C', Cad.circleObj s C = .ok A ∧ Cad.circleObj s C' = .ok A' ∧
      ∀ k, 0 ≤ k → k ≤ 2 * (s : ℤ) → C' k = C k := by
    by_cases hang : angle = .none
    · subst hang
      left
      exact (Except.ok.inj (hA.symm.trans hA')).symm
    · right
      rw [← arcEnds_eq] at h0 h4
      have hsw : (Cad.arcEnds angle).2 - (Cad.arcEnds angle).1 ≠ 0 := sub_ne_zero.mpr h0.symm
      have hs := arcSpans_pos hsw
      have hα := arcSpans_alpha hsw h4
      have hcos : Real.cos (((Cad.arcEnds angle).2 - (Cad.arcEnds angle).1) /
          (2 * (Cad.arcSpans ((Cad.arcEnds angle).2 - (Cad.arcEnds angle).1) : ℝ))) ≠ 0 :=
        (Real.cos_pos_of_mem_Ioo ⟨by linarith [(abs_lt.mp hα).1], (abs_lt.mp hα).2⟩).ne'
      have main : ∀ junk A, Cad.circle junk r none angle = .ok A → ∃ C,
          Cad.circleObj (Cad.arcSpans ((Cad.arcEnds angle).2 - (Cad.arcEnds angle).1)) C = .ok A ∧
          ∀ k, 0 ≤ k → k ≤ 2 * ((Cad.arcSpans ((Cad.arcEnds angle).2 - (Cad.arcEnds angle).1) : ℕ) : ℤ) →
            C k = arcPt r (Cad.arcEnds angle).1 (((Cad.arcEnds angle).2 - (Cad.arcEnds angle).1) /
              (2 * (Cad.arcSpans ((Cad.arcEnds angle).2 - (Cad.arcEnds angle).1) : ℝ))) k := by
        intro junk A hA
        obtain ⟨C, hC, hCk⟩ := arcNet_eq junk (r := r) (start := (Cad.arcEnds angle).1) hs hcos
        refine ⟨C, ?_, hCk⟩
        have hd : Cad.circleData junk r angle = .ok
            (Cad.arcSpans ((Cad.arcEnds angle).2 - (Cad.arcEnds angle).1), C) := by
          unfold Cad.circleData
          cases angle with
          | none => exact absurd rfl hang
          | one a =>
            dsimp only
            rw [if_neg (by omega : ¬ Cad.arcSpans _ = 0), hC]
            rfl
          | pair a b =>
            dsimp only
            rw [if_neg (by omega : ¬ Cad.arcSpans _ = 0), hC]
            rfl
        unfold Cad.circle at hA
        rw [hd, res_ok_bind] at hA
        exact hA
      obtain ⟨C, hC, hk⟩ := main junk A hA
      obtain ⟨C', hC', hk'⟩ := main junk' A' hA'
      exact ⟨_, C, C', hC, hC', fun k k0 k1 => by rw [hk k k0 k1, hk' k k0 k1]⟩
  rcases hcase with h | ⟨s, C, C', hC, hC', hk⟩
  · rw [h]; exact ⟨rfl, rfl, fun _ _ => rfl⟩
  · have hform : ∀ C, Cad.circleObj s C = .ok _ := fun C =>
      ctor_homogeneous (sh := fun _ => 2 * (s : ℤ) + 1) (len := fun _ => 2 * ((s : ℤ) + 1) + 2)
        (by norm_num) (by norm_num) (fun _ => rfl) (fun _ => by omega) rfl (fun _ => by omega)
    have e := Except.ok.inj ((hform C).symm.trans hC)
    have e' := Except.ok.inj ((hform C').symm.trans hC')
    refine ⟨by rw [← e, ← e'], by rw [← e, ← e'], ?_⟩
    intro u c
    rw [circleObj_eval hC, circleObj_eval hC']
    exact curve_congr (fun _ _ _ => rfl) (fun j j0 j1 => by rw [hk j j0 j1]) u

theorem det_sq {Q : Matrix (Fin 3) (Fin 3) ℝ} (hQ : Q * Q.transpose = 1) : Q.det * Q.det = 1 := by
  have := congrArg Matrix.det hQ
  rwa [Matrix.det_mul, Matrix.det_transpose, Matrix.det_one] at this

/-- an isometry carries cross products over, up to the sign of its determinant -/
theorem cross_rot {Q : Matrix (Fin 3) (Fin 3) ℝ} (hQ : Q * Q.transpose = 1)
    (v q : Fin 3 → ℝ) :
    (![Q.mulVec v 1 * Q.mulVec q 2 - Q.mulVec v 2 * Q.mulVec q 1,
       Q.mulVec v 2 * Q.mulVec q 0 - Q.mulVec v 0 * Q.mulVec q 2,
       Q.mulVec v 0 * Q.mulVec q 1 - Q.mulVec v 1 * Q.mulVec q 0] : Fin 3 → ℝ) =
      Q.det • Q.mulVec ![v 1 * q 2 - v 2 * q 1, v 2 * q 0 - v 0 * q 2, v 0 * q 1 - v 1 * q 0] := by
  have hadj : Q.adjugate = Q.det • Q.transpose := by
    have h2 : Q.transpose * Q = 1 := mul_eq_one_comm.mp hQ
    calc Q.adjugate = (Q.transpose * Q) * Q.adjugate := by rw [h2, one_mul]
      _ = Q.det • Q.transpose := by rw [mul_assoc, Matrix.mul_adjugate, Matrix.mul_smul, mul_one]
  rw [Matrix.adjugate_fin_three] at hadj
  have hh : ∀ i j, _ = Q.det * Q j i := fun i j => congrFun (congrFun hadj i) j
  have a00 := hh 0 0
  have a01 := hh 0 1
  have a02 := hh 0 2
  have a10 := hh 1 0
  have a11 := hh 1 1
  have a12 := hh 1 2
  have a20 := hh 2 0
  have a21 := hh 2 1
  have a22 := hh 2 2
  simp at a00 a01 a02 a10 a11 a12 a20 a21 a22
  funext i
  simp only [Matrix.mulVec, dotProduct, Fin.sum_univ_three, Pi.smul_apply, smul_eq_mul]
  fin_cases i <;> simp only [mul_add, ← mul_assoc] <;> simp
  · rw [← a00, ← a10, ← a20]; ring
  · rw [← a01, ← a11, ← a21]; ring
  · rw [← a02, ← a12, ← a22]; ring

theorem dot_rot {Q : Matrix (Fin 3) (Fin 3) ℝ} (hQ : Q * Q.transpose = 1) (v q : Fin 3 → ℝ) :
    Q.mulVec v 0 * Q.mulVec q 0 + Q.mulVec v 1 * Q.mulVec q 1 + Q.mulVec v 2 * Q.mulVec q 2 =
      v 0 * q 0 + v 1 * q 1 + v 2 * q 2 := by
  have h2 : Q.transpose * Q = 1 := mul_eq_one_comm.mp hQ
  have h : (Q.mulVec v) ⬝ᵥ (Q.mulVec q) = v ⬝ᵥ q := by
    rw [Matrix.dotProduct_mulVec, Matrix.vecMul_mulVec, h2, Matrix.vecMul_one]
  simpa [dotProduct, Fin.sum_univ_three] using h

theorem rotVec_eq (a : ℝ) (v q : Fin 3 → ℝ) : rotVec a v q = Real.cos a • q +
      Real.sin a • ![v 1 * q 2 - v 2 * q 1, v 2 * q 0 - v 0 * q 2, v 0 * q 1 - v 1 * q 0] +
      ((1 - Real.cos a) * (v 0 * q 0 + v 1 * q 1 + v 2 * q 2)) • v := by
  funext i
  simp only [rotVec, Pi.add_apply, Pi.smul_apply, smul_eq_mul]

theorem rotVec_rot {Q : Matrix (Fin 3) (Fin 3) ℝ} (hQ : Q * Q.transpose = 1) (a : ℝ)
    (v q : Fin 3 → ℝ) : rotVec a (Q.det • Q.mulVec v) (Q.mulVec q) = Q.mulVec (rotVec a v q) := by
  have hc := cross_rot hQ v q
  have hd := det_sq hQ
  have hdot := dot_rot hQ v q
  rw [rotVec_eq, rotVec_eq, Matrix.mulVec_add, Matrix.mulVec_add, Matrix.mulVec_smul, Matrix.mulVec_smul,
    Matrix.mulVec_smul]
  have e1 : (![(Q.det • Q.mulVec v) 1 * Q.mulVec q 2 - (Q.det • Q.mulVec v) 2 * Q.mulVec q 1,
      (Q.det • Q.mulVec v) 2 * Q.mulVec q 0 - (Q.det • Q.mulVec v) 0 * Q.mulVec q 2,
      (Q.det • Q.mulVec v) 0 * Q.mulVec q 1 - (Q.det • Q.mulVec v) 1 * Q.mulVec q 0] : Fin 3 → ℝ) =
      Q.mulVec ![v 1 * q 2 - v 2 * q 1, v 2 * q 0 - v 0 * q 2, v 0 * q 1 - v 1 * q 0] := by
    rw [← one_smul ℝ (Q.mulVec ![_, _, _]), ← hd, mul_smul, ← hc]
    funext i
    simp only [Pi.smul_apply, smul_eq_mul]
    fin_cases i <;> simp <;> ring
  have e2 : (Q.det • Q.mulVec v) 0 * Q.mulVec q 0 + (Q.det • Q.mulVec v) 1 * Q.mulVec q 1 +
      (Q.det • Q.mulVec v) 2 * Q.mulVec q 2 = Q.det * (v 0 * q 0 + v 1 * q 1 + v 2 * q 2) := by
    rw [← hdot]
    simp only [Pi.smul_apply, smul_eq_mul]
    ring
  rw [e1, e2, smul_smul]
  congr 2
  linear_combination ((1 - Real.cos a) * (v 0 * q 0 + v 1 * q 1 + v 2 * q 2)) * hd

/-- C96: revolving a moved object about the moved axis gives the moved object of revolution, for every
isometry of space: with the same knots, weights and points at every parameter.  A reflection turns the
sense of rotation round, hence the determinant (which is 1 or -1) in front of the axis.
The frame that `revolve` computes from the axis plays no role, nor does uninitialised memory. -/
theorem C96_revolve {d : ℕ} (junk junk' : ℤ → Fin 4 → ℝ) (h1 : d ≤ 2) {N : Nrb ℝ d} (hv : N.Valid)
    {M : Mat4 ℝ} (hM : IsAffine M) (hQ : linPart M * (linPart M).transpose = 1)
    {point point' : ArrArg ℝ} {p : Fin 3 → ℝ} (hp : IsDispl point none p)
    (hp' : IsDispl point' none (affPart M p)) {axis axis' : AxisArg} {v : Fin 3 → ℝ}
    (hax : IsAxis axis v) (hax' : IsAxis axis' ((linPart M).det • (linPart M).mulVec v)) (hz : v 2 ≠ -1)
    (hz' : (linPart M).det * (linPart M).mulVec v 2 ≠ -1) (angle : AngleArg)
    (h0 : (angles angle).1 ≠ (angles angle).2)
    (h4 : |(angles angle).2 - (angles angle).1| < 4 * Real.pi) :
    ∃ R R', Cad.revolve junk N point axis angle = .ok R ∧
      Cad.revolve junk' (N.transform M) point' axis' angle = .ok R' ∧
      (∀ a, R'.len a = R.len a ∧ R'.U a = R.U a ∧ R'.degree a = R.degree a) ∧
      ∀ x, R.InDom x → N.eval (Fin.init x) 3 ≠ 0 →
        R'.eval x 3 = R.eval x 3 ∧ R.eval x 3 ≠ 0 ∧ R'.point x = affPart M (R.point x) := by
  obtain ⟨arc, harc, hrun⟩ := C33_circle junk 1 .origin angle h0 h4
  obtain ⟨arc', harc', hrun'⟩ := C33_circle junk' 1 .origin angle h0 h4
  obtain ⟨ml, mU, me⟩ := circle_memory junk junk' h0 h4 harc harc'
  obtain ⟨θ, hθ, e0, e1, m0, m1, hpt⟩ := hrun.run
  have hpt' : ∀ u, 0 ≤ u → u ≤ 1 → arc'.point ![u] = circlePoint 0 1 (θ u) := by
    intro u u0 u1
    rw [← hpt u u0 u1]
    funext c
    have h3 := me u 3
    have hc := me u c.castSucc
    unfold Nrb.point Nrb.proj
    change arc'.eval ![u] (c : ℕ) / arc'.eval ![u] 3 = _
    change arc'.eval ![u] 3 = _ at h3
    rw [h3]
    change arc'.eval ![u] (c : ℕ) = _ at hc
    rw [hc]
    rfl
  obtain ⟨R, r1, r2, r3, r4, r5, r6, r7, r8⟩ := revolve_arc h1 hv hp hax hz harc hrun hpt
  have hv' : (N.transform M).Valid := hv
  obtain ⟨R', q1, q2, q3, q4, q5, q6, q7, q8⟩ := revolve_arc h1 hv' hp' hax' hz' harc' hrun' hpt'
  have hfr : ∀ a, R'.len a = R.len a ∧ R'.U a = R.U a ∧ R'.degree a = R.degree a := by
    intro a
    refine Fin.lastCases ?_ (fun b => ?_) a
    · rw [q6, r6, q7, r7, q3, r3, ml, mU]; exact ⟨rfl, rfl, rfl⟩
    · refine ⟨by rw [q2.len, r2.len]; rfl, funext fun j => by rw [q2.knots, r2.knots]; rfl,
        by rw [q2.degree, r2.degree]; rfl⟩
  refine ⟨R, R', r1, q1, hfr, ?_⟩
  intro x hx hw
  have hx' : R'.InDom x := by
    intro a
    have := hx a
    unfold Nrb.lo Nrb.hi at this ⊢
    rw [(hfr a).1, (hfr a).2.1, (hfr a).2.2]
    exact this
  obtain ⟨a1, a2, _⟩ := C21_transform_affine N hM hw
  obtain ⟨s1, s2, s3⟩ := r8 x hx hw
  obtain ⟨t1, t2, t3⟩ := q8 x hx' (by rw [a2]; exact hw)
  refine ⟨?_, s2, ?_⟩
  · rw [t1, s1, a2]
    congr 1
    exact me _ 3
  · rw [t3, s3, a1, affPart_eq M (N.point _), affPart_eq M p, affPart_eq M (p + _),
      add_sub_add_right_eq_sub, ← Matrix.mulVec_sub, rotVec_rot hQ, Matrix.mulVec_add]
    abel

/-! ## examples -/

namespace Ex

/-- a shear with a translation -/
def shear : Mat4 ℚ := !![1, 2, 0, 5; 0, 1, 3, -1; 1 / 2, 0, 1, 7; 0, 0, 0, 1]

theorem shear_affine : IsAffine shear := by unfold IsAffine; decide +kernel

example : ∃ R, Cad.extrude S (.vec [1, 2, 3]) none = .ok R ∧
    Cad.extrude (S.transform shear) (.vec [5, 11, 7 / 2]) none = .ok (R.transform shear) := by
  refine C96_extrude (by norm_num) S_valid shear_affine (t := ![1, 2, 3]) ?_ ?_
  · have := IsDispl.vec (K := ℚ) [1, 2, 3] (by norm_num)
    have e : (fun i : Fin 3 => ([1, 2, 3] : List ℚ).getD i 0) = ![1, 2, 3] := by decide +kernel
    rwa [e] at this
  · have := IsDispl.vec (K := ℚ) [5, 11, 7 / 2] (by norm_num)
    have e : (fun i : Fin 3 => ([5, 11, 7 / 2] : List ℚ).getD i 0) = (linPart shear).mulVec ![1, 2, 3] := by
      decide +kernel
    rwa [e] at this

example : ∃ R, Cad.sweep S T1 = .ok R ∧
    Cad.sweep (S.transform shear) (T1.transform (embed3 (linPart shear))) = .ok (R.transform shear) :=
  C96_sweep (by norm_num) (by norm_num) S_valid T1_valid shear_affine

example := C97_ruled_partial (eps := 1 / 1000) (by norm_num) (fun _ _ => ⟨fun _ => 7, fun _ _ _ => 9, fun _ _ => 5⟩)
  (fun _ _ => ⟨fun _ => 8, fun _ _ _ => 10, fun _ _ => 11⟩) (fun _ _ => ⟨fun _ => 1, fun _ _ _ => 2, fun _ _ => 3⟩)
  (fun _ _ => ⟨fun _ => 4, fun _ _ _ => 5, fun _ _ => 6⟩) (d := 0) (by norm_num) K1_valid K2_valid
  (fun a => by
    fin_cases a
    have e1 : min (K1.lo 0) (K2.lo 0) = 0 := by decide +kernel
    have e2 : max (K1.hi 0) (K2.hi 0) = 3 := by decide +kernel
    show Compatible _ _ 0 (min (K1.lo 0) (K2.lo 0)) (max (K1.hi 0) (K2.hi 0))
    rw [e1, e2]
    exact K_compatible) shear

/-- weights 2 at all corners -/
example (J J' : Cad.CoonsMem ℚ) := C97_coons_partial (by norm_num) J J' bd_curves2 shear_affine
  (fun i j k hk => by rw [bd_gap2 i j k hk]; norm_num)
  (fun i j k hk => by
    have : ∀ i j : Fin 2, ∀ k < 3, cornerGap (fun i => (bd0 2 i).transform shear)
      (fun i => (bd1 2 0 i).transform shear) i j k = 0 := by decide +kernel
    rw [this i j k hk]; norm_num) (by decide +kernel)

/-- a quarter turn about the first axis, followed by a reflection and a translation -/
noncomputable def turn : Mat4 ℝ := !![-1, 0, 0, 4; 0, 0, -1, 5; 0, 1, 0, 6; 0, 0, 0, 1]

theorem turn_ortho : linPart turn * (linPart turn).transpose = 1 := by
  ext i j
  fin_cases i <;> fin_cases j <;> simp [Matrix.mul_apply, Fin.sum_univ_three, linPart, turn]

theorem turn_det : (linPart turn).det = -1 := by
  rw [Matrix.det_fin_three]
  simp [linPart, turn]

/-- a line turned about an oblique axis, and its mirror image -/
example (junk junk' : ℤ → Fin 4 → ℝ) : ∃ (N : Nrb ℝ 1) (R R' : Nrb ℝ 2),
    Cad.line (.vec [1, 2]) (.scalar 5) = .ok N ∧
    Cad.revolve junk N (.vec [0, 1]) (.vec [3, 0, -4]) (.one (-2)) = .ok R ∧
    Cad.revolve junk' (N.transform turn) (.vec [4, 5, 7]) (.vec [3, -4]) (.one (-2)) = .ok R' ∧
    R'.point ![1 / 2, 1] = affPart turn (R.point ![1 / 2, 1]) := by
  obtain ⟨N, hN, hU, hN'⟩ := C34_line (K := ℝ) (.vec [1, 2]) (.scalar 5) (by simp [ArrArg.toList])
    (by simp [ArrArg.toList])
  have hd : IsDispl (.vec [0, 1]) none (![0, 1, 0] : Fin 3 → ℝ) := by
    have := IsDispl.vec (K := ℝ) [0, 1] (by norm_num)
    have e : (fun i : Fin 3 => ([0, 1] : List ℝ).getD i 0) = ![0, 1, 0] := by
      funext i; fin_cases i <;> rfl
    rwa [e] at this
  have hd' : IsDispl (.vec [4, 5, 7]) none (affPart turn ![0, 1, 0]) := by
    have := IsDispl.vec (K := ℝ) [4, 5, 7] (by norm_num)
    have e : (fun i : Fin 3 => ([4, 5, 7] : List ℝ).getD i 0) = affPart turn ![0, 1, 0] := by
      funext i; fin_cases i <;> simp [affPart, turn]; norm_num
    rwa [e] at this
  have ev : (linPart turn).det • (linPart turn).mulVec ![3 / 5, 0, -(4 / 5)] = ![3 / 5, -(4 / 5), 0] := by
    rw [turn_det]
    funext i
    fin_cases i <;> simp [Matrix.mulVec, dotProduct, Fin.sum_univ_three, linPart, turn]
  have hax' : IsAxis (.vec [3, -4]) ((linPart turn).det • (linPart turn).mulVec ![3 / 5, 0, -(4 / 5)]) := by
    rw [ev]
    exact IsAxis.vec _ _ 5 ⟨by simp, by simp⟩ (by norm_num) (by simp; norm_num)
      (by intro i; fin_cases i <;> simp <;> norm_num)
  have ev2 := congrFun ev 2
  obtain ⟨R, R', hR, hR', hf, h⟩ := C96_revolve junk junk' (by norm_num) hU.valid (M := turn) (by simp [IsAffine, turn])
    turn_ortho hd hd' oblique_axis hax' (by simp; norm_num) (by
      change ((linPart turn).det • (linPart turn).mulVec ![3 / 5, 0, -(4 / 5)]) 2 ≠ -1
      rw [ev]; simp) (.one (-2)) (by simp [angles]) (by
      show |(-2 : ℝ) - 0| < _
      rw [sub_zero, abs_neg, abs_of_pos (by norm_num)]
      linarith [Real.pi_gt_three])
  refine ⟨N, R, R', hN, hR, hR', ?_⟩
  obtain ⟨R2, hR2, hE, _, hlo, hhi, _⟩ := C36_revolve junk (by norm_num) hU.valid hd oblique_axis
    (by simp; norm_num) (.one (-2)) (by simp [angles]) (by
      show |(-2 : ℝ) - 0| < _
      rw [sub_zero, abs_neg, abs_of_pos (by norm_num)]
      linarith [Real.pi_gt_three])
  obtain rfl := Except.ok.inj (hR.symm.trans hR2)
  have hi : (Fin.init (![1 / 2, 1] : Fin 2 → ℝ)) = ![1 / 2] := by
    funext i; fin_cases i; rfl
  have hl : (![1 / 2, 1] : Fin 2 → ℝ) (Fin.last 1) = 1 := rfl
  obtain ⟨w, _⟩ := hN' (1 / 2) (by norm_num) (by norm_num)
  have hx : R.InDom ![1 / 2, 1] := hE.inDom (by
      rw [hi]; intro a; rw [hU.lo, hU.hi]; fin_cases a; simp; norm_num) (by rw [hl, hlo]; norm_num)
      (by rw [hl, hhi])
  exact (h _ hx (by rw [hi, w]; norm_num)).2.2

/-- lower and upper side with a gap of `10⁻¹⁵` at one corner -/
theorem bd_curves_gap : CoonsCurves (1 / 1000) (bd0 1) (bd1 1 (1 / 10 ^ 15)) := by
  refine ⟨fun i => ?_, fun i => ?_, ?_, ?_⟩
  · apply valid_of <;> revert i <;> decide +kernel
  · apply valid_of <;> revert i <;> decide +kernel
  · apply compatible_of <;> decide +kernel
  · apply compatible_of <;> decide +kernel

/-- twice the size -/
def double : Mat4 ℚ := !![2, 0, 0, 0; 0, 2, 0, 0; 0, 0, 2, 0; 0, 0, 0, 1]

end Ex

/-- C97: the unit of length matters to `coons`: there are four curves that it accepts, but refuses after
they have been doubled in size, since the corners are compared with a fixed tolerance. -/
theorem C97_coons_unit (J J' : Cad.CoonsMem ℚ) :
    IsAffine Ex.double ∧
    (∃ R, Cad.coons (1 / 1000) J (Ex.bd0 1 0) (Ex.bd0 1 1) (Ex.bd1 1 (1 / 10 ^ 15) 0)
      (Ex.bd1 1 (1 / 10 ^ 15) 1) = .ok R) ∧
    Cad.coons (1 / 1000) J' ((Ex.bd0 1 0).transform Ex.double) ((Ex.bd0 1 1).transform Ex.double)
      ((Ex.bd1 1 (1 / 10 ^ 15) 0).transform Ex.double) ((Ex.bd1 1 (1 / 10 ^ 15) 1).transform Ex.double) =
      .error .assertion := by
  have hC := Ex.bd_curves_gap
  refine ⟨by unfold IsAffine; decide +kernel, ?_, ?_⟩
  · obtain ⟨R, h, _⟩ := coons_formula (eps := (1 / 1000 : ℚ)) (by norm_num) J hC.valid0 hC.valid1 rfl rfl rfl rfl
      hC.pair0 hC.pair1 (by decide +kernel)
    exact ⟨R, h⟩
  · exact C37_rejects (C0 := fun i => (Ex.bd0 1 i).transform Ex.double)
      (C1 := fun i => (Ex.bd1 1 (1 / 10 ^ 15) i).transform Ex.double) (by norm_num) J'
      ⟨hC.valid0, hC.valid1,
        ⟨hC.pair0.left, hC.pair0.right, hC.pair0.mult, hC.pair0.sep, hC.pair0.jump⟩,
        ⟨hC.pair1.left, hC.pair1.right, hC.pair1.mult, hC.pair1.sep, hC.pair1.jump⟩⟩
      (i := 0) (j := 0) (k := 1) (by norm_num) (by decide +kernel)

end Igakit
