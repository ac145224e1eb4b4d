import Verif.Proofs.Built

/-!
# Property C98: building commutes with refinement and with sections
-/

set_option linter.unusedSectionVars false

namespace Igakit
open Spec Transform

section field
variable {K : Type} [Field K] [LinearOrder K] [IsStrictOrderedRing K] {d : ℕ}

theorem canAdd_zero (N : Nrb K d) (eps : K) (a : Fin d) : N.CanAdd eps a 0 :=
  ⟨fun x h => by simp at h, fun x h => by simp at h, fun x h => by simp at h, fun x h => by simp at h,
    fun x h => by simp at h⟩

theorem uk_get (j : ℤ) (h0 : 0 ≤ j) (h3 : j ≤ 3) : (uk j : K) = if j < 2 then 0 else 1 := by
  obtain rfl | rfl | rfl | rfl : j = 0 ∨ j = 1 ∨ j = 2 ∨ j = 3 := by omega
  all_goals simp [uk_zero, uk_one, uk_two, uk_three]

theorem uk_inner {R : Nrb K (d + 1)} (hs : R.shape (Fin.last d) = 2) (hl : R.len (Fin.last d) = 4)
    (hU : R.U (Fin.last d) = uk) : R.InnerMult (Fin.last d) := by
  intro x h1 h2
  have hd : R.degree (Fin.last d) = 1 := by unfold Nrb.degree; rw [hs, hl]; norm_num
  have e1 : R.lo (Fin.last d) = 0 := by unfold Nrb.lo; rw [hd, hU]; rfl
  have e2 : R.hi (Fin.last d) = 1 := by unfold Nrb.hi; rw [hd, hU, hl]; rfl
  rw [e1] at h1
  rw [e2] at h2
  have : R.multOf (Fin.last d) x = 0 := by
    unfold Nrb.multOf mult
    rw [Finset.card_eq_zero, Finset.filter_eq_empty_iff]
    intro i hi h
    rw [hl, Finset.mem_Icc] at hi
    rw [hU, uk_get i hi.1 (by omega)] at h
    split_ifs at h
    · exact absurd h h1.ne
    · exact absurd h h2.ne'
  rw [this, hd]
  norm_num

/-- the domain of an object built over a refined object -/
theorem built_dom {R R' : Nrb K (d + 1)} {N N' : Nrb K d} (hE : N.Extends R) (hE' : N'.Extends R')
    (h : N.SameMap N') (hlo : R'.lo (Fin.last d) = R.lo (Fin.last d))
    (hhi : R'.hi (Fin.last d) = R.hi (Fin.last d)) (x : Fin (d + 1) → K) (hx : R.InDom x) : R'.InDom x := by
  intro a
  refine Fin.lastCases ?_ (fun b => ?_) a
  · rw [hlo, hhi]; exact hx _
  · rw [hE'.lo, hE'.hi, h.lo, h.hi, ← hE.lo, ← hE.hi]; exact hx _

theorem same_last {R R' : Nrb K (d + 1)} (hs : R'.shape (Fin.last d) = R.shape (Fin.last d))
    (hl : R'.len (Fin.last d) = R.len (Fin.last d)) (hU : R'.U (Fin.last d) = R.U (Fin.last d)) :
    R'.lo (Fin.last d) = R.lo (Fin.last d) ∧ R'.hi (Fin.last d) = R.hi (Fin.last d) ∧
      R'.knots (Fin.last d) = R.knots (Fin.last d) := by
  have hd : R'.degree (Fin.last d) = R.degree (Fin.last d) := by unfold Nrb.degree; rw [hs, hl]
  refine ⟨?_, ?_, ?_⟩
  · unfold Nrb.lo; rw [hd, hU]
  · unfold Nrb.hi; rw [hd, hU, hl]
  · unfold Nrb.knots; rw [hU, hl]

/-- C98: refining an extruded object along the old axes gives, knot for knot and control point for control
point, the extrusion of the refined object.  The calls `p` and `q` add the same knots to the old axes. -/
theorem C98_extrude_refine {env : Env K} (heps : 0 < env.eps) (h1 : d ≤ 2) {N : Nrb K d} (hv : N.Valid)
    (hm : ∀ a, N.InnerMult a) {displ : ArrArg K} {axis : Option ℤ} {t : Fin 3 → K} (ht : IsDispl displ axis t)
    {p q : List (Call K)} (hp : ∀ c ∈ p, c.2.Refines (d + 1)) (hq : ∀ c ∈ q, c.2.Refines d)
    (hc : ∀ a, N.CanAdd env.eps a (addedAll a q)) (hpq : ∀ a : Fin d, addedAll a.castSucc p = addedAll a q)
    (hl : addedAll (Fin.last d) p = 0) :
    ∃ R R', Cad.extrude N displ axis = .ok R ∧ Cad.extrude (history env N q) displ axis = .ok R' ∧
      (history env R p).SameData R' := by
  obtain ⟨h2, i2⟩ := added_history heps q hv hm hq hc
  obtain ⟨R, r1, r2, r3, r4, r5⟩ := extrude_built h1 hv ht
  obtain ⟨R', q1, q2, q3, q4, q5⟩ := extrude_built h1 h2.valid ht
  obtain ⟨s1, s2, s3⟩ := same_last (q2.trans r2.symm) (q3.trans r3.symm) (q4.trans r4.symm)
  refine ⟨R, R', r1, q1, r5.refine heps hv hm hp hq hc hpq q5 (uk_inner r2 r3 r4) ?_ ?_ ?_ (fun _ _ _ => rfl)
    (built_dom r5.ext q5.ext h2.map s1 s2)⟩
  · rw [hl]; exact canAdd_zero _ _ _
  · rw [hl, q2, r2]; simp
  · rw [hl, s3, add_zero]

/-- C98: a section of an extruded object across an old axis is the extrusion of the section. -/
theorem C98_extrude_section {eps : K} (heps : 0 < eps) (je : ℤ → (Fin d → ℤ) → ℕ → K)
    (jf : ℤ → (Fin (d + 1) → ℤ) → ℕ → K) (h1 : d + 1 ≤ 2) {N : Nrb K (d + 1)} (hv : N.Valid)
    (hm : ∀ a, N.InnerMult a) {displ : ArrArg K} {axis : Option ℤ} {t : Fin 3 → K} (ht : IsDispl displ axis t)
    {a : Fin (d + 1)} {u : K} (hu : N.CanExtract eps a u) :
    ∃ X R Y R', N.extract eps je ((a : ℕ) : ℤ) u = .ok X ∧ Cad.extrude X displ axis = .ok R' ∧
      Cad.extrude N displ axis = .ok R ∧ R.extract eps jf ((a : ℕ) : ℤ) u = .ok Y ∧ Y.SameData R' := by
  obtain ⟨R, r1, r2, r3, r4, r5⟩ := extrude_built h1 hv ht
  obtain ⟨X, Y, x1, x2, x3, y1, y2⟩ := r5.extract heps je jf hv hm hu (uk_inner r2 r3 r4)
  obtain ⟨R', q1, q2, q3, q4, q5⟩ := extrude_built (by omega) x2 ht
  exact ⟨X, R, Y, R', x1, q1, r1, y1,
    y2 R' _ q5 (q2.trans r2.symm) (q3.trans r3.symm) (q4.trans r4.symm) (fun _ _ _ => rfl)⟩

/-- C98: the two ends of an extruded object are the object itself and the displaced object. -/
theorem C98_extrude_ends {eps : K} (heps : 0 < eps) (he1 : eps ≤ 1) (je : ℤ → (Fin d → ℤ) → ℕ → K) (h1 : d ≤ 2)
    {N : Nrb K d} (hv : N.Valid) (hm : ∀ a, N.InnerMult a) (hnc : N.nc = 4) {displ : ArrArg K}
    {axis : Option ℤ} {t : Fin 3 → K} (ht : IsDispl displ axis t) :
    ∃ R A B, Cad.extrude N displ axis = .ok R ∧ R.extract eps je d 0 = .ok A ∧ R.extract eps je d 1 = .ok B ∧
      A.SameData N ∧ B.SameData (N.transform (transMat t)) := by
  obtain ⟨R, r1, r2, r3, r4, r5⟩ := extrude_built h1 hv ht
  have hd : R.degree (Fin.last d) = 1 := by unfold Nrb.degree; rw [r2, r3]; norm_num
  have e1 : R.lo (Fin.last d) = 0 := by unfold Nrb.lo; rw [hd, r4]; rfl
  have e2 : R.hi (Fin.last d) = 1 := by unfold Nrb.hi; rw [hd, r4, r3]; rfl
  have hval : ∀ j, 0 ≤ j → j ≤ 3 → R.U (Fin.last d) j = 0 ∨ R.U (Fin.last d) j = 1 := by
    intro j j0 j3; rw [r4, uk_get j j0 j3]; split_ifs <;> simp
  have hmul : ∀ u, (u = 0 ∨ u = 1) → R.multOf (Fin.last d) u = 2 := by
    intro u hu
    unfold Nrb.multOf mult
    rw [r3, r4]
    have : ∀ i ∈ Finset.Icc (0 : ℤ) 3, (uk i : K) = u ↔ if u = 0 then i < 2 else 2 ≤ i := by
      intro i hi
      rw [Finset.mem_Icc] at hi
      rw [uk_get i hi.1 hi.2]
      rcases hu with h | h <;> subst h <;> by_cases hi : i < 2 <;> simp [hi]
      omega
    rw [show (4 : ℤ) - 1 = 3 from rfl, Finset.filter_congr this]
    split_ifs <;> decide
  have hex : ∀ u, (u = 0 ∨ u = 1) → R.CanExtract eps (Fin.last d) u := by
    intro u hu
    refine ⟨?_, ?_, ?_, ?_, ?_⟩
    · rw [e1]; rcases hu with h | h <;> subst h <;> norm_num
    · rw [e2]; rcases hu with h | h <;> subst h <;> norm_num
    · intro j j0 j3
      rw [r3] at j3
      rcases hval j j0 (by omega) with h | h <;> rw [h] <;> rcases hu with h' | h' <;> subst h' <;> simp [he1]
    · rw [hmul u hu, hd]; intro _; norm_num
    · rw [hmul u hu, hd]; intro _; right; norm_num
  have main : ∀ u (M : Nrb K d), (u = 0 ∨ u = 1) → M.nc = 4 → M.shape = N.shape → M.len = N.len → M.U = N.U →
      (∀ y, (1 - u) • N.eval y + u • homT (transMat t) (N.eval y) = M.eval y) →
      ∃ A, R.extract eps je d u = .ok A ∧ A.SameData M := by
    intro u M hu mnc ms ml mU hev
    obtain ⟨A, A1, A2, A3⟩ := extract_section heps je r5.ext.valid (hex u hu)
    refine ⟨A, A1, ?_⟩
    have hsa : ∀ b : Fin d, (Fin.last d).succAbove b = b.castSucc := fun b => Fin.succAbove_last_apply b
    refine sameData_of_map A2 (fun b => A3.inner (by rw [hsa]; exact r5.ext.inner (hm b))) ⟨?_, ?_, ?_⟩ ?_ ?_
    · funext b; rw [A3.shape, hsa, r5.ext.shape, ms]
    · funext b; rw [A3.len, hsa, r5.ext.len, ml]
    · intro b j _ _; rw [A3.U, hsa, r5.ext.U, mU]
    · rw [A3.nc, r5.ext.nc, mnc]
    · intro y hy
      have hz := (A3.inDom ⟨(hex u hu).lo, (hex u hu).hi⟩).1 hy
      have el : ((Fin.last d).insertNth u y : Fin (d + 1) → K) (Fin.last d) = u := Fin.insertNth_apply_same _ _ _
      have ei : Fin.init ((Fin.last d).insertNth u y : Fin (d + 1) → K) = y := by
        rw [Fin.insertNth_last', Fin.init_snoc]
      rw [A3.eval, r5.eval _ hz, el, ei, hev]
  obtain ⟨A, a1, a2⟩ := main 0 N (Or.inl rfl) hnc rfl rfl rfl (fun y => by simp)
  obtain ⟨B, b1, b2⟩ := main 1 (N.transform (transMat t)) (Or.inr rfl) hnc rfl rfl rfl
    (fun y => by rw [transform_homT]; simp)
  exact ⟨R, A, B, r1, a1, b1, a2, b2⟩

/-- C98: refining a swept object gives the sweep of the refined section along the refined trajectory. -/
theorem C98_sweep_refine {env : Env K} (heps : 0 < env.eps) (h1 : 1 ≤ d) (h2 : d ≤ 2) {S : Nrb K d} {T : Nrb K 1}
    (hS : S.Valid) (hT : T.Valid) (hm : ∀ a, S.InnerMult a) (hmT : T.InnerMult 0) (hwS : S.WeightsPos)
    (hwT : T.WeightsPos) {p q r : List (Call K)} (hp : ∀ c ∈ p, c.2.Refines (d + 1))
    (hq : ∀ c ∈ q, c.2.Refines d) (hr : ∀ c ∈ r, c.2.Refines 1)
    (hc : ∀ a, S.CanAdd env.eps a (addedAll a q)) (hcT : T.CanAdd env.eps 0 (addedAll (0 : Fin 1) r))
    (hpq : ∀ a : Fin d, addedAll a.castSucc p = addedAll a q)
    (hpr : addedAll (Fin.last d) p = addedAll (0 : Fin 1) r) :
    ∃ R R', Cad.sweep S T = .ok R ∧ Cad.sweep (history env S q) (history env T r) = .ok R' ∧
      (history env R p).SameData R' := by
  have hmT' : ∀ a, T.InnerMult a := fun a => by rw [Subsingleton.elim a 0]; exact hmT
  have hcT' : ∀ a, T.CanAdd env.eps a (addedAll a r) := fun a => by rw [Subsingleton.elim a 0]; exact hcT
  obtain ⟨a1, i1⟩ := added_history heps q hS hm hq hc
  obtain ⟨a2, i2⟩ := added_history heps r hT hmT' hr hcT'
  obtain ⟨R, r1, r2, r3, r4, r5⟩ := sweep_built h1 h2 hS hT hwS.ne hwT.ne
  obtain ⟨R', q1, q2, q3, q4, q5⟩ := sweep_built h1 h2 a1.valid a2.valid
    (refine_pos heps hS hm hq hc hwS).ne (refine_pos heps hT hmT' hr hcT' hwT).ne
  have last : ∀ {R : Nrb K (d + 1)} {T : Nrb K 1}, R.shape (Fin.last d) = T.shape 0 →
      R.len (Fin.last d) = T.len 0 → R.U (Fin.last d) = T.U 0 → R.degree (Fin.last d) = T.degree 0 ∧
      R.lo (Fin.last d) = T.lo 0 ∧ R.hi (Fin.last d) = T.hi 0 ∧ R.knots (Fin.last d) = T.knots 0 ∧
      ∀ x, R.multOf (Fin.last d) x = T.multOf 0 x := by
    intro R T e1 e2 e3
    have hd : R.degree (Fin.last d) = T.degree 0 := by unfold Nrb.degree; rw [e1, e2]
    refine ⟨hd, ?_, ?_, ?_, fun x => ?_⟩
    · unfold Nrb.lo; rw [hd, e3]
    · unfold Nrb.hi; rw [hd, e3, e2]
    · unfold Nrb.knots; rw [e3, e2]
    · unfold Nrb.multOf; rw [e3, e2]
  obtain ⟨d1, d2, d3, d4, d5⟩ := last r2 r3 r4
  obtain ⟨_, d2', d3', d4', _⟩ := last q2 q3 q4
  refine ⟨R, R', r1, q1, r5.refine heps hS hm hp hq hc hpq q5 ?_ ?_ ?_ ?_ ?_
    (built_dom r5.ext q5.ext a1.map (by rw [d2, d2', a2.map.lo]) (by rw [d3, d3', a2.map.hi]))⟩
  · intro x x1 x2
    rw [d5, d1]
    rw [d2] at x1
    rw [d3] at x2
    exact hmT x x1 x2
  · rw [hpr]
    refine ⟨fun x hx => by rw [d2]; exact hcT.lo x hx, fun x hx => by rw [d3]; exact hcT.hi x hx, fun x hx => ?_,
      hcT.apart, fun x hx => by rw [d5, d1]; exact hcT.mult x hx⟩
    rw [sep_iff, d4]
    exact sep_iff.1 (hcT.sep x hx)
  · rw [q2, r2, hpr, a2.shape]
  · rw [d4, d4', hpr, a2.knots]
  · intro s s0 s1
    rw [a2.map.eval ![s] (by
      intro a
      rw [Subsingleton.elim a 0, ← d2, ← d3]
      exact ⟨s0, s1⟩)]

/-- C98: a section of a swept object across an axis of the section is the sweep of that section. -/
theorem C98_sweep_section {eps : K} (heps : 0 < eps) (je : ℤ → (Fin (d + 1) → ℤ) → ℕ → K)
    (jf : ℤ → (Fin (d + 2) → ℤ) → ℕ → K) (h2 : d + 2 ≤ 2) {S : Nrb K (d + 2)} {T : Nrb K 1} (hS : S.Valid)
    (hT : T.Valid) (hm : ∀ a, S.InnerMult a) (hmT : T.InnerMult 0) (hwS : S.WeightsPos) (hwT : T.WeightsPos)
    {a : Fin (d + 2)} {u : K} (hu : S.CanExtract eps a u) :
    ∃ X R Y R', S.extract eps je ((a : ℕ) : ℤ) u = .ok X ∧ Cad.sweep X T = .ok R' ∧
      Cad.sweep S T = .ok R ∧ R.extract eps jf ((a : ℕ) : ℤ) u = .ok Y ∧ Y.SameData R' := by
  obtain ⟨R, r1, r2, r3, r4, r5⟩ := sweep_built (by omega) h2 hS hT hwS.ne hwT.ne
  have hd : R.degree (Fin.last (d + 2)) = T.degree 0 := by unfold Nrb.degree; rw [r2, r3]
  have hi : R.InnerMult (Fin.last (d + 2)) := by
    intro x x1 x2
    unfold Nrb.lo at x1
    unfold Nrb.hi at x2
    unfold Nrb.multOf
    rw [hd, r4] at x1
    rw [hd, r3, r4] at x2
    rw [hd, r3, r4]
    exact hmT x x1 x2
  obtain ⟨X, Y, x1, x2, x3, y1, y2⟩ := r5.extract heps je jf hS hm hu hi
  have hwX : X.WeightsPos := averages_pos (section_averages hS hm hu.lo hu.hi x3) hwS
  obtain ⟨R', q1, q2, q3, q4, q5⟩ := sweep_built (by omega) (by omega) x2 hT hwX.ne hwT.ne
  exact ⟨X, R, Y, R', x1, q1, r1, y1,
    y2 R' _ q5 (q2.trans r2.symm) (q3.trans r3.symm) (q4.trans r4.symm) (fun _ _ _ => rfl)⟩

end field

/-! ## Revolution -/

theorem circle_obj {junk : ℤ → Fin 4 → ℝ} {r : ℝ} {angle : AngleArg} {A : Nrb ℝ 1}
    (hA : Cad.circle junk r none angle = .ok A) : ∃ s C, Cad.circleObj s C = .ok A := by
  unfold Cad.circle at hA
  cases hd : Cad.circleData junk r angle with
  | error e => rw [hd] at hA; exact absurd hA (by simp [Bind.bind, Except.bind])
  | ok sC =>
    rw [hd, res_ok_bind] at hA
    exact ⟨sC.1, sC.2, hA⟩

theorem circle_inner {junk : ℤ → Fin 4 → ℝ} {r : ℝ} {angle : AngleArg} {A : Nrb ℝ 1}
    (hA : Cad.circle junk r none angle = .ok A) (hd : A.degree 0 = 2) (hlo : A.lo 0 = 0) (hhi : A.hi 0 = 1) :
    A.InnerMult 0 := by
  obtain ⟨s, C, h⟩ := circle_obj hA
  have hform : Cad.circleObj s C = .ok _ :=
    ctor_homogeneous (sh := fun _ => 2 * (s : ℤ) + 1) (len := fun _ => 2 * ((s : ℤ) + 1) + 2)
      (by norm_num) (by norm_num) (fun _ => rfl) (fun _ => by omega) rfl (fun _ => by omega)
  have e := Except.ok.inj (hform.symm.trans h)
  have hU : A.U 0 = Cad.circleKnots s := by rw [← e]; rfl
  intro x x0 x1
  rw [hlo] at x0
  rw [hhi] at x1
  rw [hd]
  unfold Nrb.multOf mult
  rw [hU]
  by_cases hs : s = 0
  · subst hs
    have : (Finset.Icc 0 (A.len 0 - 1)).filter (fun i => Cad.circleKnots 0 i = x) = ∅ := by
      rw [Finset.filter_eq_empty_iff]
      intro i _ hi
      unfold Cad.circleKnots at hi
      split_ifs at hi
      · exact absurd hi x0.ne
      · exact absurd hi x1.ne'
      · simp at hi; exact absurd hi x0.ne
    rw [this]; simp
  have hs' : (s : ℝ) ≠ 0 := by exact_mod_cast hs
  have hmid : ∀ i, Cad.circleKnots s i = x → (((i - 1) / 2 : ℤ) : ℝ) / s = x := by
    intro i hi
    unfold Cad.circleKnots at hi
    split_ifs at hi
    · exact absurd hi x0.ne
    · exact absurd hi x1.ne'
    · exact hi
  by_cases hex : ∃ i0, Cad.circleKnots s i0 = x
  · obtain ⟨i0, h0⟩ := hex
    have hsub : (Finset.Icc 0 (A.len 0 - 1)).filter (fun i => Cad.circleKnots s i = x) ⊆
        {2 * ((i0 - 1) / 2) + 1, 2 * ((i0 - 1) / 2) + 2} := by
      intro i hi
      have h1 := hmid i (Finset.mem_filter.1 hi).2
      have h2 := hmid i0 h0
      rw [← h2] at h1
      have h3 : (i - 1) / 2 = (i0 - 1) / 2 := by
        have := (div_left_inj' hs').1 h1
        exact_mod_cast this
      rw [Finset.mem_insert, Finset.mem_singleton]
      omega
    have := (Finset.card_le_card hsub).trans Finset.card_le_two
    exact_mod_cast this
  · have : (Finset.Icc 0 (A.len 0 - 1)).filter (fun i => Cad.circleKnots s i = x) = ∅ := by
      rw [Finset.filter_eq_empty_iff]
      exact fun i _ hi => hex ⟨i, hi⟩
    rw [this]; simp

/-- two arcs of the same call, whatever uninitialised memory holds -/
theorem two_arcs (junk junk' : ℤ → Fin 4 → ℝ) {angle : AngleArg}
    (h0 : (angles angle).1 ≠ (angles angle).2) (h4 : |(angles angle).2 - (angles angle).1| < 4 * Real.pi) :
    ∃ A A', Cad.circle junk 1 none angle = .ok A ∧ Cad.circle junk' 1 none angle = .ok A' ∧ A.Valid ∧ A'.Valid ∧
      A.InnerMult 0 ∧ A'.shape 0 = A.shape 0 ∧ A'.len 0 = A.len 0 ∧ A'.U 0 = A.U 0 ∧
      ∀ s e, turnHom (A'.eval ![s]) e = turnHom (A.eval ![s]) e := by
  obtain ⟨A, hA, hrun⟩ := C33_circle junk 1 .origin angle h0 h4
  obtain ⟨A', hA', hrun'⟩ := C33_circle junk' 1 .origin angle h0 h4
  obtain ⟨ml, mU, me⟩ := circle_memory junk junk' h0 h4 hA hA'
  refine ⟨A, A', hA, hA', hrun.valid, hrun'.valid, circle_inner hA hrun.degree hrun.lo hrun.hi, ?_, by rw [ml],
    by rw [mU], fun s e => ?_⟩
  · have h1 := hrun.degree
    have h2 := hrun'.degree
    unfold Nrb.degree at h1 h2
    rw [ml] at h2
    omega
  · have e0 : A'.eval ![s] 0 = A.eval ![s] 0 := me s 0
    have e1 : A'.eval ![s] 1 = A.eval ![s] 1 := me s 1
    have e3 : A'.eval ![s] 3 = A.eval ![s] 3 := me s 3
    unfold turnHom
    rw [e0, e1, e3]

theorem arc_inner {d : ℕ} {R : Nrb ℝ (d + 1)} {A : Nrb ℝ 1} (hs : R.shape (Fin.last d) = A.shape 0)
    (hl : R.len (Fin.last d) = A.len 0) (hU : R.U (Fin.last d) = A.U 0) (hi : A.InnerMult 0) :
    R.InnerMult (Fin.last d) := by
  have hd : R.degree (Fin.last d) = A.degree 0 := by unfold Nrb.degree; rw [hs, hl]
  intro x x1 x2
  unfold Nrb.lo at x1
  unfold Nrb.hi at x2
  unfold Nrb.multOf
  rw [hd, hU] at x1
  rw [hd, hl, hU] at x2
  rw [hd, hl, hU]
  exact hi x x1 x2

/-- C98: refining an object of revolution along the old axes gives the revolution of the refined object. -/
theorem C98_revolve_refine {d : ℕ} {env : Env ℝ} (heps : 0 < env.eps) (junk junk' : ℤ → Fin 4 → ℝ) (h1 : d ≤ 2)
    {N : Nrb ℝ d} (hv : N.Valid) (hm : ∀ a, N.InnerMult a)
    {point : ArrArg ℝ} {p0 : Fin 3 → ℝ} (hp0 : IsDispl point none p0) {axis : AxisArg} {v : Fin 3 → ℝ}
    (hax : IsAxis axis v) (hz : v 2 ≠ -1) (angle : AngleArg)
    (h0 : (angles angle).1 ≠ (angles angle).2) (h4 : |(angles angle).2 - (angles angle).1| < 4 * Real.pi)
    {p q : List (Call ℝ)} (hp : ∀ c ∈ p, c.2.Refines (d + 1)) (hq : ∀ c ∈ q, c.2.Refines d)
    (hc : ∀ a, N.CanAdd env.eps a (addedAll a q)) (hpq : ∀ a : Fin d, addedAll a.castSucc p = addedAll a q)
    (hl : addedAll (Fin.last d) p = 0) :
    ∃ R R', Cad.revolve junk N point axis angle = .ok R ∧
      Cad.revolve junk' (history env N q) point axis angle = .ok R' ∧ (history env R p).SameData R' := by
  obtain ⟨h2, i2⟩ := added_history heps q hv hm hq hc
  obtain ⟨A, A', hA, hA', vA, vA', iA, eS, eL, eU, ev⟩ := two_arcs junk junk' h0 h4
  obtain ⟨R, r1, r2, r3, r4, r5⟩ := revolve_built h1 hv hp0 hax hz hA vA
  obtain ⟨R', q1, q2, q3, q4, q5⟩ := revolve_built h1 h2.valid hp0 hax hz hA' vA'
  obtain ⟨s1, s2, s3⟩ := same_last (q2.trans (eS.trans r2.symm)) (q3.trans (eL.trans r3.symm))
    (q4.trans (eU.trans r4.symm))
  refine ⟨R, R', r1, q1, r5.refine heps hv hm hp hq hc hpq q5 (arc_inner r2 r3 r4 iA) ?_ ?_ ?_ ?_
    (built_dom r5.ext q5.ext h2.map s1 s2)⟩
  · rw [hl]; exact canAdd_zero _ _ _
  · rw [hl, q2, r2, eS]; simp
  · rw [hl, s3, add_zero]
  · intro s _ _
    funext e
    rw [ev]

/-- C98: a section of an object of revolution across an old axis is the revolution of the section. -/
theorem C98_revolve_section {d : ℕ} {eps : ℝ} (heps : 0 < eps) (je : ℤ → (Fin d → ℤ) → ℕ → ℝ)
    (jf : ℤ → (Fin (d + 1) → ℤ) → ℕ → ℝ) (junk junk' : ℤ → Fin 4 → ℝ) (h1 : d + 1 ≤ 2)
    {N : Nrb ℝ (d + 1)} (hv : N.Valid) (hm : ∀ a, N.InnerMult a)
    {point : ArrArg ℝ} {p0 : Fin 3 → ℝ} (hp0 : IsDispl point none p0) {axis : AxisArg} {v : Fin 3 → ℝ}
    (hax : IsAxis axis v) (hz : v 2 ≠ -1) (angle : AngleArg)
    (h0 : (angles angle).1 ≠ (angles angle).2) (h4 : |(angles angle).2 - (angles angle).1| < 4 * Real.pi)
    {a : Fin (d + 1)} {u : ℝ} (hu : N.CanExtract eps a u) :
    ∃ X R Y R', N.extract eps je ((a : ℕ) : ℤ) u = .ok X ∧ Cad.revolve junk' X point axis angle = .ok R' ∧
      Cad.revolve junk N point axis angle = .ok R ∧ R.extract eps jf ((a : ℕ) : ℤ) u = .ok Y ∧
      Y.SameData R' := by
  obtain ⟨A, A', hA, hA', vA, vA', iA, eS, eL, eU, ev⟩ := two_arcs junk junk' h0 h4
  obtain ⟨R, r1, r2, r3, r4, r5⟩ := revolve_built h1 hv hp0 hax hz hA vA
  obtain ⟨X, Y, x1, x2, x3, y1, y2⟩ := r5.extract heps je jf hv hm hu (arc_inner r2 r3 r4 iA)
  obtain ⟨R', q1, q2, q3, q4, q5⟩ := revolve_built (by omega) x2 hp0 hax hz hA' vA'
  refine ⟨X, R, Y, R', x1, q1, r1, y1, y2 R' _ q5 (q2.trans (eS.trans r2.symm)) (q3.trans (eL.trans r3.symm))
    (q4.trans (eU.trans r4.symm)) ?_⟩
  intro s _ _
  funext e
  rw [ev]

end Igakit
