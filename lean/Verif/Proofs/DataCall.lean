import Verif.Proofs.Data

/-! # Proofs: a method treats objects with the same knots alike, whatever uninitialised memory holds -/

set_option linter.unusedSectionVars false

namespace Igakit
open Spec

variable {K : Type} [Field K] [LinearOrder K] [IsStrictOrderedRing K] {d : ℕ}

theorem knots_of_U {N N' M M' : Nrb K d} (h : N.SameKnots M) {b : Fin d} (h1 : N'.U b = N.U b) (h2 : M'.U b = M.U b)
    (l1 : N'.len b = N.len b) (l2 : M'.len b = M.len b) : M'.knots b = N'.knots b := by
  have := h.knotMS b
  unfold Nrb.knots at this ⊢
  rw [h1, h2, l1, l2]
  exact this

theorem insert_knots {eps : K} (heps : 0 < eps) {jk jk' : ℤ → K} {je je' : ℤ → (Fin d → ℤ) → ℕ → K} {N M N' : Nrb K (d + 1)}
    (hv : N.Valid) (hi : ∀ a, N.InnerMult a) (hD : N.SameKnots M) {axis : ℤ} {v : K} {times : Option ℤ}
    (ht : ∀ a, normAxis (d + 1) axis = .ok a → v ≠ N.lo a ∧ v ≠ N.hi a ∧ N.Sep eps a v)
    (h : N.insert eps jk je axis v times = .ok N') :
    ∃ M', M.insert eps jk' je' axis v times = .ok M' ∧ N'.SameKnots M' := by
  obtain ⟨a, ha, h1, h2, m, hm, g0, g1, g2⟩ := insert_inv h
  obtain ⟨n1, n2, hsep⟩ := ht a ha
  have h1 := lt_of_le_of_ne h1 (Ne.symm n1)
  have h2 := lt_of_le_of_ne h2 n2
  have hmul := hi a v h1 h2
  rw [findMult_res heps hv h1 h2 hsep hmul] at hm
  obtain rfl : (N.multOf a v : ℤ) = m := by injection hm
  rw [min_eq_left hmul] at g0 g1 g2
  obtain ⟨t, hT⟩ := Int.eq_ofNat_of_zero_le g0
  rw [hT] at g1 g2
  obtain ⟨N2, e1, e2, e3, e4, e5, e6⟩ := C07_insert heps jk je hv ha h1 h2 hsep (t := t) (by push_cast; exact g1)
  rw [e1] at g2
  obtain rfl : N2 = N' := by injection g2
  have h1' : M.lo a < v := by rw [hD.lo hv]; exact h1
  have h2' : v < M.hi a := by rw [hD.hi hv]; exact h2
  obtain ⟨M2, f1, f2, f3, f4, f5, f6⟩ := C07_insert heps jk' je' (hD.valid hv) ha h1' h2' (hD.sep hsep) (t := t)
    (by push_cast; rw [hD.multOf, hD.degree]; exact g1)
  refine ⟨M2, ?_, ?_⟩
  · cases times with
    | some T =>
      rw [Option.getD_some] at hT
      rw [hT]; exact f1
    | none =>
      rw [C07_insert_none heps jk' je' (hD.valid hv) ha h1' h2' (hD.sep hsep) (by rw [hD.multOf, hD.degree]; exact hmul)]
      rw [Option.getD_none] at hT
      rw [hD.multOf, hD.degree, hT, Int.toNat_natCast]
      exact f1
  · refine sameKnots_of e2 f2 (by rw [e4, f4, hD.shape]) (fun b => ?_)
    by_cases hb : b = a
    · rw [hb, e5, f5, hD.knotMS]
    · exact knots_of_U hD (e6 b hb) (f6 b hb) (len_of_degree (e3.degree b) (by rw [e4, Function.update_of_ne hb]))
        (len_of_degree (f3.degree b) (by rw [f4, Function.update_of_ne hb]))

theorem refine_inv {eps : K} {jk : ℤ → K} {je : ℤ → (Fin d → ℤ) → ℕ → K} {N N' : Nrb K (d + 1)} (hv : N.Valid) {axis : ℤ}
    {vals : List K} (hnil : vals ≠ []) (h : N.refine eps jk je axis vals = .ok N') :
    ∃ a, normAxis (d + 1) axis = .ok a ∧ (∀ x ∈ vals, N.lo a ≤ x) ∧ (∀ x ∈ vals, x ≤ N.hi a) ∧
      ∀ x, ((vals.count x + mult (N.U a) 1 (N.len a - 2) x : ℕ) : ℤ) ≤ N.degree a := by
  unfold Nrb.refine at h
  rw [if_neg hnil] at h
  obtain ⟨a, ha, h⟩ := res_bind_inv h
  obtain ⟨u, hu, _⟩ := res_bind_inv h
  have hperm := sort_perm vals
  have hsrt := sort_pairwise vals
  unfold Nrb.refineArg at hu
  obtain ⟨_, a1, hu⟩ := res_bind_inv hu
  obtain ⟨_, a2, hu⟩ := res_bind_inv hu
  dsimp only at hu
  obtain ⟨_, a3, hu⟩ := res_bind_inv hu
  have a1 := pyAssert_ok_iff.1 a1
  have a2 := pyAssert_ok_iff.1 a2
  have a3 := pyAssert_ok_iff.1 a3
  refine ⟨a, ha, ?_, ?_, ?_⟩
  · intro x hm
    have hm' := hperm.mem_iff.2 hm
    generalize vals.mergeSort (fun x y => decide (x ≤ y)) = X at *
    cases X with
    | nil => cases hm'
    | cons y X =>
      have hy : N.lo a ≤ y := a1 y rfl
      rcases List.mem_cons.1 hm' with rfl | hm'
      · exact hy
      · exact hy.trans (List.rel_of_pairwise_cons hsrt hm')
  · intro x hm
    have hm' := hperm.mem_iff.2 hm
    generalize vals.mergeSort (fun x y => decide (x ≤ y)) = X at *
    rcases List.eq_nil_or_concat X with rfl | ⟨Y, y, rfl⟩
    · cases hm'
    · rw [List.concat_eq_append] at *
      have hy : y ≤ N.hi a := a2 y (by simp)
      rcases List.mem_append.1 hm' with hm' | hm'
      · exact ((List.pairwise_append.1 hsrt).2.2 x hm' y (by simp)).trans hy
      · rw [List.mem_singleton.1 hm']; exact hy
  · have hdeg : 0 ≤ N.degree a := by
      obtain ⟨p, hp, _, _⟩ := deg_nat hv a
      omega
    intro x
    rw [← hperm.count_eq]
    exact count_le_of_list hdeg a3 x

theorem mult_inner_congr {N M : Nrb K d} (hD : N.SameKnots M) (a : Fin d) (x : K) :
    mult (M.U a) 1 (M.len a - 2) x = mult (N.U a) 1 (N.len a - 2) x := by
  unfold mult
  rw [hD.len]
  congr 1
  apply Finset.filter_congr
  intro j hj
  have := Finset.mem_Icc.1 hj
  rw [hD.knots a j (by omega) (by omega)]

theorem refine_knots {eps : K} (heps : 0 < eps) {jk jk' : ℤ → K} {je je' : ℤ → (Fin d → ℤ) → ℕ → K} {N M N' : Nrb K (d + 1)}
    (hv : N.Valid) (hi : ∀ a, N.InnerMult a) (hD : N.SameKnots M) {axis : ℤ} {vals : List K}
    (ht : ∀ a, normAxis (d + 1) axis = .ok a →
      (∀ x ∈ vals, x ≠ N.lo a ∧ x ≠ N.hi a ∧ N.Sep eps a x) ∧ ∀ x ∈ vals, ∀ y ∈ vals, x = y ∨ eps ≤ |x - y|)
    (h : N.refine eps jk je axis vals = .ok N') :
    ∃ M', M.refine eps jk' je' axis vals = .ok M' ∧ N'.SameKnots M' := by
  by_cases hnil : vals = []
  · unfold Nrb.refine at h ⊢
    rw [if_pos hnil] at h ⊢
    obtain rfl : N = N' := by injection h
    exact ⟨M, rfl, hD⟩
  obtain ⟨a, ha, hlo, hhi, hcnt⟩ := refine_inv hv hnil h
  obtain ⟨hx, hxy⟩ := ht a ha
  have hlo' : ∀ x ∈ vals, N.lo a < x := fun x hm => lt_of_le_of_ne (hlo x hm) (Ne.symm (hx x hm).1)
  have hhi' : ∀ x ∈ vals, x < N.hi a := fun x hm => lt_of_le_of_ne (hhi x hm) (hx x hm).2.1
  obtain ⟨N2, e1, e2, e3, e4, e5, e6⟩ := C09_refine heps jk je hv ha hlo' hhi' (fun x hm => (hx x hm).2.2) hxy hcnt
  rw [e1] at h
  obtain rfl : N2 = N' := by injection h
  obtain ⟨M2, f1, f2, f3, f4, f5, f6⟩ := C09_refine heps jk' je' (hD.valid hv) ha
    (fun x hm => by rw [hD.lo hv]; exact hlo' x hm) (fun x hm => by rw [hD.hi hv]; exact hhi' x hm)
    (fun x hm => hD.sep (hx x hm).2.2) hxy (fun x => by rw [mult_inner_congr hD, hD.degree]; exact hcnt x)
  refine ⟨M2, f1, sameKnots_of e2 f2 (by rw [e4, f4, hD.shape])
    (fun b => ?_)⟩
  by_cases hb : b = a
  · rw [hb, e5, f5, hD.knotMS]
  · exact knots_of_U hD (e6 b hb) (f6 b hb) (len_of_degree (e3.degree b) (by rw [e4, Function.update_of_ne hb]))
      (len_of_degree (f3.degree b) (by rw [f4, Function.update_of_ne hb]))

theorem sepBoth_congr {N M : Nrb K d} (hD : N.SameKnots M) (hv : N.Valid) {eps : K} {a : Fin d} (h : N.SepBoth eps a) :
    M.SepBoth eps a := by
  unfold Nrb.SepBoth at h ⊢
  rw [hD.lo hv, hD.hi hv]
  exact ⟨hD.sep h.1, hD.sep h.2⟩

theorem sameKnots_of_U {N M N' M' : Nrb K d} (h : N.SameKnots M) (hS : N.SameMap N') (hS' : M.SameMap M')
    (hs : N'.shape = N.shape) (hs' : M'.shape = M.shape)
    (hU : ∀ a j, 0 ≤ j → j < N.len a → M'.U a j = N'.U a j) : N'.SameKnots M' := by
  have l1 : N'.len = N.len := funext fun a => len_of_degree (hS.degree a) (by rw [hs])
  have l2 : M'.len = M.len := funext fun a => len_of_degree (hS'.degree a) (by rw [hs'])
  exact ⟨by rw [hs, hs', h.shape], by rw [l1, l2, h.len], by rw [l1]; exact hU⟩

theorem clamp_knots {eps : K} (heps : 0 < eps) {je je' : ℤ → (Fin d → ℤ) → ℕ → K} {N M N' : Nrb K (d + 1)}
    (hv : N.Valid) (hi : ∀ a, N.InnerMult a) (hD : N.SameKnots M) {axis : ℤ} {side : Option ℤ}
    (ht : ∀ a, normAxis (d + 1) axis = .ok a → N.SepBoth eps a)
    (h : N.clamp eps je axis side = .ok N') :
    ∃ M', M.clamp eps je' axis side = .ok M' ∧ N'.SameKnots M' := by
  have h0 := h
  unfold Nrb.clamp at h
  obtain ⟨a, ha, h⟩ := res_bind_inv h
  obtain ⟨lr, hlr, _⟩ := res_bind_inv h
  have hside := sideFlags_inv hlr
  obtain ⟨N2, e1, e2, e3, e4, e5, e6, e7, e8⟩ := C13_clamp heps je hv ha hside (ht a ha)
  rw [e1] at h0
  obtain rfl : N2 = N' := by injection h0
  obtain ⟨M2, f1, f2, f3, f4, f5, f6, f7, f8⟩ := C13_clamp heps je' (hD.valid hv) ha hside (sepBoth_congr hD hv (ht a ha))
  refine ⟨M2, f1, sameKnots_of_U hD e3 f3 e4 f4 (fun b j j0 j1 => ?_)⟩
  by_cases hb : b = a
  · rw [hb] at j1 ⊢
    rw [hD.degree, hD.lo hv] at f5
    rw [hD.hi hv, hD.shape, hD.len] at f6
    rw [hD.shape, hD.degree] at f7
    by_cases c0 : selects side 0 ∧ j < N.degree a
    · rw [e5 c0.1 j j0 c0.2.le, f5 c0.1 j j0 c0.2.le]
    · by_cases c1 : selects side 1 ∧ N.shape a < j
      · rw [e6 c1.1 j c1.2.le j1, f6 c1.1 j c1.2.le j1]
      · have q0 : ¬ selects side 0 ∨ N.degree a ≤ j := by
          by_contra hc; push Not at hc; exact c0 hc
        have q1 : ¬ selects side 1 ∨ j ≤ N.shape a := by
          by_contra hc; push Not at hc; exact c1 hc
        rw [e7 j q0 q1, f7 j q0 q1, hD.knots a j j0 j1]
  · rw [e8 b hb, f8 b hb, hD.knots b j j0 j1]

/-- induction along a chain of knots going up from the left end -/
theorem chain_left {V W : ℤ → K} {C n : ℤ} (hCn : C < n) {D : K} (hm : ∀ j, C < j → j ≤ n → W j = V j)
    (hV : ∀ i, 0 ≤ i → i ≤ C → V (C - i) = V (n - i) - D) (hW : ∀ i, 0 ≤ i → i ≤ C → W (C - i) = W (n - i) - D) :
    ∀ j, 0 ≤ j → j ≤ C → W j = V j := by
  have key : ∀ k : ℕ, ∀ j, 0 ≤ j → j ≤ C → (C - j).toNat = k → W j = V j := by
    intro k
    induction k using Nat.strong_induction_on with
    | _ k ih =>
      intro j h0 h1 hk
      have a := hV (C - j) (by omega) (by omega)
      have b := hW (C - j) (by omega) (by omega)
      rw [show C - (C - j) = j by ring] at a b
      rw [a, b]
      congr 1
      by_cases c : n - (C - j) ≤ C
      · exact ih _ (by omega) _ (by omega) c rfl
      · exact hm _ (by omega) (by omega)
  intro j h0 h1
  exact key _ j h0 h1 rfl

/-- induction along a chain of knots going down from the right end -/
theorem chain_right {V W : ℤ → K} {C L s : ℤ} (hs : 0 < s) (hL : s ≤ L - C) {D : K} (hm : ∀ j, s ≤ j → j < L - C → W j = V j)
    (hlt : s < L - C)
    (hV : ∀ i, 0 ≤ i → i ≤ C → V (L - C + i) = V (s + i) + D) (hW : ∀ i, 0 ≤ i → i ≤ C → W (L - C + i) = W (s + i) + D) :
    ∀ j, L - C ≤ j → j ≤ L → W j = V j := by
  have key : ∀ k : ℕ, ∀ j, L - C ≤ j → j ≤ L → (j - (L - C)).toNat = k → W j = V j := by
    intro k
    induction k using Nat.strong_induction_on with
    | _ k ih =>
      intro j h0 h1 hk
      have a := hV (j - (L - C)) (by omega) (by omega)
      have b := hW (j - (L - C)) (by omega) (by omega)
      rw [show L - C + (j - (L - C)) = j by ring] at a b
      rw [a, b]
      congr 1
      by_cases c : L - C ≤ s + (j - (L - C))
      · exact ih _ (by omega) _ c (by omega) rfl
      · exact hm _ (by omega) (by omega)
  intro j h0 h1
  exact key _ j h0 h1 rfl

theorem unclamp_knots {eps : K} (heps : 0 < eps) {je je' : ℤ → (Fin d → ℤ) → ℕ → K} {N M N' : Nrb K (d + 1)}
    (hv : N.Valid) (hi : ∀ a, N.InnerMult a) (hD : N.SameKnots M) {axis : ℤ} {side cont : Option ℤ}
    (ht : ∀ a, normAxis (d + 1) axis = .ok a → N.SepBoth eps a)
    (h : N.unclamp eps je axis side cont = .ok N') :
    ∃ M', M.unclamp eps je' axis side cont = .ok M' ∧ N'.SameKnots M' := by
  have h0 := h
  unfold Nrb.unclamp at h
  obtain ⟨a, ha, h⟩ := res_bind_inv h
  obtain ⟨lr, hlr, h⟩ := res_bind_inv h
  obtain ⟨C, hC, _⟩ := res_bind_inv h
  have hside := sideFlags_inv hlr
  have hc : ∀ c ∈ cont, 0 ≤ c ∧ c < N.degree a := by
    intro c hcc
    obtain rfl : cont = some c := hcc
    unfold Nrb.contArg at hC
    obtain ⟨_, h1, _⟩ := res_bind_inv hC
    have := pyAssert_ok_iff.1 h1
    omega
  obtain ⟨p, hp, hk, e⟩ := deg_nat hv a
  have h1p := hk.one_le
  have hle := hk.le
  have es : N.shape a = N.n a + 1 := by unfold Nrb.n; ring
  have hC0 : 0 ≤ cont.getD (N.degree a - 1) ∧ cont.getD (N.degree a - 1) < p := by
    cases cont with
    | none => simp only [Option.getD_none]; omega
    | some c => have := hc c rfl; simp only [Option.getD_some]; omega
  obtain ⟨N2, e1, e2, e3, e4, e5, e6, e7, e8⟩ := C14_unclamp heps je hv ha hside hc (ht a ha)
  rw [e1] at h0
  obtain rfl : N2 = N' := by injection h0
  obtain ⟨M2, f1, f2, f3, f4, f5, f6, f7, f8⟩ := C14_unclamp heps je' (hD.valid hv) ha hside
    (by rw [hD.degree]; exact hc) (sepBoth_congr hD hv (ht a ha))
  rw [hD.degree, hD.shape, hD.len] at f5
  rw [hD.degree, hD.lo hv, hD.hi hv, hD.n] at f6
  rw [hD.degree, hD.lo hv, hD.hi hv, hD.shape, hD.len] at f7
  generalize cont.getD (N.degree a - 1) = C at *
  refine ⟨M2, f1, sameKnots_of_U hD e3 f3 e4 f4 (fun b j j0 j1 => ?_)⟩
  by_cases hb : b = a
  · rw [hb] at j1 ⊢
    have hmid : ∀ j, 0 ≤ j → j < N.len a → (¬ selects side 0 ∨ N.degree a ≤ j) → (¬ selects side 1 ∨ j ≤ N.shape a) →
        M2.U a j = N2.U a j := fun j j0 j1 q0 q1 => by rw [e5 j j0 j1 q0 q1, f5 j j0 j1 q0 q1, hD.knots a j j0 j1]
    by_cases c0 : selects side 0 ∧ j < N.degree a
    · obtain ⟨u1, u2⟩ := e6 c0.1
      obtain ⟨v1, v2⟩ := f6 c0.1
      have hup : ∀ j, C < j → j ≤ N.n a → M2.U a j = N2.U a j := by
        intro j k1 k2
        by_cases c : j ≤ N.degree a
        · rw [u1 j k1 c, v1 j k1 c]
        · exact hmid j (by omega) (by omega) (Or.inr (by omega)) (Or.inr (by omega))
      by_cases c : C < j
      · exact hup j c (by omega)
      · exact chain_left (by omega) hup u2 v2 j j0 (by omega)
    · by_cases c1 : selects side 1 ∧ N.shape a < j
      · obtain ⟨u1, u2⟩ := e7 c1.1
        obtain ⟨v1, v2⟩ := f7 c1.1
        have hup : ∀ j, N.degree a + 1 ≤ j → j < N.len a - 1 - C → M2.U a j = N2.U a j := by
          intro j k1 k2
          by_cases c : N.shape a ≤ j
          · rw [u1 j c k2, v1 j c k2]
          · exact hmid j (by omega) (by omega) (Or.inr (by omega)) (Or.inr (by omega))
        by_cases c : j < N.len a - 1 - C
        · exact hup j (by omega) c
        · exact chain_right (by omega) (by omega) hup (by omega) u2 v2 j (by omega) (by omega)
      · have q0 : ¬ selects side 0 ∨ N.degree a ≤ j := by
          by_contra hc; push Not at hc; exact c0 hc
        have q1 : ¬ selects side 1 ∨ j ≤ N.shape a := by
          by_contra hc; push Not at hc; exact c1 hc
        exact hmid j j0 j1 q0 q1
  · rw [e8 b hb, f8 b hb, hD.knots b j j0 j1]

theorem mult_all_congr {N M : Nrb K d} (hD : N.SameKnots M) (a : Fin d) (x : K) :
    mult (M.U a) 0 (M.n a + M.degree a + 1) x = mult (N.U a) 0 (N.n a + N.degree a + 1) x := by
  rw [hD.n, hD.degree]
  unfold mult
  congr 1
  apply Finset.filter_congr
  intro j hj
  have := Finset.mem_Icc.1 hj
  have := N.len_eq a
  rw [hD.knots a j (by omega) (by omega)]

theorem elevatable_congr {N M : Nrb K d} (hD : N.SameKnots M) (hv : N.Valid) {eps : K} {a : Fin d} (h : N.Elevatable eps a) :
    M.Elevatable eps a := by
  obtain ⟨p, hp, hk, e⟩ := deg_nat hv a
  have h1 := hk.one_le
  have h2 := hk.le
  obtain ⟨e1, e2, e3, e4⟩ := h
  rw [hp] at e1 e2 e4
  have q : ∀ j, 0 ≤ j → j ≤ N.n a + p + 1 → M.U a j = N.U a j := fun j j0 j1 => hD.knots a j j0 (by omega)
  refine ⟨?_, ?_, ?_, ?_⟩
  · rw [hD.degree, hp]
    intro j j0 j1
    rw [q j j0 (by omega), q p (by omega) (by omega)]
    exact e1 j j0 j1
  · rw [hD.degree, hD.n, hp]
    intro j j0 j1
    rw [q j (by omega) (by omega), q (N.n a + 1) (by omega) (by omega)]
    exact e2 j j0 j1
  · intro x x1 x2
    rw [mult_all_congr hD, hD.degree]
    rw [hD.degree, hp, q p (by omega) (by omega)] at x1
    rw [hD.n, q _ (by omega) (by omega)] at x2
    exact e3 x (by rw [hp]; exact x1) x2
  · rw [hD.degree, hD.n, hp]
    intro k k1 k2
    rw [q k (by omega) (by omega), q (k + 1) (by omega) (by omega)]
    exact e4 k k1 k2

theorem noJump_congr {N M : Nrb K d} (hD : N.SameKnots M) (hv : N.Valid) {a : Fin d} {t : ℤ}
    (h : NoJump (N.n a) (N.degree a) t (N.U a)) : NoJump (M.n a) (M.degree a) t (M.U a) := by
  obtain ⟨p, hp, hk, e⟩ := deg_nat hv a
  have h1 := hk.one_le
  have h2 := hk.le
  have q : ∀ j, 0 ≤ j → j ≤ N.n a + p + 1 → M.U a j = N.U a j := fun j j0 j1 => hD.knots a j j0 (by omega)
  rintro x y ⟨a1, a2, a3, a4, a5, a6⟩
  rw [mult_all_congr hD] at a4 a5
  simp only [mult_all_congr hD] at a6
  rw [mult_all_congr hD, mult_all_congr hD, hD.degree]
  rw [hD.degree, hp, q p (by omega) (by omega)] at a1
  rw [hD.n, q _ (by omega) (by omega)] at a3
  exact h x y ⟨by rw [hp]; exact a1, a2, a3, a4, a5, a6⟩

theorem elevate_knots {eps : K} (heps : 0 < eps) {jk jk' : ℤ → K} {je je' : ℤ → (Fin d → ℤ) → ℕ → K} {jb jb' : ℤ → ℤ → K}
    {N M N' : Nrb K (d + 1)} (hv : N.Valid) (hi : ∀ a, N.InnerMult a) (hD : N.SameKnots M) {axis : ℤ} {times : Option ℤ}
    (ht : ∀ a, normAxis (d + 1) axis = .ok a →
      N.Elevatable eps a ∧ ∀ t ∈ times, N.degree a ≤ 9 ∨ Spec.NoJump (N.n a) (N.degree a) t (N.U a))
    (h : N.elevate eps jk je jb axis times = .ok N') :
    ∃ M', M.elevate eps jk' je' jb' axis times = .ok M' ∧ N'.SameKnots M' := by
  have h0 := h
  unfold Nrb.elevate at h
  cases times with
  | none =>
    obtain rfl : N = N' := by injection h
    exact ⟨M, rfl, hD⟩
  | some t =>
    dsimp only at h
    obtain ⟨_, h1, h⟩ := res_bind_inv h
    have h1 : t ≥ 0 := pyAssert_ok_iff.1 h1
    by_cases hz : t = 0
    · rw [if_pos hz] at h
      obtain rfl : N = N' := by injection h
      refine ⟨M, ?_, hD⟩
      unfold Nrb.elevate
      dsimp only
      rw [pyAssert_ok h1, res_ok_bind, if_pos hz]
      rfl
    rw [if_neg hz] at h
    obtain ⟨a, ha, _⟩ := res_bind_inv h
    obtain ⟨hE, hj⟩ := ht a ha
    obtain ⟨k, rfl⟩ := Int.eq_ofNat_of_zero_le h1
    obtain ⟨N2, e1, e2, e3, -, -⟩ := C16_elevate_partial heps.le jk je jb hv ha hE k (hj _ rfl)
    rw [e1] at h0
    obtain rfl : N2 = N' := by injection h0
    obtain ⟨M2, f1, f2, f3, -, -⟩ := C16_elevate_partial heps.le jk' je' jb' (hD.valid hv) ha (elevatable_congr hD hv hE) k
      ((hj _ rfl).imp (fun q => by rw [hD.degree]; exact q) (fun q => noJump_congr hD hv q))
    have hk : ∀ b, M2.knots b = N2.knots b := by
      intro b
      by_cases hb : b = a
      · subst hb
        ext x
        rw [e3.knots, f3.knots, hD.knotMS]
      · refine knots_of_U hD (e3.others b hb).1 (f3.others b hb).1
          (len_of_degree (by rw [e3.degree, if_neg hb, add_zero]) (e3.others b hb).2)
          (len_of_degree (by rw [f3.degree, if_neg hb, add_zero]) (f3.others b hb).2)
    have hl : ∀ b, M2.len b = N2.len b := fun b => (knots_unique e2 f2 (hk b)).1
    have hs : M2.shape = N2.shape := by
      funext b
      have a1 := e3.degree b
      have a2 := f3.degree b
      have a3 := hl b
      rw [hD.degree] at a2
      unfold Nrb.degree at a1 a2
      omega
    exact ⟨M2, f1, sameKnots_of e2 f2 hs hk⟩

theorem permuted_knots {N M N' M' : Nrb K d} (hD : N.SameKnots M)
    {σ : Equiv.Perm (Fin d)} (h : N.Permuted N' σ) (h' : M.Permuted M' σ) : N'.SameKnots M' := by
  refine ⟨?_, ?_, fun a j j0 j1 => ?_⟩
  · funext i; rw [h.shape, h'.shape, hD.shape]
  · funext i; rw [h.len, h'.len, hD.len]
  · rw [h.len] at j1
    rw [h.U, h'.U, hD.knots _ j j0 j1]

theorem remap_knots {N M N' : Nrb K d} (hv : N.Valid) (hD : N.SameKnots M) {axis : ℤ} {start stop : Option K}
    (h : N.remap axis start stop = .ok N') : ∃ M', M.remap axis start stop = .ok M' ∧ N'.SameKnots M' := by
  unfold Nrb.remap at h ⊢
  obtain ⟨a, ha, h⟩ := res_bind_inv h
  rw [ha, res_ok_bind]
  dsimp only at h ⊢
  rw [hD.lo hv, hD.hi hv]
  split_ifs at h ⊢ with hc
  · obtain rfl : N = N' := by injection h
    exact ⟨M, rfl, hD⟩
  · obtain ⟨_, h1, h⟩ := res_bind_inv h
    rw [h1, res_ok_bind]
    injection h with h
    refine ⟨_, rfl, ?_⟩
    rw [← h]
    refine ⟨hD.shape, hD.len, fun b j j0 j1 => ?_⟩
    dsimp only at j1 ⊢
    by_cases hb : b = a
    · subst hb
      rw [Function.update_self, Function.update_self, hD.knots b j j0 j1]
    · rw [Function.update_of_ne hb, Function.update_of_ne hb, hD.knots b j j0 j1]

theorem reverse1_knots {N M : Nrb K d} (hv : N.Valid) (hD : N.SameKnots M) (a : Fin d) :
    (N.reverse1 a).SameKnots (M.reverse1 a) := by
  refine ⟨hD.shape, hD.len, fun b j j0 j1 => ?_⟩
  · have j1 : j < N.len b := j1
    show Function.update M.U a _ b j = Function.update N.U a _ b j
    by_cases hb : b = a
    · subst hb
      have h1 := hD.lo hv b
      have h2 := hD.hi hv b
      unfold Nrb.lo at h1
      unfold Nrb.hi at h2
      rw [hD.degree, hD.len] at h2
      rw [hD.degree] at h1
      rw [Function.update_self, Function.update_self]
      unfold Nrb.kntRev
      rw [hD.degree, hD.len, h1, h2, hD.knots b (N.len b - 1 - j) (by omega) (by omega)]
    · rw [Function.update_of_ne hb, Function.update_of_ne hb, hD.knots b j j0 j1]

theorem reverseL_knots (L : List (Fin d)) : ∀ {N M : Nrb K d}, N.Valid → (∀ a, N.InnerMult a) → N.SameKnots M →
    (L.foldl Nrb.reverse1 N).SameKnots (L.foldl Nrb.reverse1 M) := by
  induction L with
  | nil => intro N M _ _ h; exact h
  | cons b L ih =>
    intro N M hv hi hD
    have hv' : (N.reverse1 b).Valid := (reverseL (L := [b]) hv (fun a _ => hi a)).1
    exact ih hv' (fun a => reverse1_innerMult hv b a (hi a)) (reverse1_knots hv hD b)

/-- a method with tame arguments is accepted for objects with the same knots alike and gives the same knots -/
theorem call_knots {env : Env K} (heps : 0 < env.eps) {jn jn' : Scratch K} {N M N' : Nrb K d} (hv : N.Valid)
    (hi : ∀ a, N.InnerMult a) (hD : N.SameKnots M) {g : Geo K} (ht : g.Tame env.eps N)
    (h : g.apply env jn g.vals N = .ok N') : ∃ M', g.apply env jn' g.vals M = .ok M' ∧ N'.SameKnots M' := by
  cases g with
  | transform T =>
    cases T with
    | error e => cases h
    | ok T =>
      obtain rfl : N.transform T = N' := by injection h
      exact ⟨_, rfl, hD.shape, hD.len, hD.knots⟩
  | transpose axes =>
    obtain ⟨σ, hσ⟩ := ht
    obtain ⟨N2, e1, e2⟩ := C20_transpose N σ hσ
    obtain ⟨M2, f1, f2⟩ := C20_transpose M σ hσ
    have h : N.transpose axes = .ok N' := h
    rw [e1] at h
    obtain rfl : N2 = N' := by injection h
    exact ⟨M2, f1, permuted_knots hD e2 f2⟩
  | swap i j =>
    have h : N.swap i j = .ok N' := h
    have h0 := h
    unfold Nrb.swap at h
    obtain ⟨a, ha, h⟩ := res_bind_inv h
    obtain ⟨b, hb, _⟩ := res_bind_inv h
    obtain ⟨N2, e1, e2⟩ := C20_swap N ha hb
    obtain ⟨M2, f1, f2⟩ := C20_swap M ha hb
    rw [e1] at h0
    obtain rfl : N2 = N' := by injection h0
    exact ⟨M2, f1, permuted_knots hD e2 f2⟩
  | reverse axes =>
    have h : N.reverse axes = .ok N' := h
    cases hL : (revAxes d axes).mapM (normAxis d) with
    | ok L =>
      rw [reverse_eq hL] at h
      obtain rfl : L.foldl Nrb.reverse1 N = N' := by injection h
      exact ⟨_, reverse_eq hL, reverseL_knots L hv hi hD⟩
    | error e =>
      exact absurd h (reverse_err hL)
  | remap axis start stop => exact remap_knots hv hD h
  | insert axis value times =>
    cases d with
    | zero => cases h
    | succ d => exact insert_knots heps hv hi hD ht h
  | remove => exact ht.elim
  | clamp axis side =>
    cases d with
    | zero => cases h
    | succ d => exact clamp_knots heps hv hi hD ht h
  | unclamp axis side cont =>
    cases d with
    | zero => cases h
    | succ d => exact unclamp_knots heps hv hi hD ht h
  | refine axis values =>
    cases values with
    | block => exact ht.elim
    | fresh vals =>
      have h : (if vals = [] then .ok N else
        onAxis N (fun N => N.refine env.eps jn.k jn.rows axis vals)) = .ok N' := h
      show ∃ M', (if vals = [] then .ok M else
        onAxis M (fun N => N.refine env.eps jn'.k jn'.rows axis vals)) = .ok M' ∧ N'.SameKnots M'
      split_ifs at h ⊢ with hn
      · obtain rfl : N = N' := by injection h
        exact ⟨M, rfl, hD⟩
      · cases d with
        | zero => cases h
        | succ d => exact refine_knots heps hv hi hD ht h
  | elevate axis times =>
    cases d with
    | zero =>
      cases times with
      | none =>
        obtain rfl : N = N' := by injection h
        exact ⟨M, rfl, hD⟩
      | some t =>
        have h : (if t ≥ 0 then (if t = 0 then .ok N else .error .index) else .error .assertion) = (.ok N' : Res (Nrb K 0)) := h
        show ∃ M', (if t ≥ 0 then (if t = 0 then .ok M else .error .index) else .error .assertion) = (.ok M' : Res (Nrb K 0)) ∧
          N'.SameKnots M'
        split_ifs at h ⊢
        obtain rfl : N = N' := by injection h
        exact ⟨M, rfl, hD⟩
    | succ d => exact elevate_knots heps hv hi hD ht h

theorem tame_congr {eps : K} {N M : Nrb K d} (hv : N.Valid) (hD : N.SameKnots M) {g : Geo K} (ht : g.Tame eps N) :
    g.Tame eps M := by
  cases g with
  | transform => trivial
  | transpose => exact ht
  | swap => trivial
  | reverse => trivial
  | remap => trivial
  | insert axis v times =>
    intro a ha
    obtain ⟨h1, h2, h3⟩ := ht a ha
    rw [hD.lo hv, hD.hi hv]
    exact ⟨h1, h2, hD.sep h3⟩
  | remove => exact ht
  | clamp axis side => exact fun a ha => sepBoth_congr hD hv (ht a ha)
  | unclamp axis side => exact fun a ha => sepBoth_congr hD hv (ht a ha)
  | refine axis values =>
    cases values with
    | block => exact ht
    | fresh vals =>
      intro a ha
      obtain ⟨h1, h2⟩ := ht a ha
      refine ⟨fun x hx => ?_, h2⟩
      obtain ⟨k1, k2, k3⟩ := h1 x hx
      rw [hD.lo hv, hD.hi hv]
      exact ⟨k1, k2, hD.sep k3⟩
  | elevate axis times =>
    intro a ha
    obtain ⟨h1, h2⟩ := ht a ha
    exact ⟨elevatable_congr hD hv h1, fun t h => (h2 t h).imp (fun q => by rw [hD.degree]; exact q) (noJump_congr hD hv)⟩

end Igakit
