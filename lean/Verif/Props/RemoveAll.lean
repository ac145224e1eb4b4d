import Verif.Props.Remove
import Verif.Proofs.RemoveMap
import Verif.Proofs.DataOrder
import Verif.Spec.Coarse

/-!
# C60: `remove` removes whatever can be removed
-/

set_option linter.unusedSectionVars false

namespace Igakit
open Spec

variable {d : ℕ}

open Classical in
/-- the part of a row that lies in the array -/
noncomputable def cutRow (sz : Fin d → ℤ) (nc : ℕ) : ((Fin d → ℤ) → ℕ → ℝ) →ₗ[ℝ] ((Fin d → ℤ) → ℕ → ℝ) where
  toFun P := fun o c => if (∀ b, 0 ≤ o b ∧ o b < sz b) ∧ c < nc then P o c else 0
  map_add' P Q := by
    funext o c
    simp only [Pi.add_apply]
    split_ifs <;> simp
  map_smul' α P := by
    funext o c
    simp only [Pi.smul_apply, RingHom.id_apply]
    split_ifs <;> simp

theorem cutRow_in (sz : Fin d → ℤ) (nc : ℕ) (P : (Fin d → ℤ) → ℕ → ℝ) {o : Fin d → ℤ} {c : ℕ}
    (h : (∀ b, 0 ≤ o b ∧ o b < sz b) ∧ c < nc) : cutRow sz nc P o c = P o c := if_pos h

theorem cutRow_congr {sz : Fin d → ℤ} {nc : ℕ} {P Q : (Fin d → ℤ) → ℕ → ℝ}
    (h : ∀ o c, (∀ b, 0 ≤ o b ∧ o b < sz b) → c < nc → P o c = Q o c) : cutRow sz nc P = cutRow sz nc Q := by
  funext o c
  unfold cutRow
  simp only [LinearMap.coe_mk, AddHom.coe_mk]
  split_ifs with hh
  · exact h o c hh.1 hh.2
  · rfl

theorem rowDist_cut (sz : Fin d → ℤ) (nc : ℕ) (P Q : (Fin d → ℤ) → ℕ → ℝ) :
    rowDist sz nc (cutRow sz nc P) (cutRow sz nc Q) = rowDist sz nc P Q := by
  unfold rowDist
  congr 1
  refine Finset.sum_congr rfl fun o ho => Finset.sum_congr rfl fun c hc => ?_
  have : (∀ b, 0 ≤ o b ∧ o b < sz b) ∧ c < nc :=
    ⟨fun b => Finset.mem_Ico.1 (Fintype.mem_piFinset.1 ho b), Finset.mem_range.1 hc⟩
  rw [cutRow_in _ _ _ this, cutRow_in _ _ _ this]

/-- `times=None` stands for the multiplicity -/
theorem remove_none {eps : ℝ} (heps : 0 < eps) (jt : ℤ → (Fin d → ℤ) → ℕ → ℝ) {N : Nrb ℝ (d + 1)}
    (hv : N.Valid) {axis : ℤ} {a : Fin (d + 1)} (ha : normAxis (d + 1) axis = .ok a) {u : ℝ} (h1 : N.lo a < u)
    (h2 : u < N.hi a) (hsep : N.Sep eps a u) (hm : (N.multOf a u : ℤ) ≤ N.degree a) (deviation : ℝ) :
    N.remove eps jt axis u none deviation = N.remove eps jt axis u (some (N.multOf a u)) deviation := by
  unfold Nrb.remove
  rw [ha, res_ok_bind, res_ok_bind]
  dsimp only
  rw [pyAssert_ok ⟨h1.le, h2.le⟩, res_ok_bind, res_ok_bind, findMult_res heps hv h1 h2 hsep hm, res_ok_bind, res_ok_bind,
    min_eq_left hm, Option.getD_some, Option.getD_none]

/-- the tolerance is not negative if the last column is not -/
theorem removeTol_nonneg' {N : Nrb ℝ (d + 1)} (hv : N.Valid) (a : Fin (d + 1)) {deviation : ℝ} (hd : 0 ≤ deviation)
    (hw : ∀ idx, N.InNet idx → 0 ≤ N.P idx (N.nc - 1)) : 0 ≤ N.removeTol a deviation := by
  have q1 := (hv a).one_le
  have q2 := (hv a).le
  refine removeTol_nonneg (by omega) hd fun i i0 i1 => ?_
  refine hw (a.insertNth i fun b => N.shape (a.succAbove b) - 1) fun b => ?_
  refine Fin.succAboveCases a ?_ (fun b => ?_) b
  · rw [Fin.insertNth_apply_same]
    have : N.n a = N.shape a - 1 := rfl
    exact ⟨i0, by omega⟩
  · rw [Fin.insertNth_apply_succAbove]
    have e1 := (hv (a.succAbove b)).one_le
    have e2 := (hv (a.succAbove b)).le
    unfold Nrb.n at e2
    omega

/-- more than the multiplicity is not asked for -/
theorem remove_min {eps : ℝ} (heps : 0 < eps) (jt : ℤ → (Fin d → ℤ) → ℕ → ℝ) {N : Nrb ℝ (d + 1)}
    (hv : N.Valid) {axis : ℤ} {a : Fin (d + 1)} (ha : normAxis (d + 1) axis = .ok a) {u : ℝ} (h1 : N.lo a < u)
    (h2 : u < N.hi a) (hsep : N.Sep eps a u) (hm : (N.multOf a u : ℤ) ≤ N.degree a) (t : ℕ) (deviation : ℝ) :
    N.remove eps jt axis u (some t) deviation = N.remove eps jt axis u (some ((min t (N.multOf a u) : ℕ) : ℤ)) deviation := by
  unfold Nrb.remove
  rw [ha, res_ok_bind, res_ok_bind]
  dsimp only
  rw [pyAssert_ok ⟨h1.le, h2.le⟩, res_ok_bind, res_ok_bind, findMult_res heps hv h1 h2 hsep hm, res_ok_bind, res_ok_bind,
    min_eq_left hm, Option.getD_some, Option.getD_some]
  push_cast
  rw [min_assoc, min_self]

/-- the core: what `remove` does when `r` copies can be removed -/
theorem remove_coarser {eps : ℝ} (heps : 0 < eps) (jt : ℤ → (Fin d → ℤ) → ℕ → ℝ) {N M : Nrb ℝ (d + 1)}
    (hv : N.Valid) {axis : ℤ} {a : Fin (d + 1)} (ha : normAxis (d + 1) axis = .ok a) {u : ℝ} (h1 : N.lo a < u)
    (h2 : u < N.hi a) (hsep : N.Sep eps a u) (hmu : (N.multOf a u : ℤ) ≤ N.degree a)
    (hm : ∀ b x, N.lo b < x → x < N.hi b → (N.multOf b x : ℤ) ≤ N.degree b + 1) {r : ℕ} (hr : 1 ≤ r)
    (hM : N.Coarser M a u r) {deviation : ℝ} (htol : 0 ≤ N.removeTol a deviation) :
    (∃ N', N.remove eps jt axis u (some r) deviation = .ok N' ∧ M.SameKnots N' ∧ N'.nc = N.nc ∧
      ∀ idx c, M.InNet idx → c < N.nc → N'.P idx c = M.P idx c) ∧
    ∀ l : ℕ, (r + l) ≤ N.multOf a u → ∀ N', N.remove eps jt axis u (some ((r + l : ℕ) : ℤ)) deviation = .ok N' →
      N'.shape a ≤ N.shape a - r := by
  have hmul : N.multOf a u = M.multOf a u + r := by
    rw [multOf_eq_count, multOf_eq_count, hM.knots, Multiset.count_add, Multiset.count_replicate_self]
  have hsepM : M.Sep eps a u := by
    rw [sep_iff] at hsep ⊢
    intro y hy
    exact hsep y (by rw [hM.knots]; exact Multiset.mem_add.2 (Or.inl hy))
  have h1' : M.lo a < u := by rw [hM.lo]; exact h1
  have h2' : u < M.hi a := by rw [hM.hi]; exact h2
  have ht : ((r + M.multOf a u : ℕ) : ℤ) ≤ M.degree a := by rw [hM.degree]; omega
  obtain ⟨N0, c1, c2, c3, c4, c5, c6⟩ := C07_insert heps (fun _ => 0) (fun _ _ _ => 0) hM.valid ha h1' h2' hsepM ht
  obtain ⟨p, hp, hk, e⟩ := deg_nat hM.valid a
  have hmo : M.multOf a u = mult (M.U a) 0 (M.n a + p + 1) u := by unfold Nrb.multOf; rw [e]
  have hsep' : SepFrom eps u (M.U a) 0 (M.n a + p + 1) := by unfold Nrb.Sep at hsepM; rwa [e] at hsepM
  have hN0 : ∃ V Q, BSp.InsertKnot eps (fun _ => 0) (fun _ _ _ => 0) (M.n a) (M.degree a) (M.U a) (M.row a) u r = .ok (V, Q) ∧
      N0 = M.setAxis a (M.shape a + r) (M.len a + r) V Q := by
    unfold Nrb.insert at c1
    rw [ha, res_ok_bind] at c1
    dsimp only at c1
    rw [pyAssert_ok ⟨h1'.le, h2'.le⟩, res_ok_bind, findMult_res heps hM.valid h1' h2' hsepM (by omega), res_ok_bind,
      min_eq_left (by omega), Option.getD_some, pyAssert_ok (by omega), res_ok_bind, if_neg (by omega)] at c1
    obtain ⟨⟨V, Q⟩, g1, g2⟩ := res_bind_ok_iff.mp c1
    exact ⟨V, Q, g1, (Except.ok.inj g2).symm⟩
  obtain ⟨V, Q, g1, hN0⟩ := hN0
  have gi := insertKnot_res heps (fun _ => 0) (fun _ _ _ => 0) hk (M.row a) (uu := u) (by rw [← hp]; exact h1')
    (by rw [← M.hi_eq]; exact h2') hsep' hr (by omega)
  rw [← hp, g1] at gi
  obtain ⟨hV, hQ⟩ := Prod.mk.inj (Except.ok.inj gi)
  have hrow : N0.row a = Q := by rw [hN0]; exact Nrb.setAxis_row _ _ _ _ _ _
  have hU0 : N0.U a = V := by rw [hN0, Nrb.setAxis_U_self]
  have hkall : ∀ b, N0.knots b = N.knots b := by
    intro b
    rcases eq_or_ne b a with rfl | hb
    · rw [c5, hM.knots]
    · have hlb : N0.len b = M.len b := len_of_degree (c3.degree b) (by rw [c4, Function.update_of_ne hb])
      rw [← hM.others b hb]
      unfold Nrb.knots
      rw [hlb, c6 b hb]
  have hlen : ∀ b, N0.len b = N.len b := fun b => (knots_unique hv c2 (hkall b)).1
  have hdeg : ∀ b, N0.degree b = N.degree b := fun b => by rw [c3.degree, hM.degree]
  have hshape : N0.shape = N.shape := by
    funext b
    have h1 := hlen b
    have h2 := hdeg b
    unfold Nrb.degree at h2
    omega
  have hSK : N.SameKnots N0 := sameKnots_of hv c2 hshape hkall
  have hnet : ∀ idx, N.InNet idx → ∀ c, c < N.nc → N0.P idx c = N.P idx c := by
    intro idx hi c hc
    refine net_unique hv hm hSK (fun x hx => ?_) hi
    have hxM : M.InDom x := fun b => by rw [hM.lo, hM.hi]; exact hx b
    rw [c3.eval x hxM, hM.eval x hx c hc]
  have hsa : N.shape a = M.shape a + r := by rw [← hshape, c4, Function.update_self]
  have hsb : ∀ b, b ≠ a → N.shape b = M.shape b := fun b hb => by rw [← hshape, c4, Function.update_of_ne hb]
  have hna : N.n a = M.n a + r := by unfold Nrb.n; omega
  have hdegN : N.degree a = p := by rw [← hM.degree, hp]
  have hlenN : N.len a = M.len a + r := by
    have q1 := M.len_eq a
    have q2 := N.len_eq a
    rw [hM.degree] at q1
    omega
  have hMn := hk.le
  set sz := a.removeNth N.shape with hsz
  have hnear : ∀ x : (Fin d → ℤ) → ℕ → ℝ, rowDist sz N.nc x x ≤ N.removeTol a deviation := by
    intro P
    rw [← rowSem_sub, sub_self, map_zero]
    exact htol
  have key := removeKnot_complete (cutRow sz N.nc) (fun _ => 0) (fun _ _ _ => 0) jt
    (near := fun P1 P2 => rowDist sz N.nc P1 P2 ≤ N.removeTol a deviation)
    (near' := fun P1 P2 => rowDist sz N.nc P1 P2 ≤ N.removeTol a deviation)
    (fun x y => by rw [rowDist_cut]) hnear hk (M.row a) (uu := u) (by rw [← hp]; exact h1') (by rw [← M.hi_eq]; exact h2')
    hr (by omega) (V := N.U a) (Q := N.row a) (fun i i0 i1 => by
      rw [← hp, ← hV, ← hU0]
      exact (hSK.knots a i i0 (by rw [hlenN]; omega)).symm) (fun i i0 i1 => by
      rw [← hp, ← hQ, ← hrow]
      refine cutRow_congr fun o c ho hc => ?_
      refine (hnet (a.insertNth i o) (fun b => ?_) c hc).symm
      refine Fin.succAboveCases a ?_ (fun b => ?_) b
      · rw [Fin.insertNth_apply_same]
        have : N.n a = N.shape a - 1 := rfl
        omega
      · rw [Fin.insertNth_apply_succAbove]
        exact ho b)
  obtain ⟨hRC, ⟨V2, Q2, k2, k3, k4⟩, k5⟩ := key
  have hsepN : SepFrom eps u (N.U a) 0 (M.n a + r + p + 1) := by
    unfold Nrb.Sep at hsep
    rw [N.len_eq, hdegN, hna] at hsep
    rwa [show M.n a + r + p + 2 - 1 = M.n a + r + (p : ℤ) + 1 by ring] at hsep
  have hcall : ∀ T : ℕ, 1 ≤ T → T ≤ N.multOf a u → N.remove eps jt axis u (some (T : ℤ)) deviation =
      .ok (N.setAxis a (N.shape a - (removeKnot jt (fun P1 P2 => rowDist sz N.nc P1 P2 ≤ N.removeTol a deviation) (M.n a + r) p
        (N.U a) (N.row a) u (findSpan (M.n a) p u (M.U a) + r) (mult (M.U a) 0 (M.n a + p + 1) u + r) T).1)
        (N.len a - (removeKnot jt (fun P1 P2 => rowDist sz N.nc P1 P2 ≤ N.removeTol a deviation) (M.n a + r) p
        (N.U a) (N.row a) u (findSpan (M.n a) p u (M.U a) + r) (mult (M.U a) 0 (M.n a + p + 1) u + r) T).1)
        (removeKnot jt (fun P1 P2 => rowDist sz N.nc P1 P2 ≤ N.removeTol a deviation) (M.n a + r) p
        (N.U a) (N.row a) u (findSpan (M.n a) p u (M.U a) + r) (mult (M.U a) 0 (M.n a + p + 1) u + r) T).2.1
        (removeKnot jt (fun P1 P2 => rowDist sz N.nc P1 P2 ≤ N.removeTol a deviation) (M.n a + r) p
        (N.U a) (N.row a) u (findSpan (M.n a) p u (M.U a) + r) (mult (M.U a) 0 (M.n a + p + 1) u + r) T).2.2) := by
    intro T T1 T2
    unfold Nrb.remove
    rw [ha, res_ok_bind]
    dsimp only
    rw [pyAssert_ok ⟨h1.le, h2.le⟩, res_ok_bind, findMult_res heps hv h1 h2 hsep hmu, res_ok_bind,
      min_eq_left hmu, Option.getD_some, min_eq_left (by omega), pyAssert_ok (by omega), res_ok_bind, if_neg (by omega),
      if_neg (not_le.mpr h1), if_neg (not_le.mpr h2), hna, hdegN]
    rw [removeKnot_res heps jt _ (N.row a) hRC hsepN (by omega) (by omega), res_ok_bind]
    rfl
  constructor
  · refine ⟨_, hcall r hr (by omega), ?_⟩
    rw [k2]
    dsimp only
    have hsh : (N.setAxis a (N.shape a - r) (N.len a - r) V2 Q2).shape = M.shape := by
      funext b
      rw [Nrb.setAxis_shape]
      rcases eq_or_ne b a with rfl | hb
      · rw [Function.update_self]; omega
      · rw [Function.update_of_ne hb, hsb b hb]
    have hle : (N.setAxis a (N.shape a - r) (N.len a - r) V2 Q2).len = M.len := by
      funext b
      rw [Nrb.setAxis_len]
      rcases eq_or_ne b a with rfl | hb
      · rw [Function.update_self]; omega
      · rw [Function.update_of_ne hb]
        have := hM.degree b
        unfold Nrb.degree at this
        have := hsb b hb
        omega
    refine ⟨⟨hsh, hle, fun b j j0 j1 => ?_⟩, rfl, fun idx c hi hc => ?_⟩
    · rcases eq_or_ne b a with rfl | hb
      · rw [Nrb.setAxis_U_self]
        exact k3 j j0 (by rw [M.len_eq] at j1; omega)
      · rw [Nrb.setAxis_U_ne _ _ _ _ _ _ hb]
        have q := (knots_unique hv hM.valid (hM.others b hb))
        exact (q.2 j j0 (by rw [← q.1]; exact j1)).symm
    · have q := k4 (idx a) (hi a).1 (by have := (hi a).2; unfold Nrb.n; omega)
      have q := congrFun (congrFun q (a.removeNth idx)) c
      have hin : (∀ b, 0 ≤ a.removeNth idx b ∧ a.removeNth idx b < sz b) ∧ c < N.nc := by
        refine ⟨fun b => ?_, hc⟩
        have := hi (a.succAbove b)
        rw [← hsb _ (Fin.succAbove_ne a b)] at this
        exact this
      rw [cutRow_in _ _ _ hin, cutRow_in _ _ _ hin] at q
      show Q2 (idx a) (a.removeNth idx) c = _
      rw [q]
      unfold Nrb.row
      rw [Fin.insertNth_self_removeNth]
  · intro l hl N' h
    rw [hcall (r + l) (by omega) hl] at h
    have := Except.ok.inj h
    rw [← this, Nrb.setAxis_shape, Function.update_self]
    have := k5 l
    omega

/-- number of removed copies, for all forms of `times` -/
theorem remove_count {eps : ℝ} (heps : 0 < eps) (jt : ℤ → (Fin d → ℤ) → ℕ → ℝ) {N : Nrb ℝ (d + 1)}
    (hv : N.Valid) {axis : ℤ} {a : Fin (d + 1)} (ha : normAxis (d + 1) axis = .ok a) {u : ℝ} (h1 : N.lo a < u)
    (h2 : u < N.hi a) (hsep : N.Sep eps a u) (hmu : (N.multOf a u : ℤ) ≤ N.degree a)
    (hm : ∀ b x, N.lo b < x → x < N.hi b → (N.multOf b x : ℤ) ≤ N.degree b + 1) {deviation : ℝ}
    (htol : 0 ≤ N.removeTol a deviation) (times : Option ℕ) :
    ∃ (N' : Nrb ℝ (d + 1)) (k : ℕ), N.remove eps jt axis u (times.map Nat.cast) deviation = .ok N' ∧ 
      N'.Valid ∧ N'.nc = N.nc ∧ N'.shape = Function.update N.shape a (N.shape a - k) ∧
      N.knots a = N'.knots a + Multiset.replicate k u ∧ (∀ b, b ≠ a → N'.U b = N.U b) ∧
      (∀ b, N'.degree b = N.degree b ∧ N'.lo b = N.lo b ∧ N'.hi b = N.hi b) ∧
      (∀ x, N.InDom x → ∀ c, c < N.nc → |N'.eval x c - N.eval x c| ≤ k * N.removeTol a deviation) ∧
      ∀ M r, N.Coarser M a u r → (∀ t, times = some t → r ≤ t) → r ≤ k := by
  obtain ⟨T, hT, hT1, hT2⟩ : ∃ T : ℕ, N.remove eps jt axis u (times.map Nat.cast) deviation =
      N.remove eps jt axis u (some (T : ℤ)) deviation ∧ T ≤ N.multOf a u ∧
      ∀ r, r ≤ N.multOf a u → (∀ t, times = some t → r ≤ t) → r ≤ T := by
    cases times with
    | none => exact ⟨_, remove_none heps jt hv ha h1 h2 hsep hmu deviation, le_rfl, fun r h _ => h⟩
    | some t => exact ⟨_, remove_min heps jt hv ha h1 h2 hsep hmu t deviation, min_le_right _ _, fun r h h' => le_min (h' t rfl) h⟩
  obtain ⟨N', k, g1, g2, g3, g4, g5, g6, g7, g8, g9, g10, g11⟩ := C17_remove_deviation heps jt hv ha h1 h2 hsep hmu T deviation
  refine ⟨N', k, hT.trans g1, g4, g5, g6, g7, g8, g9, g10, fun M r hM hr => ?_⟩
  rcases Nat.eq_zero_or_pos r with rfl | hr1
  · exact Nat.zero_le _
  have hmul : N.multOf a u = M.multOf a u + r := by
    rw [multOf_eq_count, multOf_eq_count, hM.knots, Multiset.count_add, Multiset.count_replicate_self]
  have hrT := hT2 r (by omega) hr
  obtain ⟨l, rfl⟩ := Nat.exists_eq_add_of_le hrT
  have := (remove_coarser heps jt hv ha h1 h2 hsep hmu hm hr1 hM htol).2 l hT1 N' g1
  rw [g6, Function.update_self] at this
  omega

/-- C60: if the map of the object can be described with `r` copies of the interior knot `u` less, then `nrb.remove(axis, u,
times)` with `times >= r` or `times=None` removes at least `r` copies, for every `deviation >= 0` -/
theorem C60_remove {eps : ℝ} (heps : 0 < eps) (jt : ℤ → (Fin d → ℤ) → ℕ → ℝ) {N : Nrb ℝ (d + 1)}
    (hv : N.Valid) {axis : ℤ} {a : Fin (d + 1)} (ha : normAxis (d + 1) axis = .ok a) {u : ℝ} (h1 : N.lo a < u)
    (h2 : u < N.hi a) (hsep : N.Sep eps a u) (hmu : (N.multOf a u : ℤ) ≤ N.degree a)
    (hm : ∀ b x, N.lo b < x → x < N.hi b → (N.multOf b x : ℤ) ≤ N.degree b + 1) {deviation : ℝ} (hd : 0 ≤ deviation)
    (hw : ∀ idx, N.InNet idx → 0 ≤ N.P idx (N.nc - 1)) (times : Option ℕ) :
    ∃ (N' : Nrb ℝ (d + 1)) (k : ℕ), N.remove eps jt axis u (times.map Nat.cast) deviation = .ok N' ∧ N'.Valid ∧
      N.knots a = N'.knots a + Multiset.replicate k u ∧
      ∀ M r, N.Coarser M a u r → (∀ t, times = some t → r ≤ t) → r ≤ k := by
  obtain ⟨N', k, g1, g2, _, _, g3, _, _, _, g4⟩ := remove_count heps jt hv ha h1 h2 hsep hmu hm (removeTol_nonneg' hv a hd hw) times
  exact ⟨N', k, g1, g2, g3, g4⟩

/-- C60: and with `times=r` the result is the coarser description -/
theorem C60_restores {eps : ℝ} (heps : 0 < eps) (jt : ℤ → (Fin d → ℤ) → ℕ → ℝ) {N M : Nrb ℝ (d + 1)}
    (hv : N.Valid) {axis : ℤ} {a : Fin (d + 1)} (ha : normAxis (d + 1) axis = .ok a) {u : ℝ} (h1 : N.lo a < u)
    (h2 : u < N.hi a) (hsep : N.Sep eps a u) (hmu : (N.multOf a u : ℤ) ≤ N.degree a)
    (hm : ∀ b x, N.lo b < x → x < N.hi b → (N.multOf b x : ℤ) ≤ N.degree b + 1) {r : ℕ} (hr : 1 ≤ r)
    (hM : N.Coarser M a u r) {deviation : ℝ} (hd : 0 ≤ deviation)
    (hw : ∀ idx, N.InNet idx → 0 ≤ N.P idx (N.nc - 1)) :
    ∃ N', N.remove eps jt axis u (some r) deviation = .ok N' ∧ M.SameKnots N' ∧ N'.nc = N.nc ∧
      ∀ idx c, M.InNet idx → c < N.nc → N'.P idx c = M.P idx c :=
  (remove_coarser heps jt hv ha h1 h2 hsep hmu hm hr hM (removeTol_nonneg' hv a hd hw)).1

/-- C60: `nrb.remove(axis, u, times, deviation=0)` leaves the map as it is and removes as many copies as the map allows,
whatever the signs of weights and fields -/
theorem C60_exact {eps : ℝ} (heps : 0 < eps) (jt : ℤ → (Fin d → ℤ) → ℕ → ℝ) {N : Nrb ℝ (d + 1)}
    (hv : N.Valid) {axis : ℤ} {a : Fin (d + 1)} (ha : normAxis (d + 1) axis = .ok a) {u : ℝ} (h1 : N.lo a < u)
    (h2 : u < N.hi a) (hsep : N.Sep eps a u) (hmu : (N.multOf a u : ℤ) ≤ N.degree a)
    (hm : ∀ b x, N.lo b < x → x < N.hi b → (N.multOf b x : ℤ) ≤ N.degree b + 1) (times : Option ℕ) :
    ∃ (N' : Nrb ℝ (d + 1)) (k : ℕ), N.remove eps jt axis u (times.map Nat.cast) 0 = .ok N' ∧ N.Coarser N' a u k ∧
      ∀ M r, N.Coarser M a u r → (∀ t, times = some t → r ≤ t) → r ≤ k := by
  have h0 : N.removeTol a 0 = 0 := by
    unfold Nrb.removeTol
    simp
  obtain ⟨N', k, g1, g2, g3, g4, g5, g6, g7, g8, g9⟩ := remove_count heps jt hv ha h1 h2 hsep hmu hm h0.ge times
  refine ⟨N', k, g1, ⟨g2, g3, fun b => (g7 b).1, fun b => (g7 b).2.1, fun b => (g7 b).2.2, g5, fun b hb => ?_, fun x hx c hc => ?_⟩, g9⟩
  · have hl : N'.len b = N.len b := len_of_degree (g7 b).1 (by rw [g4, Function.update_of_ne hb])
    unfold Nrb.knots
    rw [hl, g6 b hb]
  · have := g8 x hx c hc
    rw [h0, mul_zero] at this
    exact sub_eq_zero.1 (abs_nonpos_iff.1 this)

end Igakit
