import Verif.Proofs.DataCall

/-! # Proofs: the order of refinements does not matter -/

set_option linter.unusedSectionVars false

namespace Igakit
open Spec

variable {K : Type} [Field K] [LinearOrder K] [IsStrictOrderedRing K] {d : ℕ}

theorem mult_inner_le {N : Nrb K d} (hv : N.Valid) {a : Fin d} (hm : N.InnerMult a) (x : K) :
    (mult (N.U a) 1 (N.len a - 2) x : ℤ) ≤ N.degree a := by
  obtain ⟨p, hp, hk, e⟩ := deg_nat hv a
  have h1 := hk.one_le
  have h2 := hk.le
  have hs := hk.sorted
  by_cases c1 : x ≤ N.U a p
  · have hsub : (Finset.Icc 1 (N.len a - 2)).filter (fun i => N.U a i = x) ⊆ Finset.Icc 1 (p : ℤ) := by
      intro j hj
      obtain ⟨hj, hx⟩ := Finset.mem_filter.1 hj
      have hj := Finset.mem_Icc.1 hj
      refine Finset.mem_Icc.2 ⟨hj.1, ?_⟩
      by_contra hc
      have := hs (p + 1) j (by omega) (by omega) (by omega)
      rw [hx] at this
      exact absurd (lt_of_lt_of_le hk.first this) (not_lt.2 c1)
    have := Finset.card_le_card hsub
    rw [Int.card_Icc] at this
    unfold mult
    omega
  · by_cases c2 : N.U a (N.n a + 1) ≤ x
    · have hsub : (Finset.Icc 1 (N.len a - 2)).filter (fun i => N.U a i = x) ⊆ Finset.Icc (N.n a + 1) (N.n a + p) := by
        intro j hj
        obtain ⟨hj, hx⟩ := Finset.mem_filter.1 hj
        have hj := Finset.mem_Icc.1 hj
        refine Finset.mem_Icc.2 ⟨?_, by omega⟩
        by_contra hc
        have := hs j (N.n a) (by omega) (by omega) (by omega)
        rw [hx] at this
        exact absurd (lt_of_le_of_lt this hk.last) (not_lt.2 c2)
      have := Finset.card_le_card hsub
      rw [Int.card_Icc] at this
      unfold mult
      omega
    · have := hm x (by rw [N.lo_eq, hp]; exact not_le.1 c1) (by rw [N.hi_eq]; exact not_le.1 c2)
      have hsub : (Finset.Icc 1 (N.len a - 2)).filter (fun i => N.U a i = x) ⊆
          (Finset.Icc 0 (N.len a - 1)).filter (fun i => N.U a i = x) := by
        intro j hj
        obtain ⟨hj, hx⟩ := Finset.mem_filter.1 hj
        have hj := Finset.mem_Icc.1 hj
        exact Finset.mem_filter.2 ⟨Finset.mem_Icc.2 ⟨by omega, by omega⟩, hx⟩
      have := Finset.card_le_card hsub
      unfold Nrb.multOf at *
      unfold mult at *
      omega

theorem mult_inner_le_multOf (N : Nrb K d) (a : Fin d) (x : K) :
    mult (N.U a) 1 (N.len a - 2) x ≤ N.multOf a x := by
  unfold Nrb.multOf mult
  apply Finset.card_le_card
  intro j hj
  obtain ⟨hj, hx⟩ := Finset.mem_filter.1 hj
  have hj := Finset.mem_Icc.1 hj
  exact Finset.mem_filter.2 ⟨Finset.mem_Icc.2 ⟨by omega, by omega⟩, hx⟩

theorem sep_iff {N : Nrb K d} {eps : K} {a : Fin d} {x : K} :
    N.Sep eps a x ↔ ∀ y ∈ N.knots a, y = x ∨ eps ≤ |x - y| := by
  unfold Nrb.Sep SepFrom Nrb.knots
  constructor
  · intro h y hy
    obtain ⟨j, h0, h1, rfl⟩ := mem_knotMS.1 hy
    exact h j h0 h1
  · intro h j h0 h1
    exact h _ (mem_knotMS.2 ⟨j, h0, h1, rfl⟩)

theorem canAdd_after {N N' : Nrb K d} {eps : K} {a : Fin d} {V W : Multiset K} (h : N.CanAdd eps a (V + W))
    (hS : N.SameMap N') (hk : N'.knots a = N.knots a + V) : N'.CanAdd eps a W := by
  have hw : ∀ x ∈ W, x ∈ V + W := fun x hx => Multiset.mem_add.2 (Or.inr hx)
  refine ⟨fun x hx => ?_, fun x hx => ?_, fun x hx => ?_, fun x hx y hy => h.apart x (hw x hx) y (hw y hy), fun x hx => ?_⟩
  · rw [hS.lo]; exact h.lo x (hw x hx)
  · rw [hS.hi]; exact h.hi x (hw x hx)
  · rw [sep_iff, hk]
    intro y hy
    rcases Multiset.mem_add.1 hy with hy | hy
    · exact sep_iff.1 (h.sep x (hw x hx)) y hy
    · exact (h.apart x (hw x hx) y (Multiset.mem_add.2 (Or.inl hy))).imp Eq.symm id
  · have := h.mult x (hw x hx)
    rw [multOf_eq_count] at this ⊢
    rw [hk, Multiset.count_add, hS.degree]
    rw [Multiset.count_add] at this
    push_cast at this ⊢
    omega

theorem inner_after {N N' : Nrb K d} {eps : K} {a : Fin d} {V W : Multiset K} (h : N.CanAdd eps a (V + W))
    (hm : N.InnerMult a) (hS : N.SameMap N') (hk : N'.knots a = N.knots a + V) : N'.InnerMult a := by
  intro x h1 h2
  rw [hS.lo] at h1
  rw [hS.hi] at h2
  rw [multOf_eq_count, hk, Multiset.count_add, hS.degree]
  by_cases hx : x ∈ V
  · have := h.mult x (Multiset.mem_add.2 (Or.inl hx))
    rw [multOf_eq_count, Multiset.count_add] at this
    push_cast at this ⊢
    omega
  · have := hm x h1 h2
    rw [multOf_eq_count] at this
    rw [Multiset.count_eq_zero.2 hx]
    push_cast
    omega

/-- what a call of `insert` or `refine` does -/
structure Nrb.Added (N N' : Nrb K d) (V : Fin d → Multiset K) : Prop where
  valid : N'.Valid
  map : N.SameMap N'
  shape : ∀ a, N'.shape a = N.shape a + (V a).card
  knots : ∀ a, N'.knots a = N.knots a + V a

theorem Nrb.Added.refl {N : Nrb K d} (hv : N.Valid) : N.Added N (fun _ => 0) :=
  ⟨hv, Nrb.SameMap.refl N, fun _ => by simp, fun _ => by simp⟩

theorem sameMap_trans {N N' N'' : Nrb K d} (h : N.SameMap N') (h' : N'.SameMap N'') : N.SameMap N'' := by
  refine ⟨h'.nc.trans h.nc, fun a => (h'.degree a).trans (h.degree a), fun a => (h'.lo a).trans (h.lo a),
    fun a => (h'.hi a).trans (h.hi a), fun x hx => ?_⟩
  rw [h'.eval x (fun a => by rw [h.lo, h.hi]; exact hx a), h.eval x hx]

theorem Nrb.Added.trans {N N' N'' : Nrb K d} {V W : Fin d → Multiset K} (h : N.Added N' V) (h' : N'.Added N'' W) :
    N.Added N'' (fun a => V a + W a) :=
  ⟨h'.valid, sameMap_trans h.map h'.map, fun a => by rw [h'.shape, h.shape, Multiset.card_add]; push_cast; ring,
    fun a => by rw [h'.knots, h.knots, add_assoc]⟩

theorem added_axis {N N' : Nrb K d} {a : Fin d} {V : Multiset K} (hv : N'.Valid) (hS : N.SameMap N')
    (hs : N'.shape = Function.update N.shape a (N.shape a + V.card)) (hk : N'.knots a = N.knots a + V)
    (hU : ∀ b, b ≠ a → N'.U b = N.U b) : N.Added N' (fun b => if b = a then V else 0) := by
  refine ⟨hv, hS, fun b => ?_, fun b => ?_⟩
  · by_cases hb : b = a
    · subst hb; rw [hs, Function.update_self, if_pos rfl]
    · rw [hs, Function.update_of_ne hb, if_neg hb]; simp
  · by_cases hb : b = a
    · subst hb; rw [hk, if_pos rfl]
    · unfold Nrb.knots
      rw [hU b hb, len_of_degree (hS.degree b) (by rw [hs, Function.update_of_ne hb]), if_neg hb, add_zero]

theorem refines_ok {env : Env K} (heps : 0 < env.eps) (jn : Scratch K) {N : Nrb K d} (hv : N.Valid)
    (hm : ∀ a, N.InnerMult a) {g : Geo K} (hg : g.Refines d) {W : Fin d → Multiset K}
    (hc : ∀ a, N.CanAdd env.eps a (g.added a + W a)) :
    ∃ N', g.apply env jn g.vals N = .ok N' ∧ N.Added N' (fun a => g.added a) := by
  cases g with
  | insert axis v times =>
    cases times with
    | none => exact hg.elim
    | some t =>
      obtain ⟨ht, a, ha⟩ := hg
      cases d with
      | zero => exact a.elim0
      | succ d =>
        have hadd : (fun b : Fin (d + 1) => (Geo.insert axis v (some t) : Geo K).added b) =
            fun b => if b = a then Multiset.replicate t.toNat v else 0 := by
          funext b
          show (if normAxis (d + 1) axis = .ok b then Multiset.replicate t.toNat v else 0) = _
          rw [ha]
          by_cases hb : b = a
          · rw [if_pos (by rw [hb]), if_pos hb]
          · rw [if_neg (by intro h; injection h with h; exact hb h.symm), if_neg hb]
        obtain ⟨k, rfl⟩ := Int.eq_ofNat_of_zero_le ht.le
        rw [hadd]
        have hca := hc a
        rw [congrFun hadd a, if_pos rfl, Int.toNat_natCast] at hca
        have hk0 : k ≠ 0 := by omega
        have hmem : v ∈ Multiset.replicate k v + W a :=
          Multiset.mem_add.2 (Or.inl (Multiset.mem_replicate.2 ⟨hk0, rfl⟩))
        have hcnt := hca.mult v hmem
        rw [Multiset.count_add, Multiset.count_replicate_self] at hcnt
        obtain ⟨N', e1, e2, e3, e4, e5, e6⟩ := C07_insert heps jn.k jn.rows hv ha (hca.lo v hmem) (hca.hi v hmem)
          (hca.sep v hmem) (t := k) (by push_cast at hcnt ⊢; omega)
        exact ⟨N', e1, added_axis e2 e3 (by rw [Int.toNat_natCast, Multiset.card_replicate]; exact e4) e5 e6⟩
  | refine axis values =>
    cases values with
    | block => exact hg.elim
    | fresh l =>
      obtain ⟨a, ha⟩ := hg
      cases d with
      | zero => exact a.elim0
      | succ d =>
        have hadd : (fun b : Fin (d + 1) => (Geo.refine axis (.fresh l) : Geo K).added b) =
            fun b => if b = a then (l : Multiset K) else 0 := by
          funext b
          show (if normAxis (d + 1) axis = .ok b then (l : Multiset K) else 0) = _
          rw [ha]
          by_cases hb : b = a
          · rw [if_pos (by rw [hb]), if_pos hb]
          · rw [if_neg (by intro h; injection h with h; exact hb h.symm), if_neg hb]
        rw [hadd]
        have hca := hc a
        rw [congrFun hadd a, if_pos rfl] at hca
        show ∃ N', (if l = [] then .ok N else onAxis N (fun N => N.refine env.eps jn.k jn.rows axis l)) = .ok N' ∧ _
        by_cases hl : l = []
        · subst hl
          rw [if_pos rfl]
          refine ⟨N, rfl, ?_⟩
          have := Nrb.Added.refl hv
          simpa using this
        rw [if_neg hl]
        have hmem : ∀ x ∈ l, x ∈ (l : Multiset K) + W a := fun x hx => Multiset.mem_add.2 (Or.inl hx)
        obtain ⟨N', e1, e2, e3, e4, e5, e6⟩ := C09_refine heps jn.k jn.rows hv ha (fun x hx => hca.lo x (hmem x hx))
          (fun x hx => hca.hi x (hmem x hx)) (fun x hx => hca.sep x (hmem x hx))
          (fun x hx y hy => hca.apart x (hmem x hx) y (hmem y hy)) (fun x => by
            by_cases hx : x ∈ l
            · have h1 := hca.mult x (hmem x hx)
              rw [Multiset.count_add, Multiset.coe_count] at h1
              have h2 := mult_inner_le_multOf N a x
              push_cast at h1 ⊢
              omega
            · rw [List.count_eq_zero_of_not_mem hx, zero_add]
              exact mult_inner_le hv (hm a) x)
        exact ⟨N', e1, added_axis e2 e3 (by rw [Multiset.coe_card]; exact e4) e5 e6⟩
  | _ => exact hg.elim

end Igakit
