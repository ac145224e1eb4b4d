import Verif.Proofs.HullNrb
import Mathlib.Analysis.Convex.Combination
import Verif.Props.History
import Verif.Props.Slice
import Verif.Props.Conform

/-!
# Method calls whose new control points are averages of the old ones
-/

set_option linter.unusedSectionVars false

namespace Igakit
open Spec

variable {K : Type} [Field K] [LinearOrder K] [IsStrictOrderedRing K] {d : ℕ}

/-- same map on the same domain, more knots on axis `a` (knots outside the domain may be missing) -/
structure MoreKnots {d : ℕ} (N N' : Nrb K d) (a : Fin d) : Prop where
  valid : N'.Valid
  same : N.SameMap N'
  U : ∀ b, b ≠ a → N'.U b = N.U b
  shape : ∀ b, b ≠ a → N'.shape b = N.shape b
  inner : ∀ b, N'.InnerMult b
  mult : ∀ y, N'.U a 0 < y → y < N'.U a (N'.len a - 1) → N.multOf a y ≤ N'.multOf a y

theorem MoreKnots.refl {N : Nrb K d} (hv : N.Valid) (hm : ∀ a, N.InnerMult a) (a : Fin d) : MoreKnots N N a :=
  ⟨hv, Nrb.SameMap.refl N, fun _ _ => rfl, fun _ _ => rfl, hm, fun _ _ _ => le_rfl⟩

/-- same map on the same domain, more knots on one axis -/
theorem averages_sameMap {N N' : Nrb K (d + 1)} (hv : N.Valid) (hv' : N'.Valid) (hS : N.SameMap N') {a : Fin (d + 1)}
    (hU : ∀ b, b ≠ a → N'.U b = N.U b) (hs : ∀ b, b ≠ a → N'.shape b = N.shape b) (hi : ∀ b, N'.InnerMult b)
    (hm : ∀ y, N'.U a 0 < y → y < N'.U a (N'.len a - 1) → N.multOf a y ≤ N'.multOf a y) : N.Averages N' := by
  refine hull_axis hv hv' hS.degree (fun b hb => ⟨hU b hb, hs b hb⟩) (hS.lo a).ge (hS.hi a).le (fun x hx => ?_) hm
    (fun b x h1 h2 => by have := hi b x h1 h2; omega)
  refine hS.eval x fun b => ?_
  have := hx b
  rw [hS.lo, hS.hi] at this
  exact this

theorem MoreKnots.averages {N N' : Nrb K (d + 1)} (hv : N.Valid) {a : Fin (d + 1)} (h : MoreKnots N N' a) : N.Averages N' :=
  averages_sameMap hv h.valid h.same h.U h.shape h.inner h.mult

theorem insert_more {eps : K} (heps : 0 < eps) {jk : ℤ → K} {je : ℤ → (Fin d → ℤ) → ℕ → K} {N N' : Nrb K (d + 1)}
    (hv : N.Valid) (hm : ∀ a, N.InnerMult a) {axis : ℤ} {v : K} {times : Option ℤ}
    (ht : ∀ a, normAxis (d + 1) axis = .ok a → v ≠ N.lo a ∧ v ≠ N.hi a ∧ N.Sep eps a v)
    (h : N.insert eps jk je axis v times = .ok N') : ∃ a, MoreKnots N N' a := by
  have hF' := insert_follows heps (follows_start hv hm) ht h
  obtain ⟨a, ha, h1, h2, m, hfm, g0, g1, g2⟩ := insert_inv h
  obtain ⟨n1, n2, hsep⟩ := ht a ha
  have h1 := lt_of_le_of_ne h1 (Ne.symm n1)
  have h2 := lt_of_le_of_ne h2 n2
  have hmul := hm a v h1 h2
  rw [findMult_res heps hv h1 h2 hsep hmul] at hfm
  obtain rfl : (N.multOf a v : ℤ) = m := by injection hfm
  rw [min_eq_left hmul] at g0 g1 g2
  obtain ⟨t, hT⟩ := Int.eq_ofNat_of_zero_le g0
  rw [hT] at g1 g2
  obtain ⟨N2, e1, e2, e3, e4, e5, e6⟩ := C07_insert heps jk je hv ha h1 h2 hsep (t := t) (by push_cast; exact g1)
  rw [e1] at g2
  obtain rfl : N2 = N' := by injection g2
  refine ⟨a, e2, e3, e6, fun b hb => by rw [e4, Function.update_of_ne hb], hF'.inner, fun y _ _ => ?_⟩
  rw [multOf_eq_count, multOf_eq_count, e5, Multiset.count_add]
  omega

theorem insert_averages {eps : K} (heps : 0 < eps) {jk : ℤ → K} {je : ℤ → (Fin d → ℤ) → ℕ → K} {N N' : Nrb K (d + 1)}
    (hv : N.Valid) (hm : ∀ a, N.InnerMult a) {axis : ℤ} {v : K} {times : Option ℤ}
    (ht : ∀ a, normAxis (d + 1) axis = .ok a → v ≠ N.lo a ∧ v ≠ N.hi a ∧ N.Sep eps a v)
    (h : N.insert eps jk je axis v times = .ok N') : N.Averages N' := by
  obtain ⟨a, h⟩ := insert_more heps hv hm ht h
  exact h.averages hv

theorem refine_more {eps : K} (heps : 0 < eps) {jk : ℤ → K} {je : ℤ → (Fin d → ℤ) → ℕ → K} {N N' : Nrb K (d + 1)}
    (hv : N.Valid) (hm : ∀ a, N.InnerMult a) {axis : ℤ} {vals : List K}
    (ht : ∀ a, normAxis (d + 1) axis = .ok a →
      (∀ x ∈ vals, x ≠ N.lo a ∧ x ≠ N.hi a ∧ N.Sep eps a x) ∧ ∀ x ∈ vals, ∀ y ∈ vals, x = y ∨ eps ≤ |x - y|)
    (h : N.refine eps jk je axis vals = .ok N') : ∃ a, MoreKnots N N' a := by
  have hF' := refine_follows heps (follows_start hv hm) ht h
  have h0 := h
  unfold Nrb.refine at h
  by_cases hnil : vals = []
  · rw [if_pos hnil] at h
    obtain rfl : N = N' := by injection h
    exact ⟨0, MoreKnots.refl hv hm 0⟩
  rw [if_neg hnil] at h
  obtain ⟨a, ha, h⟩ := res_bind_inv h
  obtain ⟨u, hu, _⟩ := res_bind_inv h
  obtain ⟨hx, hxy⟩ := ht a ha
  have hperm := sort_perm vals
  have hsrt := sort_pairwise vals
  unfold Nrb.refineArg at hu
  obtain ⟨_, a1, hu⟩ := res_bind_inv hu
  obtain ⟨_, a2, hu⟩ := res_bind_inv hu
  dsimp only at hu
  obtain ⟨_, a3, hu⟩ := res_bind_inv hu
  have a1 := pyAssert_ok_iff.1 a1
  have a2 := pyAssert_ok_iff.1 a2
  have a3 := pyAssert_ok_iff.1 a3
  have hlo : ∀ x ∈ vals, N.lo a ≤ x := by
    intro x hm
    have hm' := hperm.mem_iff.2 hm
    generalize vals.mergeSort (fun x y => decide (x ≤ y)) = X at *
    cases X with
    | nil => cases hm'
    | cons y X =>
      have hy : N.lo a ≤ y := a1 y rfl
      rcases List.mem_cons.1 hm' with rfl | hm'
      · exact hy
      · exact hy.trans (List.rel_of_pairwise_cons hsrt hm')
  have hhi : ∀ x ∈ vals, x ≤ N.hi a := by
    intro x hm
    have hm' := hperm.mem_iff.2 hm
    generalize vals.mergeSort (fun x y => decide (x ≤ y)) = X at *
    rcases List.eq_nil_or_concat X with rfl | ⟨Y, y, rfl⟩
    · cases hm'
    · rw [List.concat_eq_append] at *
      have hy : y ≤ N.hi a := a2 y (by simp)
      rcases List.mem_append.1 hm' with hm' | hm'
      · exact ((List.pairwise_append.1 hsrt).2.2 x hm' y (by simp)).trans hy
      · rw [List.mem_singleton.1 hm']; exact hy
  have hdeg : 0 ≤ N.degree a := by
    obtain ⟨p, hp, _, _⟩ := deg_nat hv a
    omega
  have hcnt : ∀ x, ((vals.count x + mult (N.U a) 1 (N.len a - 2) x : ℕ) : ℤ) ≤ N.degree a := by
    intro x
    rw [← hperm.count_eq]
    exact count_le_of_list hdeg a3 x
  obtain ⟨N2, e1, e2, e3, e4, e5, e6⟩ := C09_refine heps jk je hv ha
    (fun x hm => lt_of_le_of_ne (hlo x hm) (Ne.symm (hx x hm).1)) (fun x hm => lt_of_le_of_ne (hhi x hm) (hx x hm).2.1)
    (fun x hm => (hx x hm).2.2) hxy hcnt
  rw [e1] at h0
  obtain rfl : N2 = N' := by injection h0
  refine ⟨a, e2, e3, e6, fun b hb => by rw [e4, Function.update_of_ne hb], hF'.inner, fun y _ _ => ?_⟩
  rw [multOf_eq_count, multOf_eq_count, e5, Multiset.count_add]
  omega

theorem refine_averages {eps : K} (heps : 0 < eps) {jk : ℤ → K} {je : ℤ → (Fin d → ℤ) → ℕ → K} {N N' : Nrb K (d + 1)}
    (hv : N.Valid) (hm : ∀ a, N.InnerMult a) {axis : ℤ} {vals : List K}
    (ht : ∀ a, normAxis (d + 1) axis = .ok a →
      (∀ x ∈ vals, x ≠ N.lo a ∧ x ≠ N.hi a ∧ N.Sep eps a x) ∧ ∀ x ∈ vals, ∀ y ∈ vals, x = y ∨ eps ≤ |x - y|)
    (h : N.refine eps jk je axis vals = .ok N') : N.Averages N' := by
  obtain ⟨a, h⟩ := refine_more heps hv hm ht h
  exact h.averages hv

theorem clamp_more {eps : K} (heps : 0 < eps) {je : ℤ → (Fin d → ℤ) → ℕ → K} {N N' : Nrb K (d + 1)}
    (hv : N.Valid) (hm : ∀ a, N.InnerMult a) {axis : ℤ} {side : Option ℤ}
    (ht : ∀ a, normAxis (d + 1) axis = .ok a → N.SepBoth eps a)
    (h : N.clamp eps je axis side = .ok N') : ∃ a, MoreKnots N N' a := by
  have hF' := clamp_follows heps (follows_start hv hm) ht h
  have h0 := h
  unfold Nrb.clamp at h
  obtain ⟨a, ha, h⟩ := res_bind_inv h
  obtain ⟨lr, hlr, _⟩ := res_bind_inv h
  obtain ⟨N2, e1, e2, e3, e4, c0, c1, e5, e6⟩ := C13_clamp heps je hv ha (sideFlags_inv hlr) (ht a ha)
  rw [e1] at h0
  obtain rfl : N2 = N' := by injection h0
  refine ⟨a, e2, e3, e6, fun b _ => by rw [e4], hF'.inner, fun y y0 y1 => ?_⟩
  obtain ⟨p, hp, hk, e⟩ := deg_nat hv a
  have hl : N2.len a = N.len a := len_of_degree (e3.degree a) (by rw [e4])
  have hsn : N.shape a = N.n a + 1 := by unfold Nrb.n; ring
  have hle := hk.le
  have h1p := hk.one_le
  unfold Nrb.multOf mult
  rw [hl] at y1 ⊢
  apply Finset.card_le_card
  intro z hz
  rw [Finset.mem_filter, Finset.mem_Icc] at hz ⊢
  refine ⟨hz.1, ?_⟩
  rw [e5 z ?_ ?_]
  · exact hz.2
  · by_cases hs : selects side 0
    · right
      by_contra hc
      have := c0 hs 0 le_rfl (by omega)
      rw [this, N.lo_eq, hp, ← hz.2] at y0
      exact absurd y0 (not_lt.mpr (hk.sorted z p (by omega) (by omega) (by omega)))
    · exact Or.inl hs
  · by_cases hs : selects side 1
    · right
      by_contra hc
      have := c1 hs (N.len a - 1) (by omega) (by omega)
      rw [this, N.hi_eq, ← hz.2] at y1
      exact absurd y1 (not_lt.mpr (hk.sorted (N.n a + 1) z (by omega) (by omega) (by omega)))
    · exact Or.inl hs

theorem clamp_averages {eps : K} (heps : 0 < eps) {je : ℤ → (Fin d → ℤ) → ℕ → K} {N N' : Nrb K (d + 1)}
    (hv : N.Valid) (hm : ∀ a, N.InnerMult a) {axis : ℤ} {side : Option ℤ}
    (ht : ∀ a, normAxis (d + 1) axis = .ok a → N.SepBoth eps a)
    (h : N.clamp eps je axis side = .ok N') : N.Averages N' := by
  obtain ⟨a, h⟩ := clamp_more heps hv hm ht h
  exact h.averages hv

theorem elevate_averages {eps : K} (heps : 0 < eps) {jk : ℤ → K} {je : ℤ → (Fin d → ℤ) → ℕ → K} {jb : ℤ → ℤ → K}
    {N N' : Nrb K (d + 1)} (hv : N.Valid) (hm : ∀ a, N.InnerMult a) {axis : ℤ} {times : Option ℤ}
    (ht : ∀ a, normAxis (d + 1) axis = .ok a →
      N.Elevatable eps a ∧ ∀ t ∈ times, N.degree a ≤ 9 ∨ Spec.NoJump (N.n a) (N.degree a) t (N.U a))
    (h : N.elevate eps jk je jb axis times = .ok N') : N.Averages N' := by
  have h0 := h
  unfold Nrb.elevate at h
  cases times with
  | none =>
    obtain rfl : N = N' := by injection h
    exact averages_refl N
  | some t =>
    dsimp only at h
    obtain ⟨_, h1, h⟩ := res_bind_inv h
    have h1 : t ≥ 0 := pyAssert_ok_iff.1 h1
    by_cases hz : t = 0
    · rw [if_pos hz] at h
      obtain rfl : N = N' := by injection h
      exact averages_refl N
    rw [if_neg hz] at h
    obtain ⟨a, ha, _⟩ := res_bind_inv h
    obtain ⟨hE, hj⟩ := ht a ha
    obtain ⟨k, rfl⟩ := Int.eq_ofNat_of_zero_le h1
    obtain ⟨N2, e1, e2, e3, -, -⟩ := C16_elevate_partial heps.le jk je jb hv ha hE k (hj _ rfl)
    rw [e1] at h0
    obtain rfl : N2 = N' := by injection h0
    exact hull_elevated hv e2 hE e3 hm

theorem permuted_averages {N N' : Nrb K d} (hv : N.Valid) (hm : ∀ a, N.InnerMult a) {σ : Equiv.Perm (Fin d)}
    (h : N.Permuted N' σ) : N.Averages N' := by
  intro C _ hP idx hidx
  have hp := permuted_of N σ
  have hk : (N.permute σ).SameKnots N' :=
    ⟨funext fun a => (h.shape a).trans (hp.shape a).symm, funext fun a => (h.len a).trans (hp.len a).symm,
      fun a j _ _ => by rw [h.U, hp.U]⟩
  have e : N'.P idx = (N.permute σ).P idx := by
    funext c
    refine net_unique (hp.valid hv) (fun a x h1 h2 => ?_) hk (fun x hx => ?_) (hk.inNet.1 hidx)
    · have e1 : (N.permute σ).lo a = N.lo (σ a) := rfl
      have e2 : (N.permute σ).hi a = N.hi (σ a) := rfl
      have e3 : (N.permute σ).multOf a x = N.multOf (σ a) x := rfl
      have e4 : (N.permute σ).degree a = N.degree (σ a) := rfl
      rw [e1] at h1; rw [e2] at h2; rw [e3, e4]
      have := hm (σ a) x h1 h2
      omega
    · have ex : x = (x ∘ σ.symm) ∘ σ := by funext i; simp
      rw [ex, h.eval, hp.eval]
  rw [e]
  refine hP _ fun a => ?_
  have := hidx (σ.symm a)
  rw [h.shape, Equiv.apply_symm_apply] at this
  exact this

theorem reverse1_averages (N : Nrb K d) (a : Fin d) : N.Averages (N.reverse1 a) := by
  intro C _ hP idx hidx
  refine hP _ fun b => ?_
  have := hidx b
  have hs : (N.reverse1 a).shape b = N.shape b := rfl
  rw [hs] at this
  by_cases hb : b = a
  · subst hb; rw [Function.update_self]; omega
  · rw [Function.update_of_ne hb]; exact this

theorem reverse_averages : ∀ (L : List (Fin d)) (N : Nrb K d), N.Averages (L.foldl Nrb.reverse1 N)
  | [], N => averages_refl N
  | a :: L, N => (reverse1_averages N a).trans (reverse_averages L _)

theorem remap_averages {N N' : Nrb K d} {axis : ℤ} {start stop : Option K} (h : N.remap axis start stop = .ok N') :
    N.Averages N' := by
  unfold Nrb.remap at h
  obtain ⟨a, _, h⟩ := res_bind_inv h
  dsimp only at h
  split_ifs at h with hc
  · obtain rfl : N = N' := by injection h
    exact averages_refl N
  · obtain ⟨_, _, h⟩ := res_bind_inv h
    injection h with h
    subst h
    exact fun C _ hP idx hidx => hP idx hidx

theorem section_averages {N : Nrb K (d + 1)} (hv : N.Valid) (hm : ∀ a, N.InnerMult a) {a : Fin (d + 1)} {u : K}
    (h1 : N.lo a ≤ u) (h2 : u ≤ N.hi a) {N' : Nrb K d} (h : N.IsSection a u N') : N.Averages N' := by
  intro C hC hP idx hidx
  have hp := isSection_of (N := N) (a := a) (u := u)
  set M : Nrb K d :=
    { shape := a.removeNth N.shape
      nc := N.nc
      len := a.removeNth N.len
      U := a.removeNth N.U
      P := curve (N.n a) (N.degree a).toNat (N.U a) (N.row a) u } with hM
  have hMv : M.Valid := fun b => hv (a.succAbove b)
  have hk : M.SameKnots N' :=
    ⟨funext fun b => h.shape b, funext fun b => h.len b, fun b j _ _ => by rw [h.U]; rfl⟩
  have e : N'.P idx = M.P idx := by
    funext c
    refine net_unique hMv (fun b x g1 g2 => ?_) hk (fun x hx => ?_) (hk.inNet.1 hidx)
    · have := hm (a.succAbove b) x g1 g2
      have e3 : M.multOf b x = N.multOf (a.succAbove b) x := rfl
      have e4 : M.degree b = N.degree (a.succAbove b) := rfl
      rw [e3, e4]; omega
    · rw [h.eval, hp.eval]
  rw [e]
  show curve (N.n a) (N.degree a).toNat (N.U a) (N.row a) u idx ∈ C
  obtain ⟨p, hpd, hk2, _⟩ := deg_nat hv a
  rw [N.lo_eq, hpd] at h1
  rw [N.hi_eq] at h2
  rw [hpd, Int.toNat_natCast, curve_apply]
  unfold curve
  refine hC.sum_mem (fun i hi => ?_) (bsplineD_sum_one hk2 h1 h2) (fun i hi => ?_)
  · rw [Finset.mem_Icc] at hi
    exact bsplineD_nonneg hk2 h1 h2 hi.1 hi.2
  · rw [Finset.mem_Icc] at hi
    refine hP _ (net_join hi fun b => ?_)
    have := hidx b
    rw [h.shape] at this
    exact this

end Igakit
