import Verif.Spec.History
import Verif.Props.Heap
import Verif.Props.NrbAxis
import Verif.Props.Transform

/-! # Proofs: sequences of method calls -/

set_option linter.unusedSectionVars false

namespace Igakit
open Spec

variable {K : Type} [Field K] [LinearOrder K] [IsStrictOrderedRing K] {d : ℕ}

theorem valid_lo_lt_hi {N : Nrb K d} (hv : N.Valid) (a : Fin d) : N.lo a < N.hi a := by
  obtain ⟨p, hp, hk, _⟩ := deg_nat hv a
  rw [N.hi_eq, N.lo_eq, hp]
  exact lt_of_lt_of_le hk.first (hk.sorted _ _ (by have := hk.one_le; omega)
    (by have := hk.le; omega) (by omega))

theorem follows_start {N : Nrb K d} (hv : N.Valid) (hm : ∀ a, N.InnerMult a) :
    N.Follows N (Placed.start N) := by
  have hp : ∀ x, (Placed.start N).par x = x := by
    intro x; funext i; simp [Placed.par, Placed.start]
  refine ⟨hv, hm, rfl, rfl, rfl, fun i => one_ne_zero, Function.bijective_id, fun x => by rw [hp], fun x _ => ?_⟩
  rw [hp]
  funext c
  unfold Placed.space Placed.start
  by_cases h : c < 4
  · rw [dif_pos h, Finset.sum_eq_single (⟨c, h⟩ : Fin 4)]
    · simp
    · intro j _ hj; simp [Ne.symm hj]
    · simp
  · rw [dif_neg h]

/-- the calls that keep the map -/
theorem follows_same {N0 N N' : Nrb K d} {s : Placed K d} (h : N0.Follows N s) (hv : N'.Valid)
    (hm : ∀ a, N'.InnerMult a) (hnc : N'.nc = N.nc) (hlo : ∀ a, N'.lo a = N.lo a) (hhi : ∀ a, N'.hi a = N.hi a)
    (he : ∀ x, N.InDom x → N'.eval x = N.eval x) : N0.Follows N' s := by
  refine ⟨hv, hm, hnc.trans h.nc, (funext hlo).trans h.lo, (funext hhi).trans h.hi, h.slope, h.axis, fun x => ?_,
    fun x hx => ?_⟩
  · rw [← h.dom]
    unfold Nrb.InDom
    simp only [hlo, hhi]
  · rw [he _ ((h.dom x).2 hx), h.eval x hx]

theorem multOf_eq_count (N : Nrb K d) (a : Fin d) (x : K) : N.multOf a x = (N.knots a).count x := by
  unfold Nrb.multOf Nrb.knots
  rw [count_knotMS]

theorem innerMult_other {N N' : Nrb K d} {b : Fin d} (h : N.InnerMult b) (hd : N'.degree b = N.degree b)
    (hlo : N'.lo b = N.lo b) (hhi : N'.hi b = N.hi b) (hU : N'.U b = N.U b) (hl : N'.len b = N.len b) : N'.InnerMult b := by
  intro x h1 h2
  rw [hlo] at h1
  rw [hhi] at h2
  have := h x h1 h2
  unfold Nrb.multOf at this ⊢
  rw [hU, hl, hd]
  exact this

theorem len_of_degree {N N' : Nrb K d} {b : Fin d} (hd : N'.degree b = N.degree b) (hs : N'.shape b = N.shape b) :
    N'.len b = N.len b := by
  unfold Nrb.degree at hd
  omega

/-- interior multiplicity counts only knots of the domain -/
theorem innerMult_mid {N N' : Nrb K d} (hv : N.Valid) (hv' : N'.Valid) {a : Fin d} (h : N.InnerMult a)
    (hd : N'.degree a = N.degree a) (hs : N'.shape a = N.shape a)
    (hU : ∀ j, N.degree a ≤ j → j ≤ N.shape a → N'.U a j = N.U a j) : N'.InnerMult a := by
  obtain ⟨p, hp, hk, e⟩ := deg_nat hv a
  have hk' := hv' a
  have hn : N'.n a = N.n a := by unfold Nrb.n; rw [hs]
  have hl := len_of_degree hd hs
  have hsn : N.shape a = N.n a + 1 := by unfold Nrb.n; ring
  have hle := hk.le
  have h1p := hk.one_le
  rw [hd, hn, hp] at hk'
  rw [hp] at hU
  intro x h1 h2
  rw [Nrb.lo_eq, hd, hp] at h1
  rw [Nrb.hi_eq, hn] at h2
  have e1 : N'.U a p = N.U a p := hU p le_rfl (by omega)
  have e2 : N'.U a (N.n a + 1) = N.U a (N.n a + 1) := hU _ (by omega) (by omega)
  have := h x (by rw [N.lo_eq, hp, ← e1]; exact h1) (by rw [N.hi_eq, ← e2]; exact h2)
  rw [hd]
  refine le_trans (le_of_eq ?_) this
  congr 1
  unfold Nrb.multOf mult
  rw [hl, e]
  congr 1
  ext j
  simp only [Finset.mem_filter, Finset.mem_Icc, and_congr_right_iff]
  intro hj
  by_cases j1 : (p : ℤ) ≤ j
  · by_cases j2 : j ≤ N.n a + 1
    · rw [hU j j1 (by omega)]
    · have a1 := hk.sorted (N.n a + 1) j (by omega) (by omega) (by omega)
      have a2 := hk'.sorted (N.n a + 1) j (by omega) (by omega) (by omega)
      constructor <;> intro hx
      · rw [hx] at a2; exact absurd h2 (not_lt.mpr a2)
      · rw [hx, ← e2] at a1; exact absurd h2 (not_lt.mpr a1)
  · have a1 := hk.sorted j p (by omega) (by omega) (by omega)
    have a2 := hk'.sorted j p (by omega) (by omega) (by omega)
    constructor <;> intro hx
    · rw [hx] at a2; exact absurd h1 (not_lt.mpr a2)
    · rw [hx, ← e1] at a1; exact absurd h1 (not_lt.mpr a1)

theorem follows_knots {N0 N N' : Nrb K (d + 1)} {s : Placed K (d + 1)} (h : N0.Follows N s) {a : Fin (d + 1)} (hv : N'.Valid)
    (hS : N.SameMap N') (hm : N'.InnerMult a) (hU : ∀ b, b ≠ a → N'.U b = N.U b)
    (hs : ∀ b, b ≠ a → N'.shape b = N.shape b) : N0.Follows N' s := by
  refine follows_same h hv (fun b => ?_) hS.nc hS.lo hS.hi hS.eval
  by_cases hb : b = a
  · rw [hb]; exact hm
  · exact innerMult_other (h.inner b) (hS.degree b) (hS.lo b) (hS.hi b) (hU b hb) (len_of_degree (hS.degree b) (hs b hb))

theorem insert_inv {eps : K} {jk : ℤ → K} {je : ℤ → (Fin d → ℤ) → ℕ → K} {N N' : Nrb K (d + 1)} {axis : ℤ} {v : K}
    {times : Option ℤ} (h : N.insert eps jk je axis v times = .ok N') :
    ∃ a, normAxis (d + 1) axis = .ok a ∧ N.lo a ≤ v ∧ v ≤ N.hi a ∧
      ∃ m, BSp.FindMult eps (N.degree a) (N.len a - 1) (N.U a) v = .ok m ∧
        0 ≤ times.getD (N.degree a - min m (N.degree a)) ∧
        times.getD (N.degree a - min m (N.degree a)) + min m (N.degree a) ≤ N.degree a ∧
        N.insert eps jk je axis v (some (times.getD (N.degree a - min m (N.degree a)))) = .ok N' := by
  have h0 := h
  unfold Nrb.insert at h
  obtain ⟨a, ha, h⟩ := res_bind_inv h
  obtain ⟨_, h1, h⟩ := res_bind_inv h
  obtain ⟨m, h2, h⟩ := res_bind_inv h
  dsimp only at h
  obtain ⟨_, h3, h⟩ := res_bind_inv h
  have h1' := pyAssert_ok_iff.1 h1
  have h3' := pyAssert_ok_iff.1 h3
  refine ⟨a, ha, h1'.1, h1'.2, m, h2, ?_, h3', ?_⟩
  · by_cases ht : times.getD (N.degree a - min m (N.degree a)) = 0
    · rw [ht]
    · rw [if_neg ht] at h
      obtain ⟨VQ, h4, _⟩ := res_bind_inv h
      unfold BSp.InsertKnot at h4
      split_ifs at h4 with hc
      · exact hc.2.2.2.1
  · rw [← h0]
    unfold Nrb.insert
    rw [ha, res_ok_bind, res_ok_bind]
    dsimp only
    rw [h1, res_ok_bind, res_ok_bind, h2, res_ok_bind, res_ok_bind, Option.getD_some]

theorem insert_follows {eps : K} (heps : 0 < eps) {jk : ℤ → K} {je : ℤ → (Fin d → ℤ) → ℕ → K} {N0 N N' : Nrb K (d + 1)}
    {s : Placed K (d + 1)} (hF : N0.Follows N s) {axis : ℤ} {v : K} {times : Option ℤ}
    (ht : ∀ a, normAxis (d + 1) axis = .ok a → v ≠ N.lo a ∧ v ≠ N.hi a ∧ N.Sep eps a v)
    (h : N.insert eps jk je axis v times = .ok N') : N0.Follows N' s := by
  obtain ⟨a, ha, h1, h2, m, hm, g0, g1, g2⟩ := insert_inv h
  obtain ⟨n1, n2, hsep⟩ := ht a ha
  have h1 := lt_of_le_of_ne h1 (Ne.symm n1)
  have h2 := lt_of_le_of_ne h2 n2
  have hmul := hF.inner a v h1 h2
  rw [findMult_res heps hF.valid h1 h2 hsep hmul] at hm
  obtain rfl : (N.multOf a v : ℤ) = m := by injection hm
  rw [min_eq_left hmul] at g0 g1 g2
  obtain ⟨t, hT⟩ := Int.eq_ofNat_of_zero_le g0
  rw [hT] at g1 g2
  obtain ⟨N2, e1, e2, e3, e4, e5, e6⟩ := C07_insert heps jk je hF.valid ha h1 h2 hsep (t := t) (by push_cast; exact g1)
  rw [e1] at g2
  obtain rfl : N2 = N' := by injection g2
  refine follows_knots hF e2 e3 ?_ e6 fun b hb => by rw [e4, Function.update_of_ne hb]
  intro x x1 x2
  rw [e3.lo] at x1
  rw [e3.hi] at x2
  have hx := hF.inner a x x1 x2
  rw [multOf_eq_count] at hx ⊢
  rw [e5, Multiset.count_add, Multiset.count_replicate, e3.degree]
  rw [multOf_eq_count] at g1
  split_ifs with hxv
  · subst hxv; push_cast; omega
  · push_cast; omega

theorem refine_follows {eps : K} (heps : 0 < eps) {jk : ℤ → K} {je : ℤ → (Fin d → ℤ) → ℕ → K} {N0 N N' : Nrb K (d + 1)}
    {s : Placed K (d + 1)} (hF : N0.Follows N s) {axis : ℤ} {vals : List K}
    (ht : ∀ a, normAxis (d + 1) axis = .ok a →
      (∀ x ∈ vals, x ≠ N.lo a ∧ x ≠ N.hi a ∧ N.Sep eps a x) ∧ ∀ x ∈ vals, ∀ y ∈ vals, x = y ∨ eps ≤ |x - y|)
    (h : N.refine eps jk je axis vals = .ok N') : N0.Follows N' s := by
  have h0 := h
  unfold Nrb.refine at h
  by_cases hnil : vals = []
  · rw [if_pos hnil] at h
    obtain rfl : N = N' := by injection h
    exact hF
  rw [if_neg hnil] at h
  obtain ⟨a, ha, h⟩ := res_bind_inv h
  obtain ⟨u, hu, _⟩ := res_bind_inv h
  obtain ⟨hx, hxy⟩ := ht a ha
  have hperm := sort_perm vals
  have hsrt := sort_pairwise vals
  unfold Nrb.refineArg at hu
  obtain ⟨_, a1, hu⟩ := res_bind_inv hu
  obtain ⟨_, a2, hu⟩ := res_bind_inv hu
  dsimp only at hu
  obtain ⟨_, a3, hu⟩ := res_bind_inv hu
  have a1 := pyAssert_ok_iff.1 a1
  have a2 := pyAssert_ok_iff.1 a2
  have a3 := pyAssert_ok_iff.1 a3
  have hlo : ∀ x ∈ vals, N.lo a ≤ x := by
    intro x hm
    have hm' := hperm.mem_iff.2 hm
    generalize vals.mergeSort (fun x y => decide (x ≤ y)) = X at *
    cases X with
    | nil => cases hm'
    | cons y X =>
      have hy : N.lo a ≤ y := a1 y rfl
      rcases List.mem_cons.1 hm' with rfl | hm'
      · exact hy
      · exact hy.trans (List.rel_of_pairwise_cons hsrt hm')
  have hhi : ∀ x ∈ vals, x ≤ N.hi a := by
    intro x hm
    have hm' := hperm.mem_iff.2 hm
    generalize vals.mergeSort (fun x y => decide (x ≤ y)) = X at *
    rcases List.eq_nil_or_concat X with rfl | ⟨Y, y, rfl⟩
    · cases hm'
    · rw [List.concat_eq_append] at *
      have hy : y ≤ N.hi a := a2 y (by simp)
      rcases List.mem_append.1 hm' with hm' | hm'
      · exact ((List.pairwise_append.1 hsrt).2.2 x hm' y (by simp)).trans hy
      · rw [List.mem_singleton.1 hm']; exact hy
  have hdeg : 0 ≤ N.degree a := by
    obtain ⟨p, hp, _, _⟩ := deg_nat hF.valid a
    omega
  have hcnt : ∀ x, ((vals.count x + mult (N.U a) 1 (N.len a - 2) x : ℕ) : ℤ) ≤ N.degree a := by
    intro x
    rw [← hperm.count_eq]
    exact count_le_of_list hdeg a3 x
  obtain ⟨N2, e1, e2, e3, e4, e5, e6⟩ := C09_refine heps jk je hF.valid ha
    (fun x hm => lt_of_le_of_ne (hlo x hm) (Ne.symm (hx x hm).1)) (fun x hm => lt_of_le_of_ne (hhi x hm) (hx x hm).2.1)
    (fun x hm => (hx x hm).2.2) hxy hcnt
  rw [e1] at h0
  obtain rfl : N2 = N' := by injection h0
  refine follows_knots hF e2 e3 ?_ e6 fun b hb => by rw [e4, Function.update_of_ne hb]
  intro x x1 x2
  rw [e3.lo] at x1
  rw [e3.hi] at x2
  rw [multOf_eq_count, e5, Multiset.count_add, e3.degree, Multiset.coe_count, ← multOf_eq_count]
  refine le_trans (le_of_eq ?_) (hcnt x)
  rw [add_comm]
  congr 2
  obtain ⟨p, hp, hk, e⟩ := deg_nat hF.valid a
  unfold Nrb.multOf mult
  congr 1
  ext j
  simp only [Finset.mem_filter, Finset.mem_Icc]
  have hle := hk.le
  have h1p := hk.one_le
  rw [N.lo_eq, hp] at x1
  rw [N.hi_eq] at x2
  constructor
  · rintro ⟨hj, hjx⟩
    refine ⟨⟨?_, ?_⟩, hjx⟩
    · by_contra hc
      have := hk.sorted j p (by omega) (by omega) (by omega)
      rw [hjx] at this
      exact absurd x1 (not_lt.mpr this)
    · by_contra hc
      have := hk.sorted (N.n a + 1) j (by omega) (by omega) (by omega)
      rw [hjx] at this
      exact absurd x2 (not_lt.mpr this)
  · rintro ⟨hj, hjx⟩
    exact ⟨by omega, hjx⟩

theorem sideFlags_inv {side : Option ℤ} {lr : Bool × Bool} (h : Nrb.sideFlags side = .ok lr) :
    side = none ∨ side = some 0 ∨ side = some 1 := by
  cases side with
  | none => exact Or.inl rfl
  | some x =>
    unfold Nrb.sideFlags at h
    obtain ⟨_, h1, _⟩ := res_bind_inv h
    rcases pyAssert_ok_iff.1 h1 with rfl | rfl
    · exact Or.inr (Or.inl rfl)
    · exact Or.inr (Or.inr rfl)

theorem clamp_follows {eps : K} (heps : 0 < eps) {je : ℤ → (Fin d → ℤ) → ℕ → K} {N0 N N' : Nrb K (d + 1)}
    {s : Placed K (d + 1)} (hF : N0.Follows N s) {axis : ℤ} {side : Option ℤ}
    (ht : ∀ a, normAxis (d + 1) axis = .ok a → N.SepBoth eps a)
    (h : N.clamp eps je axis side = .ok N') : N0.Follows N' s := by
  have h0 := h
  unfold Nrb.clamp at h
  obtain ⟨a, ha, h⟩ := res_bind_inv h
  obtain ⟨lr, hlr, _⟩ := res_bind_inv h
  obtain ⟨N2, e1, e2, e3, e4, -, -, e5, e6⟩ := C13_clamp heps je hF.valid ha (sideFlags_inv hlr) (ht a ha)
  rw [e1] at h0
  obtain rfl : N2 = N' := by injection h0
  exact follows_knots hF e2 e3 (innerMult_mid hF.valid e2 (hF.inner a) (e3.degree a) (by rw [e4])
    fun j j1 j2 => e5 j (Or.inr j1) (Or.inr j2)) e6 fun b _ => by rw [e4]

theorem unclamp_follows {eps : K} (heps : 0 < eps) {je : ℤ → (Fin d → ℤ) → ℕ → K} {N0 N N' : Nrb K (d + 1)}
    {s : Placed K (d + 1)} (hF : N0.Follows N s) {axis : ℤ} {side cont : Option ℤ}
    (ht : ∀ a, normAxis (d + 1) axis = .ok a → N.SepBoth eps a)
    (h : N.unclamp eps je axis side cont = .ok N') : N0.Follows N' s := by
  have h0 := h
  unfold Nrb.unclamp at h
  obtain ⟨a, ha, h⟩ := res_bind_inv h
  obtain ⟨lr, hlr, h⟩ := res_bind_inv h
  obtain ⟨C, hC, _⟩ := res_bind_inv h
  have hc : ∀ c ∈ cont, 0 ≤ c ∧ c < N.degree a := by
    intro c hcc
    obtain rfl : cont = some c := hcc
    unfold Nrb.contArg at hC
    obtain ⟨_, h1, _⟩ := res_bind_inv hC
    have := pyAssert_ok_iff.1 h1
    omega
  obtain ⟨N2, e1, e2, e3, e4, e5, -, -, e6⟩ := C14_unclamp heps je hF.valid ha (sideFlags_inv hlr) hc (ht a ha)
  rw [e1] at h0
  obtain rfl : N2 = N' := by injection h0
  refine follows_knots hF e2 e3 (innerMult_mid hF.valid e2 (hF.inner a) (e3.degree a) (by rw [e4])
    fun j j1 j2 => ?_) e6 fun b _ => by rw [e4]
  obtain ⟨p, hp, hk, e⟩ := deg_nat hF.valid a
  have := hk.one_le
  have := hk.le
  have es : N.shape a = N.n a + 1 := by unfold Nrb.n; ring
  exact e5 j (by omega) (by omega) (Or.inr j1) (Or.inr j2)

theorem elevate_follows {eps : K} (heps : 0 < eps) {jk : ℤ → K} {je : ℤ → (Fin d → ℤ) → ℕ → K} {jb : ℤ → ℤ → K}
    {N0 N N' : Nrb K (d + 1)} {s : Placed K (d + 1)} (hF : N0.Follows N s) {axis : ℤ} {times : Option ℤ}
    (ht : ∀ a, normAxis (d + 1) axis = .ok a →
      N.Elevatable eps a ∧ ∀ t ∈ times, N.degree a ≤ 9 ∨ Spec.NoJump (N.n a) (N.degree a) t (N.U a))
    (h : N.elevate eps jk je jb axis times = .ok N') : N0.Follows N' s := by
  have h0 := h
  unfold Nrb.elevate at h
  cases times with
  | none =>
    obtain rfl : N = N' := by injection h
    exact hF
  | some t =>
    dsimp only at h
    obtain ⟨_, h1, h⟩ := res_bind_inv h
    have h1 : t ≥ 0 := pyAssert_ok_iff.1 h1
    by_cases hz : t = 0
    · rw [if_pos hz] at h
      obtain rfl : N = N' := by injection h
      exact hF
    rw [if_neg hz] at h
    obtain ⟨a, ha, _⟩ := res_bind_inv h
    obtain ⟨hE, hj⟩ := ht a ha
    obtain ⟨k, rfl⟩ := Int.eq_ofNat_of_zero_le h1
    obtain ⟨N2, e1, e2, e3, -, -⟩ := C16_elevate_partial heps.le jk je jb hF.valid ha hE k (hj _ rfl)
    rw [e1] at h0
    obtain rfl : N2 = N' := by injection h0
    refine follows_same hF e2 (fun b => ?_) e3.nc e3.lo e3.hi e3.eval
    by_cases hb : b = a
    · subst hb
      intro x x1 x2
      rw [e3.lo] at x1
      rw [e3.hi] at x2
      have := hF.inner b x x1 x2
      rw [multOf_eq_count] at this ⊢
      rw [e3.knots, e3.degree, if_pos rfl]
      split_ifs with hx
      · push_cast; omega
      · have h9 : (0 : ℤ) ≤ ((N.knots b).count x : ℤ) := by omega
        push_cast; omega
    · have hd : N2.degree b = N.degree b := by rw [e3.degree, if_neg hb, add_zero]
      exact innerMult_other (hF.inner b) hd (e3.lo b) (e3.hi b) (e3.others b hb).1 (len_of_degree hd (e3.others b hb).2)

theorem transform_follows {N0 N : Nrb K d} {s : Placed K d} (hF : N0.Follows N s) (M : Fin 4 → Fin 4 → K) :
    N0.Follows (N.transform M) (s.transform M) := by
  refine ⟨hF.valid, hF.inner, hF.nc, hF.lo, hF.hi, hF.slope, hF.axis, hF.dom, fun x hx => ?_⟩
  obtain ⟨h1, h2⟩ := C21_transform_homogeneous N M (s.par x)
  have hp : (s.transform M).par x = s.par x := rfl
  rw [hp]
  rw [hF.eval x hx] at h1 h2
  funext c
  by_cases hc : c < 4
  · have := h1 ⟨c, hc⟩
    dsimp only at this
    rw [this]
    unfold Placed.space Placed.transform
    rw [dif_pos hc]
    dsimp only
    simp only [Finset.sum_mul, Fin.is_lt, dif_pos, Fin.eta, Finset.mul_sum, mul_assoc]
    rw [Finset.sum_comm]
  · rw [h2 c (by omega)]
    unfold Placed.space
    rw [dif_neg hc, dif_neg hc]

theorem permute_follows {N0 N N' : Nrb K d} {s : Placed K d} (hF : N0.Follows N s) {σ : Equiv.Perm (Fin d)}
    (h : N.Permuted N' σ) : N0.Follows N' (s.permute σ) := by
  have hdeg : ∀ i, N'.degree i = N.degree (σ i) := fun i => by unfold Nrb.degree; rw [h.shape, h.len]
  have hlo : ∀ i, N'.lo i = N.lo (σ i) := fun i => by unfold Nrb.lo; rw [hdeg, h.U]
  have hhi : ∀ i, N'.hi i = N.hi (σ i) := fun i => by unfold Nrb.hi; rw [hdeg, h.U, h.len]
  have hp : ∀ x, (s.permute σ).par x = s.par x ∘ σ := fun x => rfl
  refine ⟨h.valid hF.valid, fun a => ?_, h.nc.trans hF.nc, ?_, ?_, fun i => hF.slope _, hF.axis.comp σ.bijective, fun x => ?_,
    fun x hx => ?_⟩
  · intro x h1 h2
    rw [hlo] at h1
    rw [hhi] at h2
    have := hF.inner (σ a) x h1 h2
    unfold Nrb.multOf at this ⊢
    rw [h.U, h.len, hdeg]
    exact this
  · funext i; rw [hlo, hF.lo]; rfl
  · funext i; rw [hhi, hF.hi]; rfl
  · rw [hp, ← hF.dom]
    unfold Nrb.InDom
    simp only [hlo, hhi, Function.comp]
    exact ⟨fun g a => by have := g (σ.symm a); simpa using this, fun g a => g (σ a)⟩
  · rw [hp, h.eval, hF.eval x hx]
    rfl

theorem reverseL_innerMult {L : List (Fin d)} : ∀ {N : Nrb K d}, N.Valid → (∀ a, N.InnerMult a) →
    ∀ a, (L.foldl Nrb.reverse1 N).InnerMult a := by
  induction L with
  | nil => intro N _ h; exact h
  | cons b L ih =>
    intro N hv h
    have hv' : (N.reverse1 b).Valid := (reverseL (L := [b]) hv (fun a _ => h a)).1
    exact ih hv' (fun a => reverse1_innerMult hv b a (h a))

theorem reverse_err {N N' : Nrb K d} {axes : List ℤ} {e : Err} (h : (revAxes d axes).mapM (normAxis d) = .error e) :
    N.reverse axes ≠ .ok N' := by
  have key : ∀ (l : List ℤ) (N : Nrb K d), l.foldlM (fun (N : Nrb K d) axis => do
      let a ← normAxis d axis
      pure (N.reverse1 a)) N = (.ok N' : Res (Nrb K d)) → ∃ L, l.mapM (normAxis d) = .ok L := by
    intro l
    induction l with
    | nil => intro N _; exact ⟨[], rfl⟩
    | cons b l ih =>
      intro N hl
      rw [List.foldlM_cons] at hl
      obtain ⟨M, h1, h2⟩ := res_bind_inv hl
      obtain ⟨a, ha, _⟩ := res_bind_inv h1
      obtain ⟨L, hL⟩ := ih M h2
      exact ⟨a :: L, by rw [List.mapM_cons, ha, res_ok_bind, hL]; rfl⟩
  intro hN
  obtain ⟨L, hL⟩ := key _ N hN
  unfold revAxes at h
  rw [h] at hL
  cases hL

theorem reverse_follows {N0 N : Nrb K d} {s : Placed K d} (hF : N0.Follows N s) (L : List (Fin d)) :
    N0.Follows (L.foldl Nrb.reverse1 N) (s.reflect L) := by
  obtain ⟨h1, h2, h3, h4, h5, h6, h7⟩ := reverseL (L := L) hF.valid (fun a _ => hF.inner a)
  have hp : ∀ x, (s.reflect L).par x = N.reflect L (s.par x) := by
    intro x
    funext i
    unfold Placed.par Placed.reflect Nrb.reflect
    dsimp only
    split_ifs
    · rw [hF.lo, hF.hi]; ring
    · rfl
  refine ⟨h1, reverseL_innerMult hF.valid hF.inner, h2.trans hF.nc, h5.trans hF.lo, h6.trans hF.hi, fun i => ?_, hF.axis,
    fun x => ?_, fun x hx => ?_⟩
  · unfold Placed.reflect
    dsimp only
    split_ifs
    · exact neg_ne_zero.2 (hF.slope i)
    · exact hF.slope i
  · rw [hp, ← hF.dom]
    unfold Nrb.InDom
    rw [h5, h6]
    refine forall_congr' fun i => ?_
    unfold Nrb.reflect
    split_ifs
    · constructor <;> rintro ⟨a, b⟩ <;> constructor <;> linarith
    · rfl
  · rw [hp, h7 _ ((hF.dom x).2 hx), hF.eval x hx]
    rfl

theorem remap_U {N N' : Nrb K d} (hv : N.Valid) {axis : ℤ} {a : Fin d} (ha : normAxis d axis = .ok a) {start stop : Option K}
    (h : N.remap axis start stop = .ok N') {c e : K} (hc : N'.lo a = c) (he : N'.hi a = e) :
    N'.U a = fun j => (N.U a j - N.lo a) * ((e - c) / (N.hi a - N.lo a)) + c := by
  have hne : N.hi a - N.lo a ≠ 0 := (sub_pos.2 (valid_lo_lt_hi hv a)).ne'
  unfold Nrb.remap at h
  rw [ha, res_ok_bind] at h
  dsimp only at h
  split_ifs at h with hs
  · obtain rfl : N = N' := by injection h
    funext j
    rw [← hc, ← he, div_self hne]
    ring
  · obtain ⟨_, _, h⟩ := res_bind_inv h
    injection h with h
    have hU : N'.U a = fun j => (N.U a j - N.lo a) *
        ((stop.getD (N.hi a) - start.getD (N.lo a)) / (N.hi a - N.lo a)) + start.getD (N.lo a) := by
      rw [← h]; exact Function.update_self _ _ _
    have hd : N'.degree a = N.degree a := by rw [← h]; rfl
    have hl : N'.len a = N.len a := by rw [← h]
    have h1 : c = start.getD (N.lo a) := by
      rw [← hc]
      unfold Nrb.lo
      rw [hd, hU]
      unfold Nrb.lo
      ring
    have h2 : e = stop.getD (N.hi a) := by
      rw [← he, Nrb.hi, hd, hU, hl]
      show (N.hi a - N.lo a) * _ + _ = _
      field_simp
      ring
    rw [hU, h1, h2]

theorem remap_follows {N0 N N' : Nrb K d} {s : Placed K d} (hF : N0.Follows N s) {axis : ℤ} {a : Fin d}
    (ha : normAxis d axis = .ok a) {start stop : Option K} (h : N.remap axis start stop = .ok N') :
    N0.Follows N' (s.remap a (start.getD (s.lo a)) (stop.getD (s.hi a))) := by
  have hlt := valid_lo_lt_hi hF.valid a
  have hce : start.getD (N.lo a) < stop.getD (N.hi a) := by
    unfold Nrb.remap at h
    rw [ha, res_ok_bind] at h
    dsimp only at h
    split_ifs at h with hc
    · rw [← hc.1, ← hc.2]; exact hlt
    · obtain ⟨_, h1, _⟩ := res_bind_inv h
      exact pyAssert_ok_iff.1 h1
  obtain ⟨N2, e1, e2, e3, e4, e5, e6, e7, e8, e9, e10⟩ := C19_remap hF.valid ha rfl rfl hce
  rw [e1] at h
  obtain rfl : N2 = N' := by injection h
  rw [← hF.lo, ← hF.hi]
  generalize start.getD (N.lo a) = c at *
  generalize stop.getD (N.hi a) = e at *
  have hd : ∀ b, N2.degree b = N.degree b := fun b => by unfold Nrb.degree; rw [e4, e5]
  have hlo : N2.lo = Function.update N.lo a c := by
    funext b
    by_cases hb : b = a
    · rw [hb, Function.update_self, e7]
    · rw [Function.update_of_ne hb]; unfold Nrb.lo; rw [hd, e9 b hb]
  have hhi : N2.hi = Function.update N.hi a e := by
    funext b
    by_cases hb : b = a
    · rw [hb, Function.update_self, e8]
    · rw [Function.update_of_ne hb]; unfold Nrb.hi; rw [hd, e9 b hb, e5]
  have hne : N.hi a - N.lo a ≠ 0 := (sub_pos.2 hlt).ne'
  set α := (e - c) / (N.hi a - N.lo a) with hα
  have hαp : 0 < α := div_pos (sub_pos.2 hce) (sub_pos.2 hlt)
  have hU : N2.U a = fun j => (N.U a j - N.lo a) * α + c := by
    exact remap_U hF.valid ha e1 e7 e8
  have hp : ∀ x, (s.remap a c e).par x =
      Function.update (s.par x) a (affMap (N.lo a) (N.hi a) c e (s.par x a)) := by
    intro x
    funext i
    unfold Placed.par Placed.remap affMap
    dsimp only
    by_cases hi : i = a
    · subst hi
      rw [Function.update_self, Function.update_self, Function.update_self, ← hF.lo, ← hF.hi]
      field_simp
      ring
    · simp only [Function.update_of_ne hi]
  refine ⟨e2, fun b => ?_, e3.trans hF.nc, ?_, ?_, fun i => ?_, hF.axis, fun x => ?_, fun x hx => ?_⟩
  · by_cases hb : b = a
    · subst hb
      intro x x1 x2
      rw [e7] at x1
      rw [e8] at x2
      have hx : ∀ y : K, (y - N.lo b) * α + c = x ↔ y = (x - c) / α + N.lo b := by
        intro y
        rw [← sub_eq_iff_eq_add, eq_div_iff hαp.ne', eq_sub_iff_add_eq]
      have hm : N2.multOf b x = N.multOf b ((x - c) / α + N.lo b) := by
        unfold Nrb.multOf mult
        rw [hU, e5]
        simp only [hx]
      rw [hm, hd]
      apply hF.inner b
      · have := div_pos (sub_pos.2 x1) hαp
        linarith
      · have : (x - c) / α < N.hi b - N.lo b := by
          rw [div_lt_iff₀ hαp, hα]
          field_simp
          linarith
        linarith
    · exact innerMult_other (hF.inner b) (hd b) (by rw [hlo, Function.update_of_ne hb])
        (by rw [hhi, Function.update_of_ne hb]) (e9 b hb) (by rw [e5])
  · rw [hlo, hF.lo]; rfl
  · rw [hhi, hF.hi]; rfl
  · unfold Placed.remap
    dsimp only
    by_cases hi : i = a
    · subst hi
      rw [Function.update_self, ← hF.lo, ← hF.hi]
      exact mul_ne_zero hαp.ne' (hF.slope i)
    · rw [Function.update_of_ne hi]; exact hF.slope i
  · rw [hp, ← hF.dom]
    unfold Nrb.InDom
    rw [hlo, hhi]
    refine forall_congr' fun i => ?_
    by_cases hi : i = a
    · subst hi
      simp only [Function.update_self]
      have hy : affMap (N.lo i) (N.hi i) c e (s.par x i) = α * (s.par x i - N.lo i) + c := by
        unfold affMap; rw [hα]; field_simp; ring
      have hE : e = α * (N.hi i - N.lo i) + c := by rw [hα]; field_simp; ring
      rw [hy]
      constructor
      · rintro ⟨a1, a2⟩
        constructor
        · have : 0 ≤ α * (s.par x i - N.lo i) := by linarith
          have := nonneg_of_mul_nonneg_right this hαp
          linarith
        · rw [hE] at a2
          have : α * (s.par x i - N.lo i) ≤ α * (N.hi i - N.lo i) := by linarith
          have := le_of_mul_le_mul_left this hαp
          linarith
      · rintro ⟨a1, a2⟩
        constructor
        · have := mul_nonneg hαp.le (sub_nonneg.2 a1)
          linarith
        · have := mul_le_mul_of_nonneg_left (sub_le_sub_right a2 (N.lo i)) hαp.le
          linarith
    · simp only [Function.update_of_ne hi]
  · rw [hp, e10, hF.eval x hx]
    rfl

theorem transFn_eq {axes : Option (List ℤ)} {σ : Equiv.Perm (Fin d)}
    (h : transAxes d axes = (List.finRange d).map (fun i => ((σ i : ℕ) : ℤ))) : transFn d axes = σ := by
  funext i
  unfold transFn
  have : (transAxes d axes).getD i 0 = ((σ i : ℕ) : ℤ) := by
    rw [h, List.getD_eq_getElem?_getD, List.getElem?_eq_getElem (by simp), Option.getD_some]
    simp
  rw [this, normAxis_self]

theorem call_follows {env : Env K} (heps : 0 < env.eps) {jn : Scratch K} {N0 N N' : Nrb K d} {s : Placed K d}
    (hF : N0.Follows N s) {g : Geo K} (ht : g.Tame env.eps N) (h : g.apply env jn g.vals N = .ok N') :
    N0.Follows N' (g.place s) := by
  cases g with
  | transform M =>
    cases M with
    | error e => cases h
    | ok M =>
      obtain rfl : N.transform M = N' := by injection h
      exact transform_follows hF M
  | transpose axes =>
    obtain ⟨σ, hσ⟩ := ht
    obtain ⟨N2, e1, e2⟩ := C20_transpose N σ hσ
    have h : N.transpose axes = .ok N' := h
    rw [e1] at h
    obtain rfl : N2 = N' := by injection h
    show N0.Follows N2 (s.permute (transFn d axes))
    rw [transFn_eq hσ]
    exact permute_follows hF e2
  | swap i j =>
    have h : N.swap i j = .ok N' := h
    have h0 := h
    unfold Nrb.swap at h
    obtain ⟨a, ha, h⟩ := res_bind_inv h
    obtain ⟨b, hb, _⟩ := res_bind_inv h
    obtain ⟨N2, e1, e2⟩ := C20_swap N ha hb
    rw [e1] at h0
    obtain rfl : N2 = N' := by injection h0
    have : (Geo.swap i j : Geo K).place s = s.permute (Equiv.swap a b) := by
      simp only [Geo.place, ha, hb]
    rw [this]
    exact permute_follows hF e2
  | reverse axes =>
    have h : N.reverse axes = .ok N' := h
    cases hL : (revAxes d axes).mapM (normAxis d) with
    | ok L =>
      rw [reverse_eq hL] at h
      obtain rfl : L.foldl Nrb.reverse1 N = N' := by injection h
      have : (Geo.reverse axes : Geo K).place s = s.reflect L := by
        simp only [Geo.place, hL]
      rw [this]
      exact reverse_follows hF L
    | error e =>
      exact absurd h (reverse_err hL)
  | remap axis start stop =>
    have h : N.remap axis start stop = .ok N' := h
    have h0 := h
    unfold Nrb.remap at h
    obtain ⟨a, ha, _⟩ := res_bind_inv h
    have : (Geo.remap axis start stop : Geo K).place s = s.remap a (start.getD (s.lo a)) (stop.getD (s.hi a)) := by
      simp only [Geo.place, ha]
    rw [this]
    exact remap_follows hF ha h0
  | insert axis value times =>
    cases d with
    | zero => cases h
    | succ d => exact insert_follows heps hF ht h
  | remove => exact ht.elim
  | clamp axis side =>
    cases d with
    | zero => cases h
    | succ d => exact clamp_follows heps hF ht h
  | unclamp axis side cont =>
    cases d with
    | zero => cases h
    | succ d => exact unclamp_follows heps hF ht h
  | refine axis values =>
    cases values with
    | block => exact ht.elim
    | fresh vals =>
      have h : (if vals = [] then .ok N else
        onAxis N (fun N => N.refine env.eps jn.k jn.rows axis vals)) = .ok N' := h
      split_ifs at h with hn
      · obtain rfl : N = N' := by injection h
        exact hF
      · cases d with
        | zero => cases h
        | succ d => exact refine_follows heps hF ht h
  | elevate axis times =>
    cases d with
    | zero =>
      have : N = N' := by
        cases times with
        | none => injection h
        | some t =>
          have h : (if t ≥ 0 then (if t = 0 then .ok N else .error .index) else .error .assertion) = (.ok N' : Res (Nrb K 0)) := h
          split_ifs at h
          injection h
      rw [← this]
      exact hF
    | succ d => exact elevate_follows heps hF ht h

end Igakit
