import Verif.Spec.Data
import Verif.Props.History
import Verif.Proofs.Unique
import Verif.Proofs.Merge

/-! # Proofs: data determined by the map -/

set_option linter.unusedSectionVars false

namespace Igakit
open Spec

variable {K : Type} [Field K] [LinearOrder K] [IsStrictOrderedRing K] {d : ℕ}

namespace Nrb.SameKnots
variable {N M L : Nrb K d}

theorem refl (N : Nrb K d) : N.SameKnots N := ⟨rfl, rfl, fun _ _ _ _ => rfl⟩

theorem symm (h : N.SameKnots M) : M.SameKnots N :=
  ⟨h.shape.symm, h.len.symm, fun a j h0 h1 => (h.knots a j h0 (by rw [← h.len]; exact h1)).symm⟩

theorem trans (h : N.SameKnots M) (h' : M.SameKnots L) : N.SameKnots L :=
  ⟨h'.shape.trans h.shape, h'.len.trans h.len,
    fun a j h0 h1 => (h'.knots a j h0 (by rw [h.len]; exact h1)).trans (h.knots a j h0 h1)⟩

theorem n (h : N.SameKnots M) (a : Fin d) : M.n a = N.n a := by unfold Nrb.n; rw [h.shape]
theorem degree (h : N.SameKnots M) (a : Fin d) : M.degree a = N.degree a := by unfold Nrb.degree; rw [h.shape, h.len]

theorem valid (h : N.SameKnots M) (hv : N.Valid) : M.Valid := by
  intro a
  rw [h.n, h.degree]
  refine validKnots_congr (hv a) (fun j h0 h1 => h.knots a j h0 ?_)
  rw [N.len_eq]; omega

theorem lo (h : N.SameKnots M) (hv : N.Valid) (a : Fin d) : M.lo a = N.lo a := by
  obtain ⟨p, hp, hk, e⟩ := deg_nat hv a
  have := hk.le
  have := hk.one_le
  rw [Nrb.lo_eq, Nrb.lo_eq, h.degree, h.knots a _ (by omega) (by omega)]

theorem hi (h : N.SameKnots M) (hv : N.Valid) (a : Fin d) : M.hi a = N.hi a := by
  obtain ⟨p, hp, hk, e⟩ := deg_nat hv a
  have := hk.le
  have := hk.one_le
  rw [Nrb.hi_eq, Nrb.hi_eq, h.n, h.knots a _ (by omega) (by omega)]

theorem knotMS (h : N.SameKnots M) (a : Fin d) : M.knots a = N.knots a := by
  unfold Nrb.knots
  rw [h.len]
  exact knotMS_congr (fun j h0 h1 => h.knots a j h0 (by omega))

theorem multOf (h : N.SameKnots M) (a : Fin d) (x : K) : M.multOf a x = N.multOf a x := by
  rw [multOf_eq_count, multOf_eq_count, h.knotMS]

theorem sep (h : N.SameKnots M) {eps : K} {a : Fin d} {x : K} (hs : N.Sep eps a x) : M.Sep eps a x := by
  intro j h0 h1
  rw [h.len] at h1
  rw [h.knots a j h0 (by omega)]
  exact hs j h0 h1

theorem inner (h : N.SameKnots M) (hv : N.Valid) {a : Fin d} (hm : N.InnerMult a) : M.InnerMult a := by
  intro x h1 h2
  rw [h.lo hv] at h1
  rw [h.hi hv] at h2
  rw [h.multOf, h.degree]
  exact hm x h1 h2

theorem inDom (h : N.SameKnots M) (hv : N.Valid) {x : Fin d → K} : M.InDom x ↔ N.InDom x := by
  unfold Nrb.InDom
  simp only [h.lo hv, h.hi hv]

theorem inNet (h : N.SameKnots M) {idx : Fin d → ℤ} : M.InNet idx ↔ N.InNet idx := by
  unfold Nrb.InNet
  rw [h.shape]

/-- the map of `M` written with the knots of `N` -/
theorem eval_eq (h : N.SameKnots M) (hv : N.Valid) (x : Fin d → K) :
    M.eval x = tensor N.n (fun a => (N.degree a).toNat) N.U M.P x := by
  have hn : M.n = N.n := funext h.n
  have hd : M.degree = N.degree := funext h.degree
  unfold Nrb.eval
  rw [hn, hd]
  refine tensor_congr (fun a j h0 h1 => h.knots a j h0 ?_) (fun _ _ => rfl) x
  have h1' : j ≤ N.n a + ((N.degree a).toNat : ℤ) + 1 := h1
  obtain ⟨p, hp, hk, e⟩ := deg_nat hv a
  omega

end Nrb.SameKnots

namespace Nrb.SameData
variable {N M L : Nrb K d}

theorem refl (N : Nrb K d) : N.SameData N := ⟨.refl N, rfl, fun _ _ => rfl⟩

theorem symm (h : N.SameData M) : M.SameData N :=
  ⟨h.toSameKnots.symm, h.nc.symm, fun idx hi => (h.net idx (h.toSameKnots.inNet.1 hi)).symm⟩

theorem trans (h : N.SameData M) (h' : M.SameData L) : N.SameData L :=
  ⟨h.toSameKnots.trans h'.toSameKnots, h'.nc.trans h.nc,
    fun idx hi => (h'.net idx (h.toSameKnots.inNet.2 hi)).trans (h.net idx hi)⟩

theorem eval (h : N.SameData M) (hv : N.Valid) (x : Fin d → K) : M.eval x = N.eval x := by
  rw [h.toSameKnots.eval_eq hv]
  refine tensor_congr (fun _ _ _ _ => rfl) (fun idx hi => h.net idx fun a => ?_) x
  have := hi a
  have e : N.shape a = N.n a + 1 := by unfold Nrb.n; ring
  omega

end Nrb.SameData

/-- interior knots have at most the multiplicity of an end of a clamped knot vector -/
theorem net_zero {N : Nrb K d} (hv : N.Valid) (hm : ∀ a x, N.lo a < x → x < N.hi a → (N.multOf a x : ℤ) ≤ N.degree a + 1)
    {P : (Fin d → ℤ) → K}
    (he : ∀ x, N.InDom x → tensor N.n (fun a => (N.degree a).toNat) N.U P x = 0) {idx : Fin d → ℤ} (hi : N.InNet idx) :
    P idx = 0 := by
  refine tensor_eq_zero (n := N.n) (p := fun a => (N.degree a).toNat) (U := N.U) (fun a => ?_) (fun a => ?_)
    (P := P) (fun x hx => ?_) (fun a => ?_)
  · obtain ⟨p, hp, hk, e⟩ := deg_nat hv a
    simp only [hp, Int.toNat_natCast]
    exact hk.sorted
  · obtain ⟨p, hp, hk, e⟩ := deg_nat hv a
    simp only [hp, Int.toNat_natCast]
    refine active_of_mult hk (fun x h1 h2 => ?_)
    have := hm a x (by rw [N.lo_eq, hp]; exact h1) (by rw [N.hi_eq]; exact h2)
    unfold Nrb.multOf at this
    rw [e, hp] at this
    exact_mod_cast this
  · refine he x fun a => ?_
    obtain ⟨p, hp, hk, e⟩ := deg_nat hv a
    have := hx a
    simp only [hp, Int.toNat_natCast] at this
    rw [N.lo_eq, N.hi_eq, hp]
    exact this
  · have := hi a
    unfold Nrb.n
    omega

theorem tensor_apply {n : Fin d → ℤ} {p : Fin d → ℕ} {U : Fin d → ℤ → K} (P : (Fin d → ℤ) → ℕ → K) (x : Fin d → K) (c : ℕ) :
    tensor n p U P x c = tensor n p U (fun idx => P idx c) x := by
  unfold tensor
  rw [Finset.sum_apply]
  rfl

theorem tensor_sum {ι : Type} (s : Finset ι) {n : Fin d → ℤ} {p : Fin d → ℕ} {U : Fin d → ℤ → K} (α : ι → K)
    (P : ι → (Fin d → ℤ) → K) (x : Fin d → K) :
    tensor n p U (fun idx => ∑ i ∈ s, α i * P i idx) x = ∑ i ∈ s, α i * tensor n p U (P i) x := by
  unfold tensor
  simp only [smul_eq_mul, Finset.mul_sum]
  rw [Finset.sum_comm]
  exact Finset.sum_congr rfl fun i _ => Finset.sum_congr rfl fun j _ => by ring

/-- linear relations between maps with the same knots are relations between the nets, component by component -/
theorem net_linear {ι : Type} (s : Finset ι) {N : Nrb K d} (hv : N.Valid)
    (hm : ∀ a x, N.lo a < x → x < N.hi a → (N.multOf a x : ℤ) ≤ N.degree a + 1) {M : ι → Nrb K d}
    (hk : ∀ i ∈ s, N.SameKnots (M i)) (α : ι → K) {c : ℕ} {c' : ι → ℕ}
    (he : ∀ x, N.InDom x → N.eval x c = ∑ i ∈ s, α i * (M i).eval x (c' i)) {idx : Fin d → ℤ} (hi : N.InNet idx) :
    N.P idx c = ∑ i ∈ s, α i * (M i).P idx (c' i) := by
  rw [← sub_eq_zero]
  refine net_zero hv hm (P := fun idx => N.P idx c - ∑ i ∈ s, α i * (M i).P idx (c' i)) (fun x hx => ?_) hi
  have h1 := he x hx
  have h2 : tensor N.n (fun a => (N.degree a).toNat) N.U (fun idx => ∑ i ∈ s, α i * (M i).P idx (c' i)) x =
      ∑ i ∈ s, α i * (M i).eval x (c' i) := by
    rw [tensor_sum s α (fun i idx => (M i).P idx (c' i))]
    exact Finset.sum_congr rfl fun i h => by rw [(hk i h).eval_eq hv, tensor_apply]
  rw [← h2, Nrb.eval, tensor_apply, ← sub_eq_zero] at h1
  rw [← h1]
  unfold tensor
  rw [← Finset.sum_sub_distrib]
  exact Finset.sum_congr rfl fun j _ => by simp only [smul_eq_mul]; ring

/-- the control net is determined by the knots and the map -/
theorem net_unique {N M : Nrb K d} (hv : N.Valid) (hm : ∀ a x, N.lo a < x → x < N.hi a → (N.multOf a x : ℤ) ≤ N.degree a + 1)
    (hk : N.SameKnots M) {c : ℕ} (he : ∀ x, N.InDom x → M.eval x c = N.eval x c) {idx : Fin d → ℤ} (hi : N.InNet idx) :
    M.P idx c = N.P idx c := by
  have := net_linear {()} hv hm (M := fun _ : Unit => M) (fun _ _ => hk) (fun _ => 1) (c := c) (c' := fun _ => c)
    (fun x hx => by simp [he x hx]) hi
  simpa using this.symm

/-- sorted knots are determined by their multiset -/
theorem knots_unique {N M : Nrb K d} (hv : N.Valid) (hv' : M.Valid) {a : Fin d} (h : M.knots a = N.knots a) :
    M.len a = N.len a ∧ ∀ j, 0 ≤ j → j < N.len a → M.U a j = N.U a j := by
  obtain ⟨p, hp, hk, e⟩ := deg_nat hv a
  obtain ⟨p', hp', hk', e'⟩ := deg_nat hv' a
  have h1 := hk.le
  have h2 := hk.one_le
  have h3 := hk'.le
  have h4 := hk'.one_le
  have := sorted_eq hk'.sorted hk.sorted (by omega) (by omega) (fun x => by
    have := congrArg (Multiset.count x) h
    unfold Nrb.knots at this
    rw [count_knotMS, count_knotMS, e, e'] at this
    exact this)
  refine ⟨by omega, fun j h0 hj => this.2 j h0 (by omega)⟩

theorem sameKnots_of {N M : Nrb K d} (hv : N.Valid) (hv' : M.Valid) (hs : M.shape = N.shape)
    (hk : ∀ a, M.knots a = N.knots a) : N.SameKnots M :=
  ⟨hs, funext fun a => (knots_unique hv hv' (hk a)).1, fun a => (knots_unique hv hv' (hk a)).2⟩

theorem sameData_of_map {N M : Nrb K d} (hv : N.Valid) (hm : ∀ a, N.InnerMult a) (hk : N.SameKnots M) (hnc : M.nc = N.nc)
    (he : ∀ x, N.InDom x → M.eval x = N.eval x) : N.SameData M :=
  ⟨hk, hnc, fun _ hi => funext fun c => net_unique hv (fun a x h1 h2 => by have := hm a x h1 h2; omega) hk
    (fun x hx => by rw [he x hx]) hi⟩

end Igakit
