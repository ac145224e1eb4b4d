import Verif.Proofs.SlopeCurve
import Verif.Proofs.HullCalls
import Verif.Spec.Slopes

/-!
# Differences of control points under refinement
-/

set_option linter.unusedSectionVars false

namespace Igakit
open Spec

variable {K : Type} [Field K] [LinearOrder K] [IsStrictOrderedRing K] {d : ℕ}

/-- a span between neighbouring control points -/
theorem exists_mid {n : ℤ} {p : ℕ} {U : ℤ → K} (hv : ValidKnots n p U)
    (hm : ∀ x, U p < x → x < U (n + 1) → mult U 0 (n + p + 1) x ≤ p) {j : ℤ} (hj0 : 0 ≤ j) (hjn : j < n) :
    ∃ h, (p : ℤ) ≤ h ∧ h ≤ n ∧ j + 1 ≤ h ∧ h ≤ j + p ∧ U h < U (h + 1) := by
  have hle := hv.le
  have h1 := hv.one_le
  have hs := hv.sorted
  by_cases c1 : j < p
  · exact ⟨p, le_rfl, hle, by omega, by omega, hv.first⟩
  by_cases c2 : n ≤ j + p
  · exact ⟨n, hle, le_rfl, by omega, by omega, hv.last⟩
  have hlt : U (j + 1) < U (j + p + 1) := by
    by_contra hc
    have e := le_antisymm (hs (j + 1) (j + p + 1) (by omega) (by omega) (by omega)) (not_lt.mp hc)
    have := hm (U (j + 1)) (lt_of_lt_of_le hv.first (hs _ _ (by omega) (by omega) (by omega)))
      (lt_of_le_of_lt (hs _ n (by omega) (by omega) (by omega)) hv.last)
    have hsub : Finset.Icc (j + 1) (j + p + 1) ⊆ (Finset.Icc 0 (n + p + 1)).filter (fun i => U i = U (j + 1)) := by
      intro i hi
      have hi := Finset.mem_Icc.mp hi
      refine Finset.mem_filter.mpr ⟨Finset.mem_Icc.mpr ⟨by omega, by omega⟩, le_antisymm ?_ ?_⟩
      · rw [e]; exact hs _ _ (by omega) hi.2 (by omega)
      · exact hs _ _ (by omega) hi.1 (by omega)
    have := Finset.card_le_card hsub
    rw [Int.card_Icc] at this
    unfold mult at *
    omega
  obtain ⟨k, k1, k2, k3⟩ := exists_step p (j + 1) (by rw [show j + 1 + (p : ℤ) = j + p + 1 by ring]; exact hlt)
  exact ⟨k, by omega, by omega, by omega, by omega, k3⟩

theorem inner_axis {N : Nrb K d} (hm : ∀ a, N.InnerMult a) {a : Fin d} {p : ℕ} (hp : N.degree a = p) (e : N.len a - 1 = N.n a + p + 1) :
    ∀ x, N.U a p < x → x < N.U a (N.n a + 1) → mult (N.U a) 0 (N.n a + p + 1) x ≤ p := by
  intro x h1 h2
  have := hm a x (by rw [N.lo_eq, hp]; exact h1) (by rw [N.hi_eq]; exact h2)
  unfold Nrb.multOf at this
  rw [e, hp] at this
  exact_mod_cast this

theorem convex_scale {S : Set (ℕ → K)} (hS : Convex K S) (c : K) : Convex K {v | ∃ s ∈ S, v = c • s} := by
  rintro x ⟨s, hs, rfl⟩ y ⟨t, ht, rfl⟩ a b ha hb hab
  exact ⟨a • s + b • t, hS hs ht ha hb hab, by module⟩

theorem curve_sub {E : Type*} [AddCommGroup E] [Module K E] (n : ℤ) (p : ℕ) (U : ℤ → K) (P Q : ℤ → E) (u : K) :
    curve n p U (fun i => P i - Q i) u = curve n p U P u - curve n p U Q u := by
  unfold curve
  simp only [smul_sub, Finset.sum_sub_distrib]

/-- the differences along the axis that gets the knots -/
theorem slopes_same {N N' : Nrb K (d + 1)} (hv : N.Valid) {a : Fin (d + 1)} (h : MoreKnots N N' a) {S : Set (ℕ → K)} (hS : Convex K S)
    (hN : N.Slopes a S) : N'.Slopes a S := by
  intro idx hidx hlt
  have hv' := h.valid
  obtain ⟨p, hp, hk, e⟩ := deg_nat hv a
  obtain ⟨p', hp', hk', e'⟩ := deg_nat hv' a
  have hd := h.same.degree a
  have hpp : p' = p := by omega
  subst hpp
  obtain ⟨i1, i2⟩ := net_split a hidx
  have hrow := fun u h1 h2 => rows_eq (N := N) (u := u) hv' (fun b hb => ⟨h.U b hb, h.shape b hb, h.same.degree b⟩)
    (fun b x h1 h2 => by have := h.inner b x h1 h2; omega) (fun x hx => h.same.eval x fun b => by
      have := hx b
      rw [h.same.lo, h.same.hi] at this
      exact this) i2 h1 h2
  rw [hp, hp', Int.toNat_natCast] at hrow
  obtain ⟨q, rfl⟩ : ∃ q, p' = q + 1 := ⟨p' - 1, by have := hk.one_le; omega⟩
  have hlo := (h.same.lo a).ge
  have hhi := (h.same.hi a).le
  have hnn : N'.shape a = N'.n a + 1 := by unfold Nrb.n; ring
  have := curve_slope (n := N.n a) (n' := N'.n a) hk.sorted hk'.sorted hk.le
    (by rw [N.lo_eq, N'.lo_eq, hp, hp'] at hlo; exact hlo) (by rw [N.hi_eq, N'.hi_eq] at hhi; exact hhi)
    (fun u h1 h2 => hrow u (by rw [N'.lo_eq, hp']; exact h1) (by rw [N'.hi_eq]; exact h2))
    (fun y h1 h2 => by
      have := h.mult y h1 (by rw [e']; exact h2)
      unfold Nrb.multOf at this
      rw [e, e'] at this
      exact this) hS (fun i j1 j2 => ?_) (j := idx a) i1.1 (by omega)
    (exists_mid hk' (inner_axis h.inner hp' e') i1.1 (by omega))
  · obtain ⟨s, s1, s2⟩ := this
    refine ⟨s, s1, ?_⟩
    rw [Fin.insertNth_removeNth, Fin.insertNth_self_removeNth] at s2
    rw [hp', s2]
  · have hnn : N.shape a = N.n a + 1 := by unfold Nrb.n; ring
    obtain ⟨s, s1, s2⟩ := hN (a.insertNth i (a.removeNth idx)) (net_join ⟨j1, j2.le⟩ (fun b => by
        rw [← h.shape _ (Fin.succAbove_ne a b)]; exact i2 b)) (by rw [Fin.insertNth_apply_same]; omega)
    refine ⟨s, s1, ?_⟩
    rw [Fin.insertNth_apply_same, Fin.update_insertNth, hp] at s2
    exact s2

/-- the differences along the other axes -/
theorem slopes_other {N N' : Nrb K (d + 1)} (hv : N.Valid) {a : Fin (d + 1)} (h : MoreKnots N N' a) {b : Fin (d + 1)} (hb : b ≠ a)
    {S : Set (ℕ → K)} (hS : Convex K S) (hN : N.Slopes b S) : N'.Slopes b S := by
  intro idx hidx hlt
  have hv' := h.valid
  obtain ⟨b', rfl⟩ := Fin.exists_succAbove_eq hb
  obtain ⟨p, hp, hk, e⟩ := deg_nat hv a
  obtain ⟨p', hp', hk', e'⟩ := deg_nat hv' a
  have hd := h.same.degree a
  have hpp : p' = p := by omega
  subst hpp
  obtain ⟨i1, i2⟩ := net_split a hidx
  set o := a.removeNth idx with hodef
  set o' := Function.update o b' (o b' + 1) with ho'
  have i3 : ∀ b, 0 ≤ o' b ∧ o' b < N'.shape (a.succAbove b) := by
    intro b
    rw [ho']
    by_cases hbb : b = b'
    · subst hbb
      rw [Function.update_self]
      refine ⟨by have := (i2 b).1; omega, hlt⟩
    · rw [Function.update_of_ne hbb]; exact i2 b
  have hmm : ∀ b x, N'.lo b < x → x < N'.hi b → (N'.multOf b x : ℤ) ≤ N'.degree b + 1 :=
    fun b x h1 h2 => by have := h.inner b x h1 h2; omega
  have hev : ∀ x, N'.InDom x → N'.eval x = N.eval x := fun x hx => h.same.eval x fun b => by
      have := hx b
      rw [h.same.lo, h.same.hi] at this
      exact this
  have hoo := fun b (hb : b ≠ a) => (⟨h.U b hb, h.shape b hb, h.same.degree b⟩ : N'.U b = N.U b ∧ N'.shape b = N.shape b ∧ N'.degree b = N.degree b)
  have hrow := fun u h1 h2 => rows_eq (N := N) (u := u) hv' hoo hmm hev i2 h1 h2
  have hrow' := fun u h1 h2 => rows_eq (N := N) (u := u) hv' hoo hmm hev i3 h1 h2
  rw [hp, hp', Int.toNat_natCast] at hrow hrow'
  have hA := active_axis hv' (hmm a)
  rw [hp', Int.toNat_natCast] at hA
  have hlo := (h.same.lo a).ge
  have hhi := (h.same.hi a).le
  have e2 : ∀ i, a.insertNth i o' = Function.update (a.insertNth i o : Fin (d + 1) → ℤ) (a.succAbove b') (o b' + 1) := by
    intro i
    rw [ho']
    funext c
    refine Fin.succAboveCases a ?_ (fun c => ?_) c
    · rw [Fin.insertNth_apply_same, Function.update_of_ne (Fin.ne_succAbove a b'), Fin.insertNth_apply_same]
    · rw [Fin.insertNth_apply_succAbove]
      by_cases hc : c = b'
      · subst hc; rw [Function.update_self, Function.update_self]
      · rw [Function.update_of_ne hc, Function.update_of_ne (fun h => hc (Fin.succAbove_right_injective h)),
          Fin.insertNth_apply_succAbove]
  have := curve_hull (n := N.n a) (n' := N'.n a) hk.sorted hk'.sorted hk.le
    (by rw [N.lo_eq, N'.lo_eq, hp, hp'] at hlo; exact hlo) (by rw [N.hi_eq, N'.hi_eq] at hhi; exact hhi)
    (P := fun i => N.P (a.insertNth i o') - N.P (a.insertNth i o)) (Q := fun i => N'.P (a.insertNth i o') - N'.P (a.insertNth i o))
    (fun u h1 h2 => by
      have h1 : N'.lo a ≤ u := by rw [N'.lo_eq, hp']; exact h1
      have h2 : u ≤ N'.hi a := by rw [N'.hi_eq]; exact h2
      rw [curve_sub, curve_sub, hrow u h1 h2, hrow' u h1 h2])
    (fun y h1 h2 => by
      have := h.mult y h1 (by rw [e']; exact h2)
      unfold Nrb.multOf at this
      rw [e, e'] at this
      exact this) hA
    (convex_scale hS (N'.U (a.succAbove b') (o b' + N'.degree (a.succAbove b') + 1) - N'.U (a.succAbove b') (o b' + 1)))
    (fun i j1 j2 => ?_) (j := idx a) i1.1 i1.2
  · obtain ⟨s, s1, s2⟩ := this
    refine ⟨s, s1, ?_⟩
    rw [e2] at s2
    rw [hodef, Fin.insertNth_self_removeNth] at s2
    rw [← sub_eq_iff_eq_add']
    exact s2
  · have hx : (a.insertNth i o : Fin (d + 1) → ℤ) (a.succAbove b') = o b' := by rw [Fin.insertNth_apply_succAbove]
    obtain ⟨s, s1, s2⟩ := hN (a.insertNth i o) (net_join ⟨j1, j2⟩ (fun b => by
        rw [← h.shape _ (Fin.succAbove_ne a b)]; exact i2 b)) (by
        rw [hx, ← h.shape _ hb]; exact hlt)
    refine ⟨s, s1, ?_⟩
    rw [hx] at s2
    rw [e2, s2, h.U _ hb, h.same.degree]
    module

theorem MoreKnots.slopes {N N' : Nrb K (d + 1)} (hv : N.Valid) {a : Fin (d + 1)} (h : MoreKnots N N' a) (b : Fin (d + 1))
    {S : Set (ℕ → K)} (hS : Convex K S) (hN : N.Slopes b S) : N'.Slopes b S := by
  by_cases hb : b = a
  · subst hb; exact slopes_same hv h hS hN
  · exact slopes_other hv h hb hS hN

end Igakit
