import Verif.Proofs.RemoveTop

/-!
# Knot removal keeps affine conditions on the control points
-/

set_option linter.unusedSectionVars false

namespace Igakit
open Spec

variable {K : Type*} [Field K] [LinearOrder K] [IsStrictOrderedRing K]
variable {E : Type*} [AddCommGroup E] [Module K E] {F : Type*} [AddCommGroup F] [Module K F]
variable {n : ℤ} {p : ℕ} {U : ℤ → K} {uu : K} {r s : ℤ}

theorem remLoop_aff (h : RemCtx n p U uu r s) (near : E → E → Prop) (φ : E →ₗ[K] F) (v : F) :
    ∀ (k t : ℕ) (Pw temp : ℤ → E), (t + k : ℤ) ≤ s → (∀ i, 0 ≤ i → i ≤ n → φ (Pw i) = v) →
      t ≤ (remLoop U uu p near k t (r - p - t) (r - s + t) Pw temp).1 ∧
      (remLoop U uu p near k t (r - p - t) (r - s + t) Pw temp).1 ≤ t + k ∧
      ∀ i, 0 ≤ i → i ≤ n → φ ((remLoop U uu p near k t (r - p - t) (r - s + t) Pw temp).2 i) = v := by
  have h1 := h.rp
  have h2 := h.rn
  have h3 := h.s1
  have h4 := h.sp
  intro k
  induction k with
  | zero =>
    intro t Pw temp e hP
    unfold remLoop
    exact ⟨le_refl _, by omega, hP⟩
  | succ k ih =>
    intro t Pw temp e hP
    push_cast at e
    have ht : (t : ℤ) < s := by omega
    unfold remLoop
    dsimp only
    split_ifs with hflag
    swap
    · exact ⟨le_refl _, by push_cast; omega, hP⟩
    obtain ⟨hq, hqe⟩ : ∃ hq : ℕ, (hq : ℤ) = (p - s + t + 1) / 2 := ⟨((p - s + t + 1) / 2).toNat, by omega⟩
    obtain ⟨-, r2, r3, r4⟩ := rem_round U uu p t (r - p - t) (r - s + t) near Pw temp
      (by omega) (h := hq) (by omega) (by omega)
    have hα : ∀ y, r - p - t ≤ y → y ≤ r - s → 0 < remAlfi U uu p t y ∧ remAlfi U uu p t y < 1 :=
      fun y a b => h.alf (by omega) ht a b
    have aL : ∀ (α : K) (A B : E), α ≠ 0 → φ A = v → φ B = v → φ (α⁻¹ • (A - (1 - α) • B)) = v := by
      intro α A B h0 hA hB
      rw [map_smul, map_sub, map_smul, hA, hB]
      rw [show v - (1 - α) • v = α • v by module, smul_smul, inv_mul_cancel₀ h0, one_smul]
    have hL : ∀ c : ℕ, c ≤ hq → φ (remL U uu p t (r - p - t) Pw c) = v := by
      intro c
      induction c with
      | zero => intro _; exact hP _ (by omega) (by omega)
      | succ c ih =>
        intro hc
        unfold remL
        exact aL _ _ _ (hα _ (by omega) (by omega)).1.ne' (hP _ (by omega) (by omega)) (ih (by omega))
    have hR : ∀ c : ℕ, c ≤ hq → φ (remR U uu p t (r - s + t) Pw c) = v := by
      intro c
      induction c with
      | zero => intro _; exact hP _ (by omega) (by omega)
      | succ c ih =>
        intro hc
        unfold remR
        have e1 : r - s + (t : ℤ) - c = r - s - c + t := by ring
        have hb := (hα (r - s - c) (by omega) (by omega)).2
        rw [← remAlfj_eq, ← e1] at hb
        have := aL (1 - remAlfj U uu p t (r - s + t - c)) (Pw (r - s + t - c)) (remR U uu p t (r - s + t) Pw c)
          (by linarith) (hP _ (by omega) (by omega)) (ih (by omega))
        rwa [sub_sub_cancel] at this
    have key := ih (t + 1) (remStore t (r - p - t - 1) (remSolved U uu p t (r - p - t) (r - s + t) Pw temp).temp
      (r - s + t + 1 - (r - p - t)).toNat (r - p - t) (r - s + t) Pw)
      (remSolved U uu p t (r - p - t) (r - s + t) Pw temp).temp (by push_cast; omega) (by
        intro i i0 i1
        by_cases c1 : r - p - t ≤ i ∧ i < r - p - t + hq
        · have := r2 (i - (r - p - t)).toNat (by omega)
          rw [show r - (p : ℤ) - t + ((i - (r - p - t)).toNat : ℤ) = i by omega] at this
          rw [this]
          exact hL _ (by omega)
        · by_cases c2 : r - s + t - hq < i ∧ i ≤ r - s + t
          · have := r3 (r - s + t - i).toNat (by omega)
            rw [show r - s + (t : ℤ) - ((r - s + t - i).toNat : ℤ) = i by omega] at this
            rw [this]
            exact hR _ (by omega)
          · rw [r4 i (by omega)]
            exact hP i i0 i1)
    push_cast at key
    rw [show r - (p : ℤ) - (t + 1) = r - p - t - 1 by ring, show r - s + ((t : ℤ) + 1) = r - s + t + 1 by ring] at key
    obtain ⟨k1, k2, k3⟩ := key
    exact ⟨by omega, by push_cast; omega, k3⟩

/-- an affine condition on all control points survives removal -/
theorem removeKnot_aff {eps : K} (heps : 0 < eps) (jt : ℤ → E) (near : E → E → Prop) (hv : ValidKnots n p U) (P : ℤ → E)
    (h1 : U p < uu) (h2 : uu < U (n + 1)) (hsep : SepFrom eps uu U 0 (n + p + 1)) {R : ℕ}
    (hr : R ≤ mult U 0 (n + p + 1) uu) (hm : mult U 0 (n + p + 1) uu ≤ p) (φ : E →ₗ[K] F) (v : F)
    (hP : ∀ i, 0 ≤ i → i ≤ n → φ (P i) = v) {t : ℤ} {V : ℤ → K} {Q : ℤ → E}
    (h : BSp.RemoveKnot eps jt near n p U P uu R = .ok (t, V, Q)) : ∀ i, 0 ≤ i → i ≤ n - t → φ (Q i) = v := by
  have hp := hv.one_le
  have hle := hv.le
  by_cases hr0 : R = 0
  · subst hr0
    unfold BSp.RemoveKnot at h
    rw [if_pos ⟨by omega, hp, ⟨h1.le, h2.le⟩, by omega, by omega⟩, if_pos (by simp)] at h
    simp only [Except.ok.injEq, Prod.mk.injEq] at h
    obtain ⟨rfl, -, rfl⟩ := h
    intro i i0 i1
    exact hP i i0 (by omega)
  have hc := RemCtx.of_valid hv h1 h2 (by omega) hm
  rw [removeKnot_res heps jt _ P hc hsep (by omega) (by omega)] at h
  generalize findSpan n p uu U = k at *
  generalize mult U 0 (n + p + 1) uu = m at *
  have hrp := hc.rp
  have hrn := hc.rn
  obtain ⟨a1, a2, a3⟩ := remLoop_aff hc near φ v R 0 P jt (by omega) hP
  rw [Nat.cast_zero, sub_zero, add_zero] at a1 a2 a3
  rw [zero_add] at a2
  unfold removeKnot at h
  dsimp only at h
  rw [Int.toNat_natCast] at h
  generalize remLoop U uu p near R 0 (k - p) (k - m) P jt = tP at *
  obtain ⟨t', Pw'⟩ := tP
  dsimp only at a1 a2 a3 h
  split_ifs at h with ht0
  · simp only [Except.ok.injEq, Prod.mk.injEq] at h
    obtain ⟨rfl, -, rfl⟩ := h
    intro i i0 i1
    exact a3 i i0 (by omega)
  · simp only [Except.ok.injEq, Prod.mk.injEq] at h
    obtain ⟨rfl, -, rfl⟩ := h
    intro i i0 i1
    rcases remShift_final (n := n) p k m t' Pw' hrp hrn (by omega) (by omega) (by omega) with c | c
    · rw [c i i0 i1]
      split_ifs
      · exact a3 i i0 (by omega)
      · exact a3 _ (by omega) (by omega)
    · rw [c i i0 i1]
      split_ifs
      · exact a3 i i0 (by omega)
      · exact a3 _ (by omega) (by omega)

end Igakit
