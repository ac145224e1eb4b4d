import Verif.Proofs.Remove
import Verif.Proofs.Hull
import Mathlib.Analysis.Seminorm

/-!
# Knot removal: how far the curve moves
-/

set_option linter.unusedSectionVars false

namespace Igakit
open Spec

variable {E : Type*} [AddCommGroup E] [Module ℝ E]
variable {n : ℤ} {p : ℕ} {U : ℤ → ℝ} {uu : ℝ} {r s : ℤ}

/-- nets that are close give close curves -/
theorem curve_dev (ν : Seminorm ℝ E) (hv : ValidKnots n p U) {P Q : ℤ → E} {c : ℝ}
    (h : ∀ i, 0 ≤ i → i ≤ n → ν (P i - Q i) ≤ c) {x : ℝ} (h1 : U p ≤ x) (h2 : x ≤ U (n + 1)) :
    ν (curve n p U P x - curve n p U Q x) ≤ c := by
  unfold curve
  rw [← Finset.sum_sub_distrib]
  refine (Finset.le_sum_of_subadditive ν (map_zero ν).le (map_add_le_add ν) _ _).trans ?_
  have hone := bsplineD_sum_one hv h1 h2
  calc _ ≤ ∑ i ∈ Finset.Icc 0 n, bsplineD n U p i x * c := by
        refine Finset.sum_le_sum fun i hi => ?_
        obtain ⟨a, b⟩ := Finset.mem_Icc.mp hi
        have hnn := bsplineD_nonneg hv h1 h2 a b
        rw [← smul_sub, map_smul_eq_mul, Real.norm_eq_abs, abs_of_nonneg hnn]
        exact mul_le_mul_of_nonneg_left (h i a b) hnn
    _ = c := by rw [← Finset.sum_mul, hone, one_mul]

/-- the loop of `RemoveKnot`: at every stage both readings of the storage are reached by steps that move
each control point by at most the tolerance -/
theorem remLoop_dev (h : RemCtx n p U uu r s) (ν : Seminorm ℝ E) (TOL : ℝ) (Good : ℕ → (ℤ → E) → Prop)
    (hstep : ∀ (t : ℕ) (Q C : ℤ → E), (t : ℤ) < s → Good t Q →
      (∀ y, 0 ≤ y → y ≤ n - t → ν (Q y - remIns U uu p r s t C y) ≤ TOL) → Good (t + 1) C) :
    ∀ (k t : ℕ) (Pw temp : ℤ → E), (t + k : ℤ) ≤ s →
      Good t (fun i => if i ≤ remA p r s t then Pw i else Pw (i + t)) →
      Good t (fun i => if i < remB p r s t then Pw i else Pw (i + t)) →
      ∃ (t' : ℕ) (Pw' : ℤ → E), t ≤ t' ∧ t' ≤ t + k ∧
        remLoop U uu p (fun a b => ν (a - b) ≤ TOL) k t (r - p - t) (r - s + t) Pw temp = ((t' : ℤ), Pw') ∧
        (t' = t → Pw' = Pw) ∧
        Good t' (fun i => if i ≤ remA p r s t' then Pw' i else Pw' (i + t')) ∧
        Good t' (fun i => if i < remB p r s t' then Pw' i else Pw' (i + t')) := by
  have h1 := h.rp
  have h2 := h.rn
  have h3 := h.s1
  have h4 := h.sp
  intro k
  induction k with
  | zero =>
    intro t Pw temp e g1 g2
    exact ⟨t, Pw, le_refl _, le_refl _, rfl, fun _ => rfl, g1, g2⟩
  | succ k ih =>
    intro t Pw temp e g1 g2
    push_cast at e
    have ht : (t : ℤ) < s := by omega
    obtain ⟨hq, hqe⟩ : ∃ hq : ℕ, (hq : ℤ) = (p - s + t + 1) / 2 := ⟨((p - s + t + 1) / 2).toNat, by omega⟩
    obtain ⟨r1, r2, r3, r4⟩ := rem_round U uu p t (r - p - t) (r - s + t) (fun a b => ν (a - b) ≤ TOL) Pw temp
      (by omega) (h := hq) (by omega) (by omega)
    unfold remLoop
    by_cases hflag : remFlag U uu p t (fun a b => ν (a - b) ≤ TOL) Pw
        (remSolved U uu p t (r - p - t) (r - s + t) Pw temp)
    swap
    · rw [if_neg hflag]
      exact ⟨t, Pw, le_refl _, by omega, rfl, fun _ => rfl, g1, g2⟩
    rw [if_pos hflag]
    rw [r1] at hflag
    generalize (remSolved U uu p t (r - p - t) (r - s + t) Pw temp).temp = temp' at *
    have key := ih (t + 1) (remStore t (r - p - t - 1) temp' (r - s + t + 1 - (r - p - t)).toNat (r - p - t)
      (r - s + t) Pw) temp' (by push_cast; omega)
    push_cast at key
    rw [show r - (p : ℤ) - (t + 1) = r - p - t - 1 by ring, show r - s + ((t : ℤ) + 1) = r - s + t + 1 by ring] at key
    generalize remStore t (r - p - t - 1) temp' (r - s + t + 1 - (r - p - t)).toNat (r - p - t)
      (r - s + t) Pw = Pw' at *
    have hTOL : 0 ≤ TOL := by
      split_ifs at hflag
      · exact (apply_nonneg ν _).trans hflag
      · exact (apply_nonneg ν _).trans hflag
    -- the equations of the round
    have hα : ∀ y, r - p - t ≤ y → y ≤ r - s → 0 < remAlfi U uu p t y ∧ remAlfi U uu p t y < 1 :=
      fun y a b => h.alf (by omega) ht a b
    have QL : ∀ y, 0 ≤ y → y ≤ remA p r s t → (if y ≤ remA p r s t then Pw y else Pw (y + t)) = Pw y :=
      fun y _ a => if_pos a
    have eqL : ∀ c : ℕ, c < hq → Pw (r - p - t + c) =
        remAlfi U uu p t (r - p - t + c) • remL U uu p t (r - p - t) Pw (c + 1) +
        (1 - remAlfi U uu p t (r - p - t + c)) • remL U uu p t (r - p - t) Pw c := fun c hc =>
      remL_eq Pw (hα _ (by omega) (by omega)).1.ne'
    have eqR : ∀ c : ℕ, c < hq → Pw (r - s - c + t) =
        remAlfi U uu p t (r - s - c) • remR U uu p t (r - s + t) Pw c +
        (1 - remAlfi U uu p t (r - s - c)) • remR U uu p t (r - s + t) Pw (c + 1) := fun c hc => by
      have e1 : r - s + (t : ℤ) - c = r - s - c + t := by ring
      have := remR_eq (U := U) (uu := uu) (p := p) (t := t) (last := r - s + t) Pw (c := c) (by
        rw [e1, remAlfj_eq]; linarith [(hα (r - s - c) (by omega) (by omega)).2])
      rwa [e1, remAlfj_eq] at this
    have L0 : remL U uu p t (r - p - t) Pw 0 = Pw (r - p - t - 1) := rfl
    have R0 : remR U uu p t (r - s + t) Pw 0 = Pw (r - s + t + 1) := rfl
    -- the new points
    have nL : ∀ y, r - p - t - 1 ≤ y → y ≤ remA p r s (t + 1) → Pw' y =
        remL U uu p t (r - p - t) Pw (y - (r - p - t - 1)).toNat := by
      intro y a b
      unfold remA at b
      by_cases c : y = r - p - t - 1
      · rw [r4 y (Or.inl (by omega)), show (y - (r - p - t - 1)).toNat = 0 by omega, L0, c]
      · have := r2 (y - (r - p - t)).toNat (by omega)
        rw [show r - (p : ℤ) - t + ((y - (r - p - t)).toNat : ℤ) = y by omega] at this
        rw [this]; congr 1; omega
    have nR : ∀ y, remB p r s (t + 1) ≤ y → y ≤ r - s → Pw' (y + (t + 1)) =
        remR U uu p t (r - s + t) Pw (r - s - y).toNat := by
      intro y a b
      unfold remB at a
      by_cases c : y = r - s
      · rw [r4 _ (Or.inr (Or.inr (by omega))), show (r - s - y).toNat = 0 by omega, R0, c]
        congr 1; ring
      · have := r3 (r - s - 1 - y).toNat (by omega)
        rw [show r - s + (t : ℤ) - ((r - s - 1 - y).toNat : ℤ) = y + (t + 1) by omega] at this
        rw [this]; congr 1; omega
    have hz : ∀ a b : E, a = b → ν (a - b) ≤ TOL := fun a b e => by rw [e, sub_self, map_zero]; exact hTOL
    unfold remA at nL QL
    unfold remB at nR
    obtain ⟨t', Pw'', k1, k2, k3, k4, k5, k6⟩ := key
      (hstep t _ _ ht g1 (by
        intro y y1 y2
        unfold remA
        by_cases c1 : y < r - p - t
        · rw [remIns_lo c1, if_pos (by omega), if_pos (by omega), r4 y (Or.inl c1)]
          exact hz _ _ rfl
        by_cases c2 : r - s < y
        · rw [remIns_hi (by omega) c2, if_neg (by omega), if_neg (by omega), r4 _ (Or.inr (Or.inr (by omega)))]
          exact hz _ _ (by congr 1; ring)
        obtain ⟨a0, a1⟩ := hα y (by omega) (by omega)
        rw [remIns_mid (by omega) (by omega)]
        by_cases c3 : y < r - p - t + hq
        · -- left equation
          rw [if_pos (by omega), if_pos (by omega), if_pos (by omega), nL y (by omega) (by omega),
            nL (y - 1) (by omega) (by omega)]
          apply hz
          have := eqL (y - (r - p - t)).toNat (by omega)
          rw [show r - (p : ℤ) - t + ((y - (r - p - t)).toNat : ℤ) = y by omega] at this
          rw [this]
          congr 3
          · omega
          · omega
        · rw [if_neg (show ¬ y ≤ r - p - (t + 1) + ((p : ℤ) - s + (t + 1)) / 2 by omega)]
          by_cases c4 : y - 1 ≤ r - p - (t + 1) + ((p : ℤ) - s + (t + 1)) / 2
          · rw [if_pos c4, nL (y - 1) (by omega) c4, show (y - 1 - (r - p - t - 1)).toNat = hq by omega,
              nR y (by omega) (by omega)]
            by_cases c5 : r - s + t - (r - p - t) - 2 * (hq : ℤ) < t
            · -- two candidates
              rw [if_pos c5] at hflag
              rw [if_neg (by omega)]
              have := eqR (r - s - y).toNat (by omega)
              rw [show r - s - (((r - s - y).toNat : ℕ) : ℤ) = y by omega,
                show (r - s - y).toNat + 1 = hq by omega] at this
              rw [this]
              have e2 : ∀ (α : ℝ) (A B C : E), α • A + (1 - α) • B - (α • A + (1 - α) • C) = (1 - α) • (B - C) := by
                intros; module
              rw [e2, map_smul_eq_mul, Real.norm_eq_abs, abs_of_pos (by linarith), map_sub_rev]
              nlinarith [apply_nonneg ν (remL U uu p t (r - p - t) Pw hq - remR U uu p t (r - s + t) Pw hq)]
            · -- middle equation
              rw [if_neg c5] at hflag
              rw [if_pos (by omega), show (r - s - y).toNat = hq by omega]
              rw [show r - (p : ℤ) - t + hq = y by omega] at hflag
              exact hflag
          · rw [if_neg c4, if_neg (by omega), nR y (by omega) (by omega), nR (y - 1) (by omega) (by omega)]
            apply hz
            have := eqR (r - s - y).toNat (by omega)
            rw [show r - s - (((r - s - y).toNat : ℕ) : ℤ) = y by omega] at this
            rw [this]
            congr 3
            omega))
      (hstep t _ _ ht g1 (by
        intro y y1 y2
        unfold remA remB
        by_cases c1 : y < r - p - t
        · rw [remIns_lo c1, if_pos (by omega), if_pos (by omega), r4 y (Or.inl c1)]
          exact hz _ _ rfl
        by_cases c2 : r - s < y
        · rw [remIns_hi (by omega) c2, if_neg (by omega), if_neg (by omega), r4 _ (Or.inr (Or.inr (by omega)))]
          exact hz _ _ (by congr 1; ring)
        obtain ⟨a0, a1⟩ := hα y (by omega) (by omega)
        rw [remIns_mid (by omega) (by omega)]
        by_cases c3 : y < r - p - t + hq
        · have e3 := eqL (y - (r - p - t)).toNat (by omega)
          rw [show r - (p : ℤ) - t + ((y - (r - p - t)).toNat : ℤ) = y by omega] at e3
          rw [if_pos (show y ≤ r - p - t + ((p : ℤ) - s + t) / 2 by omega),
            if_pos (show y - 1 < r - s - ((p : ℤ) - s + (t + 1)) / 2 by omega), nL (y - 1) (by omega) (by omega), e3,
            show (y - 1 - (r - p - t - 1)).toNat = (y - (r - p - t)).toNat by omega]
          by_cases c4 : y < r - s - ((p : ℤ) - s + (t + 1)) / 2
          · rw [if_pos c4, nL y (by omega) (by omega)]
            apply hz
            congr 3
            omega
          · -- two candidates
            rw [if_pos (by omega)] at hflag
            rw [if_neg c4, nR y (by omega) (by omega), show (y - (r - p - t)).toNat + 1 = hq by omega,
              show (r - s - y).toNat = hq by omega]
            have e2 : ∀ (α : ℝ) (A B C : E), α • A + (1 - α) • B - (α • C + (1 - α) • B) = α • (A - C) := by
              intros; module
            rw [e2, map_smul_eq_mul, Real.norm_eq_abs, abs_of_pos (by linarith)]
            nlinarith [apply_nonneg ν (remL U uu p t (r - p - t) Pw hq - remR U uu p t (r - s + t) Pw hq)]
        · rw [if_neg (show ¬ y < r - s - ((p : ℤ) - s + (t + 1)) / 2 by omega), nR y (by omega) (by omega)]
          by_cases c4 : y - 1 < r - s - ((p : ℤ) - s + (t + 1)) / 2
          · -- middle equation
            rw [if_pos c4, nL (y - 1) (by omega) (by omega), show (y - 1 - (r - p - t - 1)).toNat = hq by omega]
            rw [if_neg (by omega)] at hflag
            rw [if_pos (by omega), show (r - s - y).toNat = hq by omega]
            rw [show r - (p : ℤ) - t + hq = y by omega] at hflag
            exact hflag
          · rw [if_neg c4, if_neg (by omega), nR (y - 1) (by omega) (by omega)]
            apply hz
            have := eqR (r - s - y).toNat (by omega)
            rw [show r - s - (((r - s - y).toNat : ℕ) : ℤ) = y by omega] at this
            rw [this]
            congr 3
            omega))
    exact ⟨t', Pw'', by omega, by omega, k3, fun e => by omega, k5, k6⟩

end Igakit
