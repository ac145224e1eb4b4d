import Verif.Proofs.FloatEval
import Verif.Proofs.Hull

/-! # Rounding errors of `NURBS.evaluate` -/

set_option linter.unusedSectionVars false

namespace Igakit
open Spec

variable {K : Type} [Field K] [LinearOrder K] [IsStrictOrderedRing K] {d : ℕ}

variable {δ : K} {rd : K → K} (h0 : 0 ≤ δ) (h1 : δ < 1) (hr : RelErr δ rd)
include h0 h1 hr

theorem Nrb.evaluateF_close (jkF : ℤ → Fp K) (jeF : ℤ → ℕ → Fp K) {N : Nrb K d} (hd : d ≤ 3) (hv : N.Valid)
    {B : K} {c : ℕ} (hP : ∀ idx, (∀ a, 0 ≤ idx a ∧ idx a ≤ N.n a) → 0 ≤ N.P idx 3 ∧ |N.P idx c| ≤ B * N.P idx 3)
    (r : Fin d → ℤ) (X : Fin d → ℤ → K) :
    ∃ CF, Nrb.evaluateF rd jkF jeF N r X = .ok CF ∧ ∀ i : Fin d → ℤ, (∀ a, 0 ≤ i a ∧ i a ≤ r a) →
      N.InDom (fun a => X a (i a)) →
      Fp.HC δ B c (6 * (∑ a, (N.degree a).toNat) + d + ∏ a, ((N.degree a).toNat + 1)) (CF i)
        (N.eval (fun a => X a (i a))) := by
  obtain ⟨C, hC, hC'⟩ := evaluateH_eq (fun _ => 0) (fun _ => 0) hd hv r X
  match d, hd, N, hv, r, X, hP, C, hC, hC' with
  | 0, _, N, hv, r, X, hP, C, hC, hC' =>
    refine ⟨_, rfl, fun i hi hx => ?_⟩
    rw [← hC' i hi hx]
    injection hC with hC
    subst hC
    obtain ⟨q1, q2⟩ := hP ![] (fun a => a.elim0)
    exact ⟨⟨_, rfl, by
      rw [sub_self, abs_zero]
      exact mul_nonneg (by have := Fp.growth_pow h0 h1 (6 * (∑ a, (N.degree a).toNat) + 0 + ∏ a, ((N.degree a).toNat + 1))
                           linarith) ((abs_nonneg _).trans q2), q2⟩, Fp.Close.exact h0 h1 q1 _⟩
  | 1, _, N, hv, r, X, hP, C, hC, hC' =>
    refine ⟨_, rfl, fun i hi hx => ?_⟩
    rw [← hC' i hi hx]
    injection hC with hC
    subst hC
    dsimp only
    have h := Fp.evaluate1_close h0 h1 hr jkF jeF (fun _ => 0) (fun _ => 0) (n := N.n 0) (p := (N.degree 0).toNat) (U := N.U 0)
      (by rw [hv.degNat]; exact hv 0) (P := fun j => N.P ![j]) (B := B) (c := c)
      (fun j a b => hP ![j] (fun k => by fin_cases k; exact ⟨a, b⟩)) (r 0) (X 0) (hi 0)
      (by rw [hv.degNat]; exact (hx 0).1) (by rw [← Nrb.hi_eq]; exact (hx 0).2)
    rw [hv.degNat] at h
    exact h.mono h0 h1 (by simp)
  | 2, _, N, hv, r, X, hP, C, hC, hC' =>
    refine ⟨_, rfl, fun i hi hx => ?_⟩
    rw [← hC' i hi hx]
    injection hC with hC
    subst hC
    dsimp only
    have h := Fp.evaluate2_close h0 h1 hr jkF (fun _ => jeF) (fun _ => 0) (fun _ _ => 0) (nx := N.n 0) (ny := N.n 1)
      (px := (N.degree 0).toNat) (py := (N.degree 1).toNat) (Ux := N.U 0) (Uy := N.U 1)
      (by rw [hv.degNat]; exact hv 0) (by rw [hv.degNat]; exact hv 1) (P := fun j k => N.P ![j, k]) (B := B) (c := c)
      (fun j a b k a' b' => hP ![j, k] (fun l => by
        fin_cases l
        · exact ⟨a, b⟩
        · exact ⟨a', b'⟩)) (r 0) (X 0) (r 1) (X 1) (hi 0) (hi 1)
      (by rw [hv.degNat]; exact (hx 0).1) (by rw [← Nrb.hi_eq]; exact (hx 0).2)
      (by rw [hv.degNat]; exact (hx 1).1) (by rw [← Nrb.hi_eq]; exact (hx 1).2)
    rw [hv.degNat, hv.degNat] at h
    exact h.mono h0 h1 (by rw [Fin.sum_univ_two, Fin.prod_univ_two])
  | 3, _, N, hv, r, X, hP, C, hC, hC' =>
    refine ⟨_, rfl, fun i hi hx => ?_⟩
    rw [← hC' i hi hx]
    injection hC with hC
    subst hC
    dsimp only
    have h := Fp.evaluate3_close h0 h1 hr jkF (fun _ _ => jeF) (fun _ => 0) (fun _ _ _ => 0) (nx := N.n 0) (ny := N.n 1)
      (nz := N.n 2) (px := (N.degree 0).toNat) (py := (N.degree 1).toNat) (pz := (N.degree 2).toNat)
      (Ux := N.U 0) (Uy := N.U 1) (Uz := N.U 2)
      (by rw [hv.degNat]; exact hv 0) (by rw [hv.degNat]; exact hv 1) (by rw [hv.degNat]; exact hv 2)
      (P := fun j k l => N.P ![j, k, l]) (B := B) (c := c)
      (fun j a b k a' b' l a'' b'' => hP ![j, k, l] (fun m => by
        fin_cases m
        · exact ⟨a, b⟩
        · exact ⟨a', b'⟩
        · exact ⟨a'', b''⟩)) (r 0) (X 0) (r 1) (X 1) (r 2) (X 2) (hi 0) (hi 1) (hi 2)
      (by rw [hv.degNat]; exact (hx 0).1) (by rw [← Nrb.hi_eq]; exact (hx 0).2)
      (by rw [hv.degNat]; exact (hx 1).1) (by rw [← Nrb.hi_eq]; exact (hx 1).2)
      (by rw [hv.degNat]; exact (hx 2).1) (by rw [← Nrb.hi_eq]; exact (hx 2).2)
    rw [hv.degNat, hv.degNat, hv.degNat] at h
    exact h.mono h0 h1 (by rw [Fin.sum_univ_three, Fin.prod_univ_three, mul_assoc])

end Igakit
