import Verif.Model.Ctor
import Verif.Proofs.CurveForm
import Verif.Proofs.Hull
import Verif.Proofs.Nrb
import Mathlib.Algebra.BigOperators.Ring.Finset

/-! # Lemmas about Greville abscissae and about tensor product nets of them -/

set_option linter.unusedSectionVars false

namespace Igakit
open Spec

section
variable {K : Type*} [Field K] [LinearOrder K] [IsStrictOrderedRing K]

theorem greville_sum (U : ℤ → K) (i : ℤ) (p : ℕ) :
    greville (p : ℤ) U i = (kn U i p).sum / p := by
  unfold greville
  have : ∀ q : ℕ, forUp (i + 1) (i + q) (fun j s => s + U j) 0 = (kn U i q).sum := by
    intro q
    induction q with
    | zero => rw [forUp_empty (by simp)]; rfl
    | succ q ih =>
      rw [kn_succ_last, Multiset.sum_cons, ← ih]
      rw [show i + ((q + 1 : ℕ) : ℤ) = i + q + 1 by push_cast; ring, forUp_last (by omega)]
      rw [show i + q + 1 - 1 = i + (q : ℤ) by ring, show i + 1 + (q : ℤ) = i + q + 1 by ring, add_comm]
  rw [this p, Int.cast_natCast]

theorem sumForm (p : ℕ) : IsForm p (fun m : Multiset K => m.sum / (p : K)) := by
  intro m _ a s t
  simp only [Multiset.sum_cons, smul_eq_mul]
  ring

theorem curve_greville {n : ℤ} {p : ℕ} {U : ℤ → K} (hv : ValidKnots n p U) {u : K} (h1 : U p ≤ u)
    (h2 : u ≤ U (n + 1)) : curve n p U (fun i => greville (p : ℤ) U i) u = u := by
  rw [(SpanOf.of_findSpan hv h1 h2).curve_form hv.sorted (sumForm p) (fun i _ _ => greville_sum U i p)]
  have := hv.one_le
  have hp : (p : K) ≠ 0 := by exact_mod_cast (by omega : p ≠ 0)
  rw [Multiset.sum_replicate, nsmul_eq_mul, mul_div_cancel_left₀ _ hp]

end

variable {K : Type} [Field K] [LinearOrder K] [IsStrictOrderedRing K] {d : ℕ}

/-- a net component that depends only on the index of one axis -/
theorem eval_axis {N : Nrb K d} (hv : N.Valid) {x : Fin d → K} (hx : N.InDom x) {a : Fin d} {c : ℕ}
    {g : ℤ → K} (hP : ∀ idx, (∀ b, 0 ≤ idx b ∧ idx b ≤ N.n b) → N.P idx c = g (idx a)) :
    N.eval x c = curve (N.n a) (N.degree a).toNat (N.U a) g (x a) := by
  rw [Nrb.eval_apply]
  unfold Nrb.wt
  have e : ∀ idx ∈ Fintype.piFinset (fun b => Finset.Icc 0 (N.n b)),
      (∏ b, bsplineD (N.n b) (N.U b) (N.degree b).toNat (idx b) (x b)) * N.P idx c =
      ∏ b, (bsplineD (N.n b) (N.U b) (N.degree b).toNat (idx b) (x b) *
        (if b = a then g (idx a) else 1)) := by
    intro idx h
    rw [hP idx (fun b => Finset.mem_Icc.mp (Fintype.mem_piFinset.mp h b)), Finset.prod_mul_distrib,
      Finset.prod_ite_eq' Finset.univ a (fun _ => g (idx a)), if_pos (Finset.mem_univ a)]
  rw [Finset.sum_congr rfl e]
  have e2 : ∀ idx ∈ Fintype.piFinset (fun b => Finset.Icc 0 (N.n b)),
      ∏ b, (bsplineD (N.n b) (N.U b) (N.degree b).toNat (idx b) (x b) *
        (if b = a then g (idx a) else 1)) =
      ∏ b, (fun b (i : ℤ) => bsplineD (N.n b) (N.U b) (N.degree b).toNat i (x b) *
        (if b = a then g i else 1)) b (idx b) := by
    intro idx _
    apply Finset.prod_congr rfl
    intro b _
    by_cases h : b = a
    · subst h; rfl
    · simp only [if_neg h]
  rw [Finset.sum_congr rfl e2, ← Finset.prod_univ_sum (fun b => Finset.Icc 0 (N.n b))
    (fun b (i : ℤ) => bsplineD (N.n b) (N.U b) (N.degree b).toNat i (x b) *
      (if b = a then g i else 1))]
  rw [Finset.prod_eq_single a]
  · simp only [if_true]
    rfl
  · intro b _ hb
    simp only [if_neg hb, mul_one]
    obtain ⟨p, hp, hk, e⟩ := deg_nat hv b
    obtain ⟨h1, h2⟩ := hx b
    rw [Nrb.lo_eq, hp] at h1
    rw [Nrb.hi_eq] at h2
    rw [hp, Int.toNat_natCast]
    exact bsplineD_sum_one hk h1 h2
  · intro h; exact absurd (Finset.mem_univ a) h

end Igakit
