import Verif.Proofs.Coarse
import Verif.Proofs.Periodic
import Verif.Proofs.Smooth
import Mathlib.Analysis.Calculus.Deriv.Polynomial
import Mathlib.Analysis.Calculus.ContDiff.Comp
import Mathlib.Topology.Algebra.Polynomial

/-! # Smooth splines need fewer knots -/

set_option linter.unusedSectionVars false

namespace Igakit
open Spec Set Filter Topology Polynomial

/-- the derivatives of the two pieces of a smooth function agree -/
theorem pieces_agree {u : ℝ} : ∀ (m : ℕ) {φ : ℝ → ℝ} {A B : ℝ[X]} (_ : ContDiffAt ℝ m φ u)
    (_ : ∀ᶠ v in 𝓝[<] u, φ v = A.eval v) (_ : ∀ᶠ v in 𝓝[>] u, φ v = B.eval v),
    ∀ l ≤ m, (derivative^[l] A).eval u = (derivative^[l] B).eval u := by
  intro m
  have h0 : ∀ {φ : ℝ → ℝ} {A B : ℝ[X]} (_ : ContinuousAt φ u)
    (_ : ∀ᶠ v in 𝓝[<] u, φ v = A.eval v) (_ : ∀ᶠ v in 𝓝[>] u, φ v = B.eval v), A.eval u = B.eval u := by
    intro φ A B hφ hA hB
    have a1 : Tendsto φ (𝓝[<] u) (𝓝 (A.eval u)) :=
      Tendsto.congr' (by filter_upwards [hA] with v hv; exact hv.symm) (A.continuous.continuousAt.tendsto.mono_left nhdsWithin_le_nhds)
    have a2 : Tendsto φ (𝓝[>] u) (𝓝 (B.eval u)) :=
      Tendsto.congr' (by filter_upwards [hB] with v hv; exact hv.symm) (B.continuous.continuousAt.tendsto.mono_left nhdsWithin_le_nhds)
    have b1 := tendsto_nhds_unique a1 (hφ.tendsto.mono_left nhdsWithin_le_nhds)
    have b2 := tendsto_nhds_unique a2 (hφ.tendsto.mono_left nhdsWithin_le_nhds)
    rw [b1, b2]
  induction m with
  | zero =>
    intro φ A B hφ hA hB l hl
    obtain rfl : l = 0 := by omega
    exact h0 hφ.continuousAt hA hB
  | succ m ih =>
    intro φ A B hφ hA hB l hl
    rcases Nat.eq_zero_or_pos l with rfl | hl0
    · exact h0 hφ.continuousAt hA hB
    obtain ⟨l, rfl⟩ : ∃ k, l = k + 1 := ⟨l - 1, by omega⟩
    have hd : ContDiffAt ℝ m (deriv φ) u := by
      have := (hφ.fderiv_right (m := (m : WithTop ℕ∞)) (by norm_cast)).clm_apply (contDiffAt_const (c := (1 : ℝ)))
      simpa using this
    have key : ∀ {s : Set ℝ} {C : ℝ[X]}, IsOpen s → (∀ᶠ v in 𝓝[s] u, φ v = C.eval v) → ∀ᶠ v in 𝓝[s] u, deriv φ v = (derivative C).eval v := by
      intro s C hs h
      have h' := eventually_eventually_nhdsWithin.2 h
      filter_upwards [h', self_mem_nhdsWithin] with v hv hvs
      rw [hs.nhdsWithin_eq hvs] at hv
      have : φ =ᶠ[𝓝 v] fun v => C.eval v := hv
      rw [this.deriv_eq, Polynomial.deriv]
    rw [Function.iterate_succ_apply, Function.iterate_succ_apply]
    exact ih hd (key isOpen_Iio hA) (key isOpen_Ioi hB) l (by omega)

/-- the forms left and right of a knot at which a curve is smooth agree on multisets with fewer copies of the knot -/
theorem smooth_forms {n : ℤ} {p : ℕ} {U : ℤ → ℝ} {uu : ℝ} {r s : ℤ} (h : RemCtx n p U uu r s) {t : ℕ} (ht : (t : ℤ) ≤ s)
    {P : ℤ → ℝ} {f g : Multiset ℝ → ℝ}
    (hf : IsForm p f) (hfr : Rep p U P (r - s - p) (r - s) f) (hg : IsForm p g) (hgr : Rep p U P (r - p) r g)
    (hc : ContDiffAt ℝ (p - (s - t).toNat : ℕ) (curve n p U P) uu) (m : Multiset ℝ) (hm : m.card + (s - t).toNat = p) :
    f (m + Multiset.replicate (s - t).toNat uu) = g (m + Multiset.replicate (s - t).toNat uu) := by
  have h1 := h.rp
  have h2 := h.rn
  have h3 := h.s1
  have h4 := h.sp
  have hs := h.valid.sorted
  have a0 : U (r - s) < uu := h.left _ (by omega) le_rfl
  have b0 : uu < U (r + 1) := h.right _ (by omega) (by omega)
  have hA : ∀ᶠ v in 𝓝[<] uu, curve n p U P v = (diagPoly p f).eval v := by
    filter_upwards [self_mem_nhdsWithin, nhdsWithin_le_nhds (Ioi_mem_nhds a0)] with v hv hv'
    rw [diagPoly_eval hf]
    refine SpanOf.curve_form ⟨by omega, by omega, Or.inl ⟨le_of_lt hv', ?_⟩⟩ hs hf hfr
    rw [h.blk (r - s + 1) (by omega) (by omega)]
    exact hv
  have hB : ∀ᶠ v in 𝓝[>] uu, curve n p U P v = (diagPoly p g).eval v := by
    filter_upwards [self_mem_nhdsWithin, nhdsWithin_le_nhds (Iio_mem_nhds b0)] with v hv hv'
    rw [diagPoly_eval hg]
    refine SpanOf.curve_form ⟨by omega, by omega, Or.inl ⟨?_, hv'⟩⟩ hs hg hgr
    rw [h.blk r (by omega) le_rfl]
    exact le_of_lt hv
  have hd := pieces_agree _ hc hA hB
  rw [derivs_agree_iff, ← diag_shift hf uu (A := diagPoly p f) (S := univ) infinite_univ (fun u _ => (diagPoly_eval hf u).symm),
    ← diag_shift hg uu (A := diagPoly p g) (S := univ) infinite_univ (fun u _ => (diagPoly_eval hg u).symm), ← diagPoly_sub] at hd
  have key := form_flat ((hg.shift uu).sub (hf.shift uu)) (by omega) hd (m := m.map (· - uu)) (by rw [Multiset.card_map]; omega)
  have e : (m.map (· - uu) + Multiset.replicate (p - (p - (s - t).toNat)) 0).map (· + uu) =
      m + Multiset.replicate (s - t).toNat uu := by
    rw [Multiset.map_add, Multiset.map_map, Multiset.map_replicate, zero_add, show p - (p - (s - t).toNat) = (s - t).toNat by omega]
    simp
  rw [e, sub_eq_zero] at key
  exact key.symm

end Igakit
