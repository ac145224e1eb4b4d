import Verif.Proofs.CurveForm
import Verif.Proofs.Nrb

/-! # Affine changes of parameter: increasing (remap) and decreasing (reverse) -/

set_option linter.unusedSectionVars false

namespace Igakit
open Spec

variable {K : Type*} [Field K] [LinearOrder K] [IsStrictOrderedRing K]
variable {E : Type*} [AddCommGroup E] [Module K E]

theorem coxDB_affine {U V : ℤ → K} {α β : K} (hα : α ≠ 0) (hV : ∀ j, V j = α * U j + β) (χ : ℤ → K)
    (u : K) : ∀ (q : ℕ) (i : ℤ), coxDB V χ (α * u + β) q i = coxDB U χ u q i := by
  intro q
  induction q with
  | zero => intro i; rfl
  | succ q ih =>
    intro i
    have key : ∀ x y z w : K, (α * x + β - (α * y + β)) / (α * z + β - (α * w + β)) = (x - y) / (z - w) := by
      intro x y z w
      rw [show α * x + β - (α * y + β) = α * (x - y) by ring,
        show α * z + β - (α * w + β) = α * (z - w) by ring, mul_div_mul_left _ _ hα]
    rw [coxDB, coxDB, ih, ih]
    simp only [hV, key]

theorem bsplineD_affine {U V : ℤ → K} {α β : K} (hα : 0 < α) (hV : ∀ j, V j = α * U j + β) (n : ℤ)
    (p : ℕ) (i : ℤ) (u : K) : bsplineD n V p i (α * u + β) = bsplineD n U p i u := by
  have hlt : ∀ x y : K, α * x + β < α * y + β ↔ x < y := by
    intro x y; rw [add_lt_add_iff_right, mul_lt_mul_iff_right₀ hα]
  have hle : ∀ x y : K, α * x + β ≤ α * y + β ↔ x ≤ y := by
    intro x y; rw [add_le_add_iff_right, mul_le_mul_iff_right₀ hα]
  unfold bsplineD bspline bsplineL
  simp only [hV, hlt, hle]
  rw [coxDB_affine hα.ne' hV, coxDB_affine hα.ne' hV]

/-- reversal of a curve: knots `s - U[m-j]`, control points in reverse order -/
theorem curve_reverse {n : ℤ} {p : ℕ} {U V : ℤ → K} {P Q : ℤ → E} (hs : SortedOn U 0 (n + p + 1))
    (hpn : (p : ℤ) ≤ n) (hV : ∀ j, V j = (U (n + 1) + U p) - U (n + p + 1 - j))
    (hQ : ∀ i, Q i = P (n - i)) (hlt : U p < U (n + 1))
    (hm : ∀ x, U p < x → x < U (n + 1) → mult U 0 (n + p + 1) x ≤ p) {u : K} (h1 : U p ≤ u)
    (h2 : u ≤ U (n + 1)) :
    curve n p V Q (U (n + 1) + U p - u) = curve n p U P u := by
  set s := U (n + 1) + U p with hsdef
  have hsV : SortedOn V 0 (n + p + 1) := by
    intro i j a b c
    rw [hV, hV]
    have := hs (n + p + 1 - j) (n + p + 1 - i) (by omega) (by omega) (by omega)
    linarith
  have hmV : ∀ x, mult V 0 (n + p + 1) (s - x) = mult U 0 (n + p + 1) x := by
    intro x
    unfold mult
    refine Finset.card_bij (fun i _ => n + p + 1 - i) ?_ ?_ ?_
    · intro i hi
      simp only [Finset.mem_filter, Finset.mem_Icc, hV] at hi ⊢
      exact ⟨by omega, by linarith [hi.2]⟩
    · intro i _ j _ h; omega
    · intro i hi
      simp only [Finset.mem_filter, Finset.mem_Icc] at hi
      refine ⟨n + p + 1 - i, ?_, by omega⟩
      simp only [Finset.mem_filter, Finset.mem_Icc, hV]
      refine ⟨by omega, ?_⟩
      rw [show n + p + 1 - (n + p + 1 - i) = i by ring, hi.2]
  have hVn : V (n + 1) = U (n + 1) := by
    rw [hV, show n + (p : ℤ) + 1 - (n + 1) = p by ring]; simp [hsdef]
  obtain ⟨k, hk⟩ := SpanOf.exists' (n := n) (p := p) hs hlt hpn h1 h2
  have k1 := hk.lo
  have k2 := hk.hi
  obtain ⟨f, hf, hr⟩ := exists_form P (hk.win hs)
  rw [hk.curve_form hs hf hr]
  -- the reflected form
  have hg : IsForm p (fun m => f (m.map (fun x => s - x))) := by
    intro m hmc a x y
    simp only [Multiset.map_cons]
    rw [show s - ((1 - a) * x + a * y) = (1 - a) * (s - x) + a * (s - y) by ring]
    exact hf _ (by rw [Multiset.card_map]; exact hmc) a _ _
  have hrg : Rep p V Q (n + p - k - p) (n + p - k) (fun m => f (m.map (fun x => s - x))) := by
    intro i a b
    rw [hQ, hr (n - i) (by omega) (by omega)]
    congr 1
    unfold kn
    rw [Multiset.map_map]
    refine Multiset.map_eq_map_of_bij_of_nodup _ _ (Multiset.nodup_range p) (Multiset.nodup_range p)
      (fun c _ => p - 1 - c) ?_ ?_ ?_ ?_
    · intro c hc; rw [Multiset.mem_range] at hc ⊢; omega
    · intro c hc c' hc' h; rw [Multiset.mem_range] at hc hc'; omega
    · intro c hc; rw [Multiset.mem_range] at hc
      exact ⟨p - 1 - c, by rw [Multiset.mem_range]; omega, by omega⟩
    · intro c hc
      rw [Multiset.mem_range] at hc
      simp only [Function.comp_apply, hV]
      rw [sub_sub_cancel]
      congr 1
      omega
  have e1 : V (n + p - k) = s - U (k + 1) := by rw [hV]; congr 2; ring
  have e2 : V (n + p - k + 1) = s - U k := by rw [hV]; congr 2; ring
  have hdiag : (Multiset.replicate p (s - u)).map (fun x => s - x) = Multiset.replicate p u := by
    rw [Multiset.map_replicate, sub_sub_cancel]
  rw [← hdiag]
  rcases hk.mem with ⟨a, b⟩ | ⟨a, b, c⟩
  · refine curve_form_left (k := n + p - k) (f := fun m => f (m.map (fun x => s - x))) hsV ?_ (by omega) (by omega) ?_ ?_ hg hrg
    · intro hlt'
      rw [hVn] at hlt'
      rw [hmV]
      exact hm u (by linarith) (lt_of_lt_of_le b (hs _ _ (by omega) (by omega) (by omega)))
    · rw [e1]; linarith
    · rw [e2]; linarith
  · refine SpanOf.curve_form (k := n + p - k) (f := fun m => f (m.map (fun x => s - x))) ⟨by omega, by omega, Or.inl ⟨?_, ?_⟩⟩ hsV hg hrg
    · rw [e1, ← b]
    · rw [e2]; linarith

end Igakit
