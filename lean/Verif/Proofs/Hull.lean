import Verif.Proofs.NrbEval
import Mathlib.Algebra.BigOperators.Field

/-! # Nonnegativity and partition of unity for tensor products -/

set_option linter.unusedSectionVars false

namespace Igakit
open Spec

variable {K : Type} [Field K] [LinearOrder K] [IsStrictOrderedRing K] {d : ℕ}
variable {E : Type*} [AddCommGroup E] [Module K E]

theorem bsplineD_nonneg {n : ℤ} {p : ℕ} {U : ℤ → K} (hv : ValidKnots n p U) {u : K} (h1 : U p ≤ u)
    (h2 : u ≤ U (n + 1)) {i : ℤ} (hi0 : 0 ≤ i) (hin : i ≤ n) : 0 ≤ bsplineD n U p i u := by
  rw [bsplineD_eq_piece hv h1 h2 i hi0 hin]
  have hin := findSpan_inSpan hv h1 h2
  have hr := findSpan_range (U := U) u (by omega : (0 : ℤ) ≤ p) hv.le
  exact piece_nonneg hin.left hin.right p
    (fun i j a b c => hv.sorted i j (by omega) b (by omega)) p (le_refl _) _

theorem bsplineD_sum_one {n : ℤ} {p : ℕ} {U : ℤ → K} (hv : ValidKnots n p U) {u : K} (h1 : U p ≤ u)
    (h2 : u ≤ U (n + 1)) : ∑ i ∈ Finset.Icc 0 n, bsplineD n U p i u = 1 := by
  have hin := findSpan_inSpan hv h1 h2
  have hr := findSpan_range (U := U) u (by omega : (0 : ℤ) ≤ p) hv.le
  have := sum_bsplineD hv h1 h2 (fun _ => (1 : K))
  simp only [smul_eq_mul, mul_one] at this
  rw [this, piece_sum_one (win_of_valid hv hr.1 hr.2 hin.ne) u]

theorem curve_const {n : ℤ} {p : ℕ} {U : ℤ → K} (hv : ValidKnots n p U) {u : K} (h1 : U p ≤ u)
    (h2 : u ≤ U (n + 1)) (c : E) : curve n p U (fun _ => c) u = c := by
  unfold curve
  rw [← Finset.sum_smul, bsplineD_sum_one hv h1 h2, one_smul]

namespace Nrb
variable {N : Nrb K d}

/-- weight of control point `idx` in the value at `x` -/
def wt (N : Nrb K d) (x : Fin d → K) (idx : Fin d → ℤ) : K :=
  ∏ a, bsplineD (N.n a) (N.U a) (N.degree a).toNat (idx a) (x a)

theorem wt_nonneg (hv : N.Valid) {x : Fin d → K} (hx : N.InDom x) {idx : Fin d → ℤ}
    (hi : ∀ a, 0 ≤ idx a ∧ idx a ≤ N.n a) : 0 ≤ N.wt x idx := by
  apply Finset.prod_nonneg
  intro a _
  exact bsplineD_nonneg (by rw [hv.degNat]; exact hv a) (by rw [hv.degNat]; exact (hx a).1)
    (by rw [← hi_eq]; exact (hx a).2) (hi a).1 (hi a).2

theorem wt_sum (hv : N.Valid) {x : Fin d → K} (hx : N.InDom x) :
    ∑ idx ∈ Fintype.piFinset (fun a => Finset.Icc 0 (N.n a)), N.wt x idx = 1 := by
  unfold wt
  rw [← Finset.prod_univ_sum (fun a => Finset.Icc 0 (N.n a))
    (fun a i => bsplineD (N.n a) (N.U a) (N.degree a).toNat i (x a))]
  apply Finset.prod_eq_one
  intro a _
  exact bsplineD_sum_one (by rw [hv.degNat]; exact hv a) (by rw [hv.degNat]; exact (hx a).1)
    (by rw [← hi_eq]; exact (hx a).2)

theorem eval_apply (N : Nrb K d) (x : Fin d → K) (c : ℕ) :
    N.eval x c = ∑ idx ∈ Fintype.piFinset (fun a => Finset.Icc 0 (N.n a)), N.wt x idx * N.P idx c := by
  unfold eval tensor
  rw [Finset.sum_apply]
  rfl

theorem eval_pos (hv : N.Valid) {x : Fin d → K} (hx : N.InDom x) {c : ℕ}
    (hw : ∀ idx, (∀ a, 0 ≤ idx a ∧ idx a ≤ N.n a) → 0 < N.P idx c) : 0 < N.eval x c := by
  rw [eval_apply]
  have h1 := wt_sum hv hx
  have hmem : ∀ idx ∈ Fintype.piFinset (fun a => Finset.Icc 0 (N.n a)),
      ∀ a, 0 ≤ idx a ∧ idx a ≤ N.n a :=
    fun idx h a => Finset.mem_Icc.mp (Fintype.mem_piFinset.mp h a)
  have hex : ∃ idx ∈ Fintype.piFinset (fun a => Finset.Icc 0 (N.n a)), 0 < N.wt x idx := by
    by_contra hc
    push Not at hc
    have := Finset.sum_nonpos hc
    rw [h1] at this
    exact absurd this (not_le.mpr one_pos)
  obtain ⟨i0, hi0, hpos⟩ := hex
  apply Finset.sum_pos'
  · intro idx h
    exact mul_nonneg (wt_nonneg hv hx (hmem idx h)) (hw idx (hmem idx h)).le
  · exact ⟨i0, hi0, mul_pos hpos (hw i0 (hmem i0 hi0))⟩

/-- a linear inequality satisfied by all (projected) control points holds at every point -/
theorem hull2 (hv : N.Valid) {x : Fin d → K} (hx : N.InDom x)
    (hw : ∀ idx, (∀ a, 0 ≤ idx a ∧ idx a ≤ N.n a) → 0 < N.P idx 3) (S T : Finset ℕ) (α φ : ℕ → K) (β : K)
    (h : ∀ idx, (∀ a, 0 ≤ idx a ∧ idx a ≤ N.n a) → ∑ c ∈ S, α c * (N.P idx c / N.P idx 3) +
      ∑ c ∈ T, φ c * (N.P idx (4 + c) / N.P idx 3) ≤ β) :
    ∑ c ∈ S, α c * (N.eval x c / N.eval x 3) + ∑ c ∈ T, φ c * (N.eval x (4 + c) / N.eval x 3) ≤ β := by
  have hpos := eval_pos hv hx hw
  have hmem : ∀ idx ∈ Fintype.piFinset (fun a => Finset.Icc 0 (N.n a)),
      ∀ a, 0 ≤ idx a ∧ idx a ≤ N.n a :=
    fun idx h a => Finset.mem_Icc.mp (Fintype.mem_piFinset.mp h a)
  have e : ∀ (S : Finset ℕ) (α g : ℕ → K) (w : K), ∑ c ∈ S, α c * (g c / w) = (∑ c ∈ S, α c * g c) / w := by
    intro S α g w
    rw [Finset.sum_div]
    exact Finset.sum_congr rfl (fun c _ => by ring)
  have h' : ∀ idx, (∀ a, 0 ≤ idx a ∧ idx a ≤ N.n a) →
      ∑ c ∈ S, α c * N.P idx c + ∑ c ∈ T, φ c * N.P idx (4 + c) ≤ β * N.P idx 3 := by
    intro idx hi
    have := h idx hi
    rw [e S α (N.P idx), e T φ (fun c => N.P idx (4 + c)), ← add_div, div_le_iff₀ (hw idx hi)] at this
    exact this
  rw [e S α (N.eval x), e T φ (fun c => N.eval x (4 + c)), ← add_div, div_le_iff₀ hpos]
  have e2 : ∀ (S : Finset ℕ) (α : ℕ → K) (t : ℕ → ℕ), ∑ c ∈ S, α c * N.eval x (t c) =
      ∑ idx ∈ Fintype.piFinset (fun a => Finset.Icc 0 (N.n a)),
        N.wt x idx * ∑ c ∈ S, α c * N.P idx (t c) := by
    intro S α t
    simp only [eval_apply, Finset.mul_sum]
    rw [Finset.sum_comm]
    exact Finset.sum_congr rfl (fun idx _ => Finset.sum_congr rfl (fun c _ => by ring))
  rw [e2 S α (fun c => c), e2 T φ (fun c => 4 + c), eval_apply, Finset.mul_sum, ← Finset.sum_add_distrib]
  apply Finset.sum_le_sum
  intro idx hidx
  rw [← mul_add]
  calc _ ≤ N.wt x idx * (β * N.P idx 3) :=
        mul_le_mul_of_nonneg_left (h' idx (hmem idx hidx)) (wt_nonneg hv hx (hmem idx hidx))
    _ = β * (N.wt x idx * N.P idx 3) := by ring

end Nrb
end Igakit
