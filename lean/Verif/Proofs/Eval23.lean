import Verif.Proofs.Eval

set_option linter.unusedSectionVars false

namespace Igakit
open Spec BSp

variable {K : Type*} [Field K] [LinearOrder K] [IsStrictOrderedRing K]
variable {E : Type*} [AddCommGroup E] [Module K E]

theorem curvePoint_eq_basis (jk : ℤ → K) (n : ℤ) (p : ℕ) (U : ℤ → K) (P : ℤ → E) (u : K) :
    curvePoint jk n p U P u = ∑ r ∈ Finset.range (p + 1),
      basisFuns jk (findSpan n p u U) u p U r • P (findSpan n p u U - p + r) := by
  unfold curvePoint
  simp only
  rw [forUp_sum (fun j => basisFuns jk (findSpan n p u U) u p U j • P (findSpan n p u U - p + j)),
    zero_add]

/-- `Evaluate2` is the composition of the two one-dimensional evaluations -/
theorem evaluate2_eq (jk : ℤ → K) (je : ℤ → ℤ → E) (nx : ℤ) (px : ℕ) (Ux : ℤ → K) (ny : ℤ) (py : ℕ)
    (Uy : ℤ → K) (Pw : ℤ → ℤ → E) (rx : ℤ) (X : ℤ → K) (ry : ℤ) (Y : ℤ → K) (ix iy : ℤ)
    (hx : 0 ≤ ix ∧ ix ≤ rx) (hy : 0 ≤ iy ∧ iy ≤ ry) :
    evaluate2 jk je nx px Ux ny py Uy Pw rx X ry Y ix iy =
      curvePoint jk nx px Ux (fun i => curvePoint jk ny py Uy (Pw i) (Y iy)) (X ix) := by
  unfold evaluate2
  simp only
  rw [forUp_fill2 (fun ix iy => forUp 0 (px : ℤ) (fun jx C => forUp 0 (py : ℤ) (fun jy C =>
    C + ((axisTables jk nx px Ux rx X).2 ix jx * (axisTables jk ny py Uy ry Y).2 iy jy) •
      Pw ((axisTables jk nx px Ux rx X).1 ix - px + jx)
        ((axisTables jk ny py Uy ry Y).1 iy - py + jy)) C) 0) rx ry je ix iy hx hy]
  obtain ⟨a1, a2⟩ := axisTables_spec jk nx px Ux rx X ix hx.1 hx.2
  obtain ⟨b1, b2⟩ := axisTables_spec jk ny py Uy ry Y iy hy.1 hy.2
  rw [a1, a2, b1, b2, curvePoint_eq_basis]
  simp only [forUp_sum (fun jy => (basisFuns jk (findSpan nx px (X ix) Ux) (X ix) px Ux _ *
    basisFuns jk (findSpan ny py (Y iy) Uy) (Y iy) py Uy jy) •
      Pw (findSpan nx px (X ix) Ux - px + _) (findSpan ny py (Y iy) Uy - py + jy))]
  rw [forUp_sum (fun jx => ∑ j ∈ Finset.range (py + 1),
    (basisFuns jk (findSpan nx px (X ix) Ux) (X ix) px Ux jx *
    basisFuns jk (findSpan ny py (Y iy) Uy) (Y iy) py Uy j) •
      Pw (findSpan nx px (X ix) Ux - px + jx) (findSpan ny py (Y iy) Uy - py + j)), zero_add]
  apply Finset.sum_congr rfl
  intro r _
  rw [curvePoint_eq_basis, Finset.smul_sum]
  simp only [mul_smul]

/-- `Evaluate3` is the composition of the three one-dimensional evaluations -/
theorem evaluate3_eq (jk : ℤ → K) (je : ℤ → ℤ → ℤ → E) (nx : ℤ) (px : ℕ) (Ux : ℤ → K) (ny : ℤ)
    (py : ℕ) (Uy : ℤ → K) (nz : ℤ) (pz : ℕ) (Uz : ℤ → K) (Pw : ℤ → ℤ → ℤ → E) (rx : ℤ) (X : ℤ → K)
    (ry : ℤ) (Y : ℤ → K) (rz : ℤ) (Z : ℤ → K) (ix iy iz : ℤ)
    (hx : 0 ≤ ix ∧ ix ≤ rx) (hy : 0 ≤ iy ∧ iy ≤ ry) (hz : 0 ≤ iz ∧ iz ≤ rz) :
    evaluate3 jk je nx px Ux ny py Uy nz pz Uz Pw rx X ry Y rz Z ix iy iz =
      curvePoint jk nx px Ux (fun i => curvePoint jk ny py Uy (fun j =>
        curvePoint jk nz pz Uz (Pw i j) (Z iz)) (Y iy)) (X ix) := by
  unfold evaluate3
  simp only
  rw [forUp_fill3 (fun ix iy iz => forUp 0 (px : ℤ) (fun jx C => forUp 0 (py : ℤ) (fun jy C =>
    forUp 0 (pz : ℤ) (fun jz C =>
    C + ((axisTables jk nx px Ux rx X).2 ix jx * (axisTables jk ny py Uy ry Y).2 iy jy *
        (axisTables jk nz pz Uz rz Z).2 iz jz) •
      Pw ((axisTables jk nx px Ux rx X).1 ix - px + jx)
        ((axisTables jk ny py Uy ry Y).1 iy - py + jy)
        ((axisTables jk nz pz Uz rz Z).1 iz - pz + jz)) C) C) 0) rx ry rz je ix iy iz hx hy hz]
  obtain ⟨a1, a2⟩ := axisTables_spec jk nx px Ux rx X ix hx.1 hx.2
  obtain ⟨b1, b2⟩ := axisTables_spec jk ny py Uy ry Y iy hy.1 hy.2
  obtain ⟨c1, c2⟩ := axisTables_spec jk nz pz Uz rz Z iz hz.1 hz.2
  rw [a1, a2, b1, b2, c1, c2, curvePoint_eq_basis]
  simp only [forUp_sum (fun jz => (basisFuns jk (findSpan nx px (X ix) Ux) (X ix) px Ux _ *
    basisFuns jk (findSpan ny py (Y iy) Uy) (Y iy) py Uy _ *
    basisFuns jk (findSpan nz pz (Z iz) Uz) (Z iz) pz Uz jz) •
      Pw (findSpan nx px (X ix) Ux - px + _) (findSpan ny py (Y iy) Uy - py + _)
        (findSpan nz pz (Z iz) Uz - pz + jz))]
  simp only [forUp_sum (fun jy => ∑ j ∈ Finset.range (pz + 1),
    (basisFuns jk (findSpan nx px (X ix) Ux) (X ix) px Ux _ *
    basisFuns jk (findSpan ny py (Y iy) Uy) (Y iy) py Uy jy *
    basisFuns jk (findSpan nz pz (Z iz) Uz) (Z iz) pz Uz j) •
      Pw (findSpan nx px (X ix) Ux - px + _) (findSpan ny py (Y iy) Uy - py + jy)
        (findSpan nz pz (Z iz) Uz - pz + j))]
  rw [forUp_sum (fun jx => ∑ k ∈ Finset.range (py + 1), ∑ j ∈ Finset.range (pz + 1),
    (basisFuns jk (findSpan nx px (X ix) Ux) (X ix) px Ux jx *
    basisFuns jk (findSpan ny py (Y iy) Uy) (Y iy) py Uy k *
    basisFuns jk (findSpan nz pz (Z iz) Uz) (Z iz) pz Uz j) •
      Pw (findSpan nx px (X ix) Ux - px + jx) (findSpan ny py (Y iy) Uy - py + k)
        (findSpan nz pz (Z iz) Uz - pz + j)), zero_add]
  apply Finset.sum_congr rfl
  intro r _
  rw [curvePoint_eq_basis, Finset.smul_sum]
  apply Finset.sum_congr rfl
  intro s _
  rw [curvePoint_eq_basis, Finset.smul_sum, Finset.smul_sum]
  simp only [mul_smul]

end Igakit
