import Verif.Spec.Assemble
import Verif.Spec.Nrb
import Mathlib.Analysis.Calculus.IteratedDeriv.Defs
import Mathlib.Algebra.MvPolynomial.Degrees
import Mathlib.Algebra.MvPolynomial.Eval
import Mathlib.LinearAlgebra.Matrix.Determinant.Basic

/-!
# Specification: quadrature and assembly over surfaces and volumes

The loops of a finite element program (such as `demo/conformal.py`) over the tensor product of the quadrature data of
the axes: multi-indices of elements, of quadrature points and of local functions; the weight of a point is the product
of the weights and of the half lengths of all axes.
-/

namespace Igakit.Spec

/-- `B` is the quadrature data that `iga.BasisData` computes for the knots `U`, degree `p`, with `D` derivatives and `Q`
points per element (given or by default), whatever the unset memory contains -/
structure IsQuad {K : Type} [Field K] [LinearOrder K] (eps : K) (n : ℤ) (p : ℕ) (U : ℤ → K) (D Q : ℕ) (B : QuadData K) :
    Prop where
  valid : ValidKnots n p U
  sep : ∀ k, (p : ℤ) ≤ k → k ≤ n → U k < U (k + 1) → eps < U (k + 1) - U k
  ders : D ≤ p
  one_le : 1 ≤ Q
  le_ten : Q ≤ 10
  data : ∃ jo jk j2 ja jd, ∃ d q : Option ℤ, d.getD p = D ∧ q.getD (p + 1) = Q ∧
    BasisData eps jo jk j2 ja jd p (n + p + 1) U d q = .ok B

section
variable {K : Type} [Field K] {d : ℕ}

/-- the quadrature of a function over the patch -/
def patchSumN (B : Fin d → QuadData K) (Q : Fin d → ℕ) (f : (Fin d → K) → K) : K :=
  ∑ e ∈ Fintype.piFinset fun a => Finset.range (B a).r.toNat, ∑ g ∈ Fintype.piFinset fun a => Finset.range (Q a),
    (∏ a, (B a).J (e a) * (B a).W (g a)) * f fun a => (B a).X (e a) (g a)

/-- entry `i, j` of the matrix of the functions `Π_a N_a` with `l1 a` (rows) and `l2 a` (columns) derivatives -/
def assembledN (B : Fin d → QuadData K) (Q p l1 l2 : Fin d → ℕ) (i j : Fin d → ℤ) : K :=
  ∑ e ∈ Fintype.piFinset fun a => Finset.range (B a).r.toNat, ∑ g ∈ Fintype.piFinset fun a => Finset.range (Q a),
    ∑ α ∈ Fintype.piFinset fun a => Finset.range (p a + 1), ∑ β ∈ Fintype.piFinset fun a => Finset.range (p a + 1),
      if (∀ a, (B a).O (e a) + α a = i a) ∧ ∀ a, (B a).O (e a) + β a = j a then
        (∏ a, (B a).J (e a) * (B a).W (g a)) *
          ((∏ a, (B a).N (e a) (g a) (α a) (l1 a)) * ∏ a, (B a).N (e a) (g a) (β a) (l2 a))
      else 0

/-- the sum over the local functions at point `g` of element `e`: a derivative of the field with control values `P` -/
def localSum (B : Fin d → QuadData K) (p l : Fin d → ℕ) (P : (Fin d → ℤ) → K) (e g : Fin d → ℕ) : K :=
  ∑ α ∈ Fintype.piFinset fun a => Finset.range (p a + 1),
    (∏ a, (B a).N (e a) (g a) (α a) (l a)) * P fun a => (B a).O (e a) + α a

/-- the volume (area, length) of the object with control points `P`: the weighted sum of the determinants of the matrices of
the derivatives of the coordinates -/
def volumeSum (B : Fin d → QuadData K) (Q p : Fin d → ℕ) (P : (Fin d → ℤ) → ℕ → K) : K :=
  ∑ e ∈ Fintype.piFinset fun a => Finset.range (B a).r.toNat, ∑ g ∈ Fintype.piFinset fun a => Finset.range (Q a),
    (∏ a, (B a).J (e a) * (B a).W (g a)) *
      (Matrix.of fun i j : Fin d => localSum B p (fun a => if a = j then 1 else 0) (fun idx => P idx i) e g).det
end

/-- the tensor product spline with `l a` derivatives in direction `a` -/
noncomputable def tensorD {d : ℕ} (n : Fin d → ℤ) (p : Fin d → ℕ) (U : Fin d → ℤ → ℝ) (l : Fin d → ℕ)
    (P : (Fin d → ℤ) → ℝ) (x : Fin d → ℝ) : ℝ :=
  ∑ idx ∈ Fintype.piFinset (fun a => Finset.Icc 0 (n a)),
    (∏ a, iteratedDeriv (l a) (bsplineD (n a) (U a) (p a) (idx a)) (x a)) * P idx

/-- in the box of the spans `k`, in coordinates from -1 to 1, the function is a polynomial of degrees at most `D` with
coefficients whose absolute values add up to at most `M` -/
def CellPoly {ι : Type} (U : ι → ℤ → ℝ) (k : ι → ℤ) (D : ι → ℕ) (M : ℝ) (f : (ι → ℝ) → ℝ) : Prop :=
  ∃ R : MvPolynomial ι ℝ, (∀ a, R.degreeOf a ≤ D a) ∧ ∑ m ∈ R.support, |R.coeff m| ≤ M ∧
    ∀ t : ι → ℝ, (∀ a, -1 < t a) → (∀ a, t a < 1) →
      f (fun a => U a (k a) + (t a + 1) * ((U a (k a + 1) - U a (k a)) / 2)) = MvPolynomial.eval t R

end Igakit.Spec

/-- the box of the domain -/
def Igakit.Nrb.box {d : ℕ} (N : Igakit.Nrb ℝ d) : Set (Fin d → ℝ) := Set.univ.pi fun a => Set.Icc (N.lo a) (N.hi a)
