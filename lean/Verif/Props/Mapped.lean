import Verif.Props.Derivs4
import Mathlib.Analysis.Calculus.FDeriv.Pi
import Mathlib.Analysis.Calculus.Deriv.Comp
import Mathlib.Analysis.Calculus.Deriv.Prod
import Mathlib.Analysis.Calculus.Deriv.Pi
import Mathlib.Analysis.Calculus.FDeriv.Comp
import Mathlib.LinearAlgebra.Matrix.NonsingularInverse
import Mathlib.Tactic.FieldSimp
import Mathlib.Tactic.FinCases

/-!
# Property C29: mapped gradients
-/

namespace Igakit
open Spec
set_option linter.unusedSectionVars false

section inv
variable {K : Type} [Field K] {d : ℕ}

/-- C29: `Determinant` is the determinant. -/
theorem C29_determinant (hd : d = 1 ∨ d = 2 ∨ d = 3) (A : Fin d → Fin d → K) :
    determinant d A = (Matrix.of A).det := by
  rcases hd with rfl | rfl | rfl
  · simp [determinant]
  · simp [determinant, Matrix.det_fin_two]; ring
  · simp [determinant, Matrix.det_fin_three]; ring

/-- C29: `Inverse` is the inverse matrix. -/
theorem C29_inverse (hd : d = 1 ∨ d = 2 ∨ d = 3) (A : Fin d → Fin d → K) (h : determinant d A ≠ 0) :
    (∀ i k, ∑ j, inverse d A i j * A j k = if i = k then 1 else 0) ∧
    (∀ i k, ∑ j, A i j * inverse d A j k = if i = k then 1 else 0) := by
  rcases hd with rfl | rfl | rfl
  · simp only [determinant] at h
    constructor <;> intro i k <;> fin_cases i <;> fin_cases k <;> simp [inverse, determinant, h]
  · generalize hD : determinant 2 A = D at h
    have e : ∀ i j, inverse 2 A i j =
        (![![A 1 1, -A 0 1], ![-A 1 0, A 0 0]] : Fin 2 → Fin 2 → K) i j / D := fun i j => by rw [← hD]; rfl
    simp only [determinant] at hD
    constructor <;> intro i k <;> fin_cases i <;> fin_cases k <;>
      simp [e, Fin.sum_univ_two] <;> field_simp <;> first | ring1 | linear_combination hD
  · generalize hD : determinant 3 A = D at h
    have e : ∀ i j, inverse 3 A i j = adjugate3 A i j / D := fun i j => by rw [← hD]; rfl
    simp only [determinant] at hD
    constructor <;> intro i k <;> fin_cases i <;> fin_cases k <;>
      simp [e, adjugate3, Fin.sum_univ_three] <;> field_simp <;> first | ring1 | linear_combination hD

end inv

variable {d : ℕ} {N : Nrb ℝ d} {x : Fin d → ℝ}

/-- the Jacobian matrix: derivative of coordinate `i` in direction `k` -/
noncomputable def Spec.jac (N : Nrb ℝ d) (S : Fin d → Set ℝ) (x : Fin d → ℝ) (i k : Fin d) : ℝ :=
  pd S [k] (fun y => N.proj y i) x

theorem mappedAt_eq (J : Junk ℝ) (hv : N.Valid) (hx : N.InDom x) (hd : d = 1 ∨ d = 2 ∨ d = 3)
    (hw : ∀ idx, (∀ a, 0 ≤ idx a ∧ idx a ≤ N.n a) → 0 < N.P idx 3)
    {S : Fin d → Set ℝ} (hS : N.Cell x S) (F : (Fin d → ℤ) → ℕ → ℝ) (i : Fin d) (c : ℕ) :
    N.mappedAt J F x i c = ∑ j, inverse d (jac N S x) j i * pd S [j] (N.ratField F c) x := by
  have hden := C27_denom_pos hv hx hw hS
  unfold Nrb.mappedAt geometryMap
  dsimp only
  have e : (fun i j : Fin d => ∑ a ∈ N.locs, N.P (N.ctl x a) i / N.P (N.ctl x a) 3 *
      rationalize N.locs (fun loc => N.P (N.ctl x loc) 3) (N.tensorN J 1 x) [j] a) = jac N S x := by
    funext i j
    unfold jac
    have h := derivAt_eq J hv hx hd hS hden (m := 1) (by omega) (fun idx c => N.P idx c / N.P idx 3) i [j] (by simp)
    have hp : N.ratField (fun idx c => N.P idx c / N.P idx 3) i = fun y => N.proj y i := by
      funext y
      have := ratField_proj (N := N) (fun idx h => (hw idx h).ne') 0 i y
      simpa using this
    rw [hp] at h
    rw [← h]
    unfold Nrb.derivAt interpolate
    exact Finset.sum_congr rfl fun a _ => mul_comm _ _
  rw [e]
  exact Finset.sum_congr rfl fun j _ => by
    rw [derivAt_eq J hv hx hd hS hden (m := 1) (by omega) F c [j] (by simp)]

/-- C29: the mapped gradient is the one vector `v` with `Σᵢ vᵢ ∂xᵢ/∂ξₖ = ∂f/∂ξₖ` for all `k`. -/
theorem C29_mapped_chain (J : Junk ℝ) (hv : N.Valid) (hx : N.InDom x) (hd : d = 1 ∨ d = 2 ∨ d = 3)
    (hw : ∀ idx, (∀ a, 0 ≤ idx a ∧ idx a ≤ N.n a) → 0 < N.P idx 3)
    {S : Fin d → Set ℝ} (hS : N.Cell x S) (hJ : (Matrix.of (jac N S x)).det ≠ 0)
    (F : (Fin d → ℤ) → ℕ → ℝ) (c : ℕ) (v : Fin d → ℝ) :
    (∀ k, ∑ i, v i * jac N S x i k = pd S [k] (N.ratField F c) x) ↔
      v = fun i => N.mappedAt J F x i c := by
  rw [← C29_determinant hd] at hJ
  obtain ⟨h1, h2⟩ := C29_inverse hd _ hJ
  constructor
  · intro h
    funext i
    rw [mappedAt_eq J hv hx hd hw hS]
    simp only [← h, Finset.mul_sum]
    rw [Finset.sum_comm]
    rw [Finset.sum_congr rfl (g := fun i' => v i' * if i' = i then 1 else 0)]
    · simp
    · intro i' _
      rw [← h2 i' i, Finset.mul_sum]
      exact Finset.sum_congr rfl fun j _ => by ring
  · rintro rfl k
    simp only [mappedAt_eq J hv hx hd hw hS, Finset.sum_mul]
    rw [Finset.sum_comm]
    rw [Finset.sum_congr rfl (g := fun j => pd S [j] (N.ratField F c) x * if j = k then 1 else 0)]
    · simp
    · intro j _
      rw [← h1 j k, Finset.mul_sum]
      exact Finset.sum_congr rfl fun i _ => by ring

/-- C29: if the field is a function `φ` of the physical coordinates, the mapped gradient is the gradient
of `φ`. -/
theorem C29_physical (J : Junk ℝ) (hv : N.Valid) (hx : N.InDom x) (hd : d = 1 ∨ d = 2 ∨ d = 3)
    (hw : ∀ idx, (∀ a, 0 ≤ idx a ∧ idx a ≤ N.n a) → 0 < N.P idx 3)
    {S : Fin d → Set ℝ} (hS : N.Cell x S) (hJ : (Matrix.of (jac N S x)).det ≠ 0)
    (F : (Fin d → ℤ) → ℕ → ℝ) (c : ℕ) {φ : (Fin d → ℝ) → ℝ}
    (hφ : DifferentiableAt ℝ φ (fun i : Fin d => N.proj x i))
    (hf : ∀ y, (∀ a, y a ∈ S a) → N.ratField F c y = φ (fun i : Fin d => N.proj y i)) (i : Fin d) :
    N.mappedAt J F x i c = fderiv ℝ φ (fun i : Fin d => N.proj x i) (Pi.single i 1) := by
  have hden := C27_denom_pos hv hx hw hS
  have hu := cell_unique hS
  have hm := cell_mem hS
  have hp : ∀ i : Fin d, N.ratField (fun idx c => N.P idx c / N.P idx 3) i = fun y => N.proj y i := by
    intro i
    funext y
    have := ratField_proj (N := N) (fun idx h => (hw idx h).ne') 0 i y
    simpa using this
  refine (congrFun ((C29_mapped_chain J hv hx hd hw hS hJ F c
    (fun i => fderiv ℝ φ (fun i : Fin d => N.proj x i) (Pi.single i 1))).mp ?_) i).symm
  intro k
  have hupd : ∀ t ∈ S k, ∀ a, Function.update x k t a ∈ S a := by
    intro t ht a
    by_cases e : a = k
    · subst e; simpa using ht
    · rw [Function.update_of_ne e]; exact hm a
  -- the coordinates along axis `k`
  have hd1 : HasDerivWithinAt (fun t => fun i : Fin d => N.proj (Function.update x k t) i)
      (fun i => jac N S x i k) (S k) (x k) := by
    rw [hasDerivWithinAt_pi]
    intro i
    have hq : ∀ y, (∀ a, y a ∈ S a) → N.proj y i = q0 (N.famA x (fun idx => N.P idx i / N.P idx 3)) (N.famW x) y :=
      fun y hy => by
        rw [← ratField_eq hv hx (cell_span hv hx hS hy) (fun idx c => N.P idx c / N.P idx 3) i, hp]
    have h0 : N.famW x [] x ≠ 0 := by
      rw [← denom_eq hv hx (cell_span hv hx hS hm)]; exact hden x hm
    have hder := q0_deriv (famA_dfam (N := N) (x := x) (fun idx => N.P idx i / N.P idx 3)) (famW_dfam (N := N) (x := x)) h0 k
    have hw1 := (hder.hasDerivWithinAt (s := S k)).congr (f₁ := fun t => N.proj (Function.update x k t) i)
      (fun t ht => hq _ (hupd t ht)) (hq _ (hupd _ (hm k)))
    have : jac N S x i k = derivWithin (fun t => N.proj (Function.update x k t) i) (S k) (x k) := rfl
    rw [this]
    exact hw1.differentiableWithinAt.hasDerivWithinAt
  have e0 : (fun i : Fin d => N.proj (Function.update x k (x k)) i) = fun i : Fin d => N.proj x i := by
    rw [Function.update_eq_self]
  have hc := HasFDerivAt.comp_hasDerivWithinAt (x k) (by rw [e0]; exact hφ.hasFDerivAt) hd1
  rw [pd_congr hf [k] x hm]
  have hpd : pd S [k] (fun y => φ (fun i : Fin d => N.proj y i)) x =
      derivWithin (φ ∘ fun t => fun i : Fin d => N.proj (Function.update x k t) i) (S k) (x k) := rfl
  rw [hpd, hc.derivWithin (hu k _ (hm k))]
  conv_rhs => rw [show (fun i : Fin d => jac N S x i k) = ∑ i, jac N S x i k • Pi.single i (1 : ℝ) from by
    funext j; simp [Finset.sum_apply, Pi.single_apply]]
  rw [map_sum]
  exact Finset.sum_congr rfl fun i _ => by rw [map_smul, smul_eq_mul, mul_comm]

/-- C29: `gradient(mapped=True)` returns the mapped gradient at every grid point; of the geometry itself
it is the identity. -/
theorem C29_gradient (J : Junk ℝ) (hv : N.Valid) (hd : d = 1 ∨ d = 2 ∨ d = 3)
    (hw : ∀ idx, (∀ a, 0 ≤ idx a ∧ idx a ≤ N.n a) → 0 < N.P idx 3)
    {fields : Option (Nd ℝ)} {nf : ℤ} {F : (Fin d → ℤ) → ℕ → ℝ} (hf : N.fieldArg fields = .ok (nf, F))
    (hnf : 1 ≤ nf) {r : Fin d → ℤ} {X : Fin d → ℤ → ℝ} (hr : ∀ a, 0 ≤ r a)
    (hx : ∀ a i, 0 ≤ i → i ≤ r a → N.lo a ≤ X a i ∧ X a i ≤ N.hi a) :
    ∃ G, N.gradient J fields true r X = .ok G ∧
      ∀ g : Fin d → ℤ, (∀ a, 0 ≤ g a ∧ g a ≤ r a) → ∀ S, N.Cell (fun a => X a (g a)) S →
        (Matrix.of (jac N S (fun a => X a (g a)))).det ≠ 0 → ∀ c,
        (∀ k, ∑ i, G g [i] c * jac N S (fun a => X a (g a)) i k =
          pd S [k] (N.ratField F c) (fun a => X a (g a))) ∧
        (∀ φ : (Fin d → ℝ) → ℝ, DifferentiableAt ℝ φ (fun i : Fin d => N.proj (fun a => X a (g a)) i) →
          (∀ y, (∀ a, y a ∈ S a) → N.ratField F c y = φ (fun i : Fin d => N.proj y i)) → ∀ i,
          G g [i] c = fderiv ℝ φ (fun i : Fin d => N.proj (fun a => X a (g a)) i) (Pi.single i 1)) ∧
        (∀ j : Fin d, (∀ y, (∀ a, y a ∈ S a) → N.ratField F c y = N.proj y j) → ∀ i,
          G g [i] c = if i = j then 1 else 0) := by
  refine ⟨fun g dirs c => match dirs with
      | [i] => N.mappedAt J F (fun a => X a (g a)) i c
      | _ => 0, ?_, ?_⟩
  · unfold Nrb.gradient Nrb.derivCore
    rw [callArg_ok hr hx, res_ok_bind, hf, res_ok_bind]
    dsimp only
    rw [if_neg (by omega), if_neg]
    · simp
      funext g dirs c
      rcases dirs with _ | ⟨i, _ | _⟩ <;> rfl
    · have : ∀ a, 1 ≤ N.n a ∧ 1 ≤ N.degree a := fun a => by
        have h1 := (hv a).one_le
        have h2 := (hv a).le
        omega
      simp [this, hnf]
  · intro g hg S hS hJ c
    have hin : N.InDom (fun a => X a (g a)) := fun a => hx a (g a) (hg a).1 (hg a).2
    refine ⟨?_, ?_, ?_⟩
    · exact (C29_mapped_chain J hv hin hd hw hS hJ F c _).mpr rfl
    · intro φ hφ hff i
      exact C29_physical J hv hin hd hw hS hJ F c hφ hff i
    · intro j hj i
      have := C29_physical J hv hin hd hw hS hJ F c (φ := fun z => z j)
        (differentiableAt_apply j _) hj i
      dsimp only
      have hj : HasFDerivAt (fun z : Fin d → ℝ => z j) (ContinuousLinearMap.proj (R := ℝ) (φ := fun _ : Fin d => ℝ) j)
          (fun i : Fin d => N.proj (fun a => X a (g a)) i) :=
        (ContinuousLinearMap.proj (R := ℝ) (φ := fun _ : Fin d => ℝ) j).hasFDerivAt
      rw [this, hj.fderiv]
      simp [Pi.single_apply, eq_comm]

/-- C29: with `mapped=True` second and higher derivatives are not supported: the Fortran code executes
`stop`. -/
theorem C29_mapped_hessian_stops (J : Junk ℝ) (hv : N.Valid) (hd : d = 1 ∨ d = 2 ∨ d = 3)
    {fields : Option (Nd ℝ)} {nf : ℤ} {F : (Fin d → ℤ) → ℕ → ℝ} (hf : N.fieldArg fields = .ok (nf, F))
    (hnf : 1 ≤ nf) {r : Fin d → ℤ} {X : Fin d → ℤ → ℝ} (hr : ∀ a, 0 ≤ r a)
    (hx : ∀ a i, 0 ≤ i → i ≤ r a → N.lo a ≤ X a i ∧ X a i ≤ N.hi a) :
    N.hessian J fields true r X = .error .stop := by
  unfold Nrb.hessian Nrb.derivCore
  rw [callArg_ok hr hx, res_ok_bind, hf, res_ok_bind]
  dsimp only
  rw [if_neg (by omega), if_neg]
  · simp
  · have : ∀ a, 1 ≤ N.n a ∧ 1 ≤ N.degree a := fun a => by
      have h1 := (hv a).one_le
      have h2 := (hv a).le
      omega
    simp [this, hnf]

/-! ## a concrete case -/

namespace Ex

/-- the unit square -/
noncomputable def sq : Nrb ℝ 2 where
  shape := fun _ => 2
  nc := 4
  len := fun _ => 4
  U := fun _ => bezU 1
  P := fun idx c => if c = 3 then 1 else if c = 0 then idx 0 else if c = 1 then idx 1 else 0

theorem sq_valid : sq.Valid := fun a => by
  show ValidKnots (2 - 1) (4 - 2 - 1) (bezU 1 : ℤ → ℝ)
  norm_num
  exact bezU_valid (by norm_num)

theorem sq_cell : sq.Cell (fun _ => 1 / 2) (fun _ => Set.Ioo 0 1) := by
  intro a
  refine ⟨1, by show (4 - 2 - 1 : ℤ) ≤ 1; norm_num, by show (1 : ℤ) ≤ 2 - 1; norm_num,
    by constructor <;> norm_num, Or.inl ?_⟩
  simp [Ex.sq, Ex.bezU]

theorem sq_dom : sq.InDom (fun _ => 1 / 2) := by
  intro a
  unfold Nrb.lo Nrb.hi
  simp [Ex.sq, Ex.bezU, Nrb.degree, Nrb.n]
  norm_num

theorem sq_proj (y : Fin 2 → ℝ) (hy : ∀ a, y a ∈ Set.Ioo (0 : ℝ) 1) (i : Fin 2) : sq.proj y i = y i := by
  have hs : ∀ a, SpanOf 1 1 (Ex.bezU 1) 1 (y a) := fun a => Ex.bez_span (p := 1) (hy a).1 (hy a).2
  have hso : SortedOn (Ex.bezU 1 : ℤ → ℝ) 0 (1 + (1 : ℕ) + 1) := (Ex.bezU_valid (p := 1) (by norm_num)).sorted
  have key : ∀ c, sq.eval y c = ∑ i ∈ Finset.Icc (0 : ℤ) 1, ∑ j ∈ Finset.Icc (0 : ℤ) 1,
      (bsplineD 1 (bezU 1) 1 i (y 0) * bsplineD 1 (bezU 1) 1 j (y 1)) * sq.P ![i, j] c := by
    intro c
    have := tensor_two sq.n (fun a => (sq.degree a).toNat) sq.U (fun idx => sq.P idx c) y
    rw [Nrb.eval_apply]
    refine this.trans ?_
    rfl
  have i01 : Finset.Icc (0 : ℤ) 1 = {0, 1} := by decide
  unfold Nrb.proj
  rw [key, key, i01]
  simp only [Finset.sum_pair (show (0 : ℤ) ≠ 1 by decide)]
  rw [(hs 0).basis hso le_rfl (by norm_num), (hs 0).basis hso (by norm_num) le_rfl,
    (hs 1).basis hso le_rfl (by norm_num), (hs 1).basis hso (by norm_num) le_rfl]
  have e : (1 - y 0) * (1 - y 1) + (1 - y 0) * y 1 + (y 0 * (1 - y 1) + y 0 * y 1) = 1 := by ring
  fin_cases i <;> simp [sq, piece, coxDB, bezU] <;> rw [e, div_one] <;> ring

theorem sq_jac : jac sq (fun _ => Set.Ioo 0 1) (fun _ => 1 / 2) = fun i k => if i = k then 1 else 0 := by
  funext i k
  unfold jac
  refine pd_step (l := []) (g := fun y => y i) (g' := fun _ => if i = k then 1 else 0) (cell_unique sq_cell)
    (fun y hy => sq_proj y hy i) (cell_mem sq_cell) ?_
  by_cases h : i = k
  · subst h
    simp only [Function.update_self, if_true]
    exact hasDerivAt_id _
  · simp only [Function.update_of_ne h, if_neg h]
    exact hasDerivAt_const _ _

theorem sq_det : (Matrix.of (jac sq (fun _ => Set.Ioo 0 1) (fun _ => 1 / 2))).det ≠ 0 := by
  rw [sq_jac, Matrix.det_fin_two]
  simp

end Ex

example (J : Junk ℝ) (F : (Fin 2 → ℤ) → ℕ → ℝ) (c : ℕ) := C29_mapped_chain J Ex.sq_valid Ex.sq_dom (by omega)
  (fun idx _ => by simp [Ex.sq]) Ex.sq_cell Ex.sq_det F c
example (J : Junk ℝ) := C27_derivatives J Ex.sq_valid (by omega) (order := 2) (by omega) (by omega)
  (fields := none) (nf := 3) rfl (by norm_num) (r := fun _ => 0) (X := fun a _ => 1 / 2) (fun _ => le_rfl)
  (fun a _ _ _ => Ex.sq_dom a)

end Igakit
