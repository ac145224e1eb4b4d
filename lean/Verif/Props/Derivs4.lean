import Verif.Props.Derivs

/-!
# Property C28: concrete objects with wrong fourth derivatives, and the objects of the examples
-/

namespace Igakit
open Spec
set_option linter.unusedSectionVars false

namespace Ex

/-- knots of a single Bézier span of degree `p` on [0,1] -/
def bezU {K : Type} [Zero K] [One K] (p : ℤ) : ℤ → K := fun i => if i ≤ p then 0 else 1

theorem bezU_valid {K : Type} [Field K] [LinearOrder K] [IsStrictOrderedRing K] {p : ℤ} (hp : 1 ≤ p) :
    ValidKnots p p (bezU p : ℤ → K) := by
  refine ⟨hp, le_rfl, ?_, ?_, ?_⟩
  · intro i j h1 h2 h3
    unfold bezU
    split_ifs
    · exact le_rfl
    · exact zero_le_one
    · omega
    · exact le_rfl
  · unfold bezU
    rw [if_pos le_rfl, if_neg (by omega)]; exact zero_lt_one
  · unfold bezU
    rw [if_pos le_rfl, if_neg (by omega)]; exact zero_lt_one

/-- the curve `t ↦ (t³, 0, 0)` -/
noncomputable def cube : Nrb ℝ 1 where
  shape := fun _ => 4
  nc := 4
  len := fun _ => 8
  U := fun _ => bezU 3
  P := fun idx c => if c = 3 then 1 else if c = 0 ∧ idx 0 = 3 then 1 else 0

theorem cube_valid : cube.Valid := fun a => by
  show ValidKnots (4 - 1) (8 - 4 - 1) (bezU 3 : ℤ → ℝ)
  norm_num
  exact bezU_valid (by norm_num)

/-- bilinear surface with denominator `1 + s` -/
noncomputable def hyp : Nrb ℝ 2 where
  shape := fun _ => 2
  nc := 4
  len := fun _ => 4
  U := fun _ => bezU 1
  P := fun idx c => if c = 3 then 1 + idx 0 else 1

theorem hyp_valid : hyp.Valid := fun a => by
  show ValidKnots (2 - 1) (4 - 2 - 1) (bezU 1 : ℤ → ℝ)
  norm_num
  exact bezU_valid (by norm_num)

/-- on the open span -/
theorem bez_span {p : ℕ} {t : ℝ} (h0 : 0 < t) (h1 : t < 1) :
    SpanOf (p : ℤ) p (bezU p : ℤ → ℝ) p t := by
  refine ⟨le_rfl, le_rfl, Or.inl ?_⟩
  unfold bezU
  rw [if_pos le_rfl, if_neg (by omega)]
  exact ⟨h0.le, h1⟩

end Ex

theorem derivative4_ok {d : ℕ} {N : Nrb ℝ d} {x : Fin d → ℝ} (J : Junk ℝ) (hv : N.Valid) (hx : N.InDom x)
    (hd : d = 1 ∨ d = 2 ∨ d = 3) {nf : ℤ} {F : (Fin d → ℤ) → ℕ → ℝ}
    (hf : N.fieldArg none = .ok (nf, F)) (hnf : 1 ≤ nf) :
    N.derivative J 4 none false (fun _ => 0) (fun a _ => x a) = .ok (fun _ dirs c => N.derivAt J 4 F x dirs c) := by
  unfold Nrb.derivative
  have hr : ∀ a : Fin d, (0 : ℤ) ≤ (fun _ => 0) a := fun _ => le_rfl
  rw [callArg_ok hr (fun a i _ _ => hx a), res_ok_bind, hf, res_ok_bind, pyAssert_ok (by omega), res_ok_bind]
  exact derivCore_ok J hv hd hf hnf hr (fun a i _ _ => hx a)

theorem pow3_pd {f : (Fin 1 → ℝ) → ℝ} {S : Fin 1 → Set ℝ} (hS : ∀ a, UniqueDiffOn ℝ (S a))
    (hf : ∀ y, (∀ a, y a ∈ S a) → f y = y 0 ^ 3) :
    (∀ y, (∀ a, y a ∈ S a) → pd S [0, 0, 0] f y = 6) ∧
    ∀ y, (∀ a, y a ∈ S a) → pd S [0, 0, 0, 0] f y = 0 := by
  have s1 : ∀ y, (∀ a, y a ∈ S a) → pd S [0] f y = 3 * y 0 ^ 2 := fun y hy => by
    refine pd_step (l := []) (g := fun y => y 0 ^ 3) (g' := fun y => 3 * y 0 ^ 2) hS hf hy ?_
    simp only [Function.update_self]
    exact (hasDerivAt_pow 3 (y 0)).congr_deriv (by norm_num)
  have s2 : ∀ y, (∀ a, y a ∈ S a) → pd S [0, 0] f y = 6 * y 0 := fun y hy => by
    refine pd_step (g' := fun y => 6 * y 0) hS s1 hy ?_
    simp only [Function.update_self]
    exact ((hasDerivAt_pow 2 (y 0)).const_mul 3).congr_deriv (by norm_num; ring)
  have s3 : ∀ y, (∀ a, y a ∈ S a) → pd S [0, 0, 0] f y = 6 := fun y hy => by
    refine pd_step (g' := fun y => 6) hS s2 hy ?_
    simp only [Function.update_self]
    exact ((hasDerivAt_id (y 0)).const_mul 6).congr_deriv (by norm_num)
  refine ⟨s3, fun y hy => ?_⟩
  refine pd_step (g' := fun y => 0) hS s3 hy ?_
  exact hasDerivAt_const _ _

/-- C28: for the curve `t ↦ (t³,0,0)` the method returns 6, the fourth derivative is 0. -/
theorem C28_curve_wrong (J : Junk ℝ) : ∃ (N : Nrb ℝ 1) (x : Fin 1 → ℝ) (S : Fin 1 → Set ℝ)
    (F : (Fin 1 → ℤ) → ℕ → ℝ), N.Valid ∧ N.InDom x ∧ N.Cell x S ∧ N.fieldArg none = .ok (3, F) ∧
    pd S [0, 0, 0, 0] (N.ratField F 0) x = 0 ∧
    ∃ G, N.derivative J 4 none false (fun _ => 0) (fun a _ => x a) = .ok G ∧
      G (fun _ => 0) [0, 0, 0, 0] 0 = 6 := by
  have hcell : Ex.cube.Cell (fun _ => 1 / 2) (fun _ => Set.Ioo 0 1) := by
    intro a
    refine ⟨3, by show (8 - 4 - 1 : ℤ) ≤ 3; norm_num, by show (3 : ℤ) ≤ 4 - 1; norm_num,
      by constructor <;> norm_num, Or.inl ?_⟩
    simp [Ex.cube, Ex.bezU]
  have hdom : Ex.cube.InDom (fun _ => 1 / 2) := by
    intro a
    unfold Nrb.lo Nrb.hi
    simp [Ex.cube, Ex.bezU, Nrb.degree, Nrb.n]
    norm_num
  have hf : ∀ y : Fin 1 → ℝ, (∀ a, y a ∈ Set.Ioo (0 : ℝ) 1) →
      Ex.cube.ratField (fun idx c => Ex.cube.P idx c / Ex.cube.P idx 3) 0 y = y 0 ^ 3 := by
    intro y hy
    have hw := ratField_proj (N := Ex.cube) (by intro idx _; simp [Ex.cube]) 0 0 y
    simp only [zero_add] at hw
    have hs : SpanOf 3 3 (Ex.bezU 3) 3 (y 0) := Ex.bez_span (p := 3) (hy 0).1 (hy 0).2
    have hso : SortedOn (Ex.bezU 3 : ℤ → ℝ) 0 (3 + (3 : ℕ) + 1) := (Ex.bezU_valid (p := 3) (by norm_num)).sorted
    have hone : tensor Ex.cube.n (fun a => (Ex.cube.degree a).toNat) Ex.cube.U Ex.cube.P y =
        curve 3 3 (Ex.bezU 3) (fun i => Ex.cube.P (fun _ => i)) (y 0) := tensor_one _ _ _ _ _
    rw [hw]
    unfold Nrb.proj Nrb.eval
    rw [hone, curve_apply, curve_apply, hs.curve_sum hso, hs.curve_sum hso]
    simp [Finset.sum_range_succ, Ex.cube, piece, coxDB, Ex.bezU]
    ring_nf
  refine ⟨Ex.cube, fun _ => 1 / 2, fun _ => Set.Ioo 0 1, fun idx c => Ex.cube.P idx c / Ex.cube.P idx 3,
    Ex.cube_valid, hdom, hcell, rfl, ?_, ?_⟩
  · have hu := cell_unique hcell
    have hm := cell_mem hcell
    have key := pow3_pd hu hf
    exact key.2 _ hm
  · refine ⟨_, derivative4_ok J Ex.cube_valid hdom (by omega) rfl (by norm_num), ?_⟩
    rw [C28_curve_returns_third J Ex.cube_valid hdom hcell zero_lt_one (fun _ _ => by simp [Ex.cube])]
    exact (pow3_pd (cell_unique hcell) hf).1 _ (cell_mem hcell)

/-- the missing term for `1 / (1 + s)` -/
theorem C28_fourth_wrong (J : Junk ℝ) : ∃ (N : Nrb ℝ 2) (x : Fin 2 → ℝ) (S : Fin 2 → Set ℝ)
    (F : (Fin 2 → ℤ) → ℕ → ℝ), N.Valid ∧ N.InDom x ∧ N.Cell x S ∧ N.fieldArg none = .ok (3, F) ∧
    (∀ idx, (∀ a, 0 ≤ idx a ∧ idx a ≤ N.n a) → 0 < N.P idx 3) ∧
    ∃ G, N.derivative J 4 none false (fun _ => 0) (fun a _ => x a) = .ok G ∧
      G (fun _ => 0) [0, 0, 0, 0] 0 ≠ pd S [0, 0, 0, 0] (N.ratField F 0) x := by
  have hcell : Ex.hyp.Cell (fun _ => 1 / 2) (fun _ => Set.Ioo 0 1) := by
    intro a
    refine ⟨1, by show (4 - 2 - 1 : ℤ) ≤ 1; norm_num, by show (1 : ℤ) ≤ 2 - 1; norm_num,
      by constructor <;> norm_num, Or.inl ?_⟩
    simp [Ex.hyp, Ex.bezU]
  have hdom : Ex.hyp.InDom (fun _ => 1 / 2) := by
    intro a
    unfold Nrb.lo Nrb.hi
    simp [Ex.hyp, Ex.bezU, Nrb.degree, Nrb.n]
    norm_num
  have hw : ∀ idx, (∀ a, 0 ≤ idx a ∧ idx a ≤ Ex.hyp.n a) → 0 < Ex.hyp.P idx 3 := by
    intro idx h
    have h0 : (0 : ℝ) ≤ idx 0 := by exact_mod_cast (h 0).1
    have : Ex.hyp.P idx 3 = 1 + idx 0 := by simp [Ex.hyp]
    rw [this]
    linarith
  have hden : ∀ y : Fin 2 → ℝ, (∀ a, y a ∈ Set.Ioo (0 : ℝ) 1) → Ex.hyp.denom y = 1 + y 0 := by
    intro y hy
    have hs : ∀ a, SpanOf 1 1 (Ex.bezU 1) 1 (y a) := fun a => Ex.bez_span (p := 1) (hy a).1 (hy a).2
    have hso : SortedOn (Ex.bezU 1 : ℤ → ℝ) 0 (1 + (1 : ℕ) + 1) := (Ex.bezU_valid (p := 1) (by norm_num)).sorted
    unfold Nrb.denom
    rw [Nrb.eval_apply]
    have e : ∀ idx : Fin 2 → ℤ, Ex.hyp.wt y idx = ∏ a, bsplineD 1 (Ex.bezU 1) 1 (idx a) (y a) := fun _ => rfl
    have e2 : Fintype.piFinset (fun a => Finset.Icc 0 (Ex.hyp.n a)) =
      Fintype.piFinset (fun _ : Fin 2 => Finset.Icc (0 : ℤ) 1) := rfl
    have t2 := tensor_two (fun _ => 1) (fun _ => 1) (fun _ => (Ex.bezU 1 : ℤ → ℝ))
      (fun idx : Fin 2 → ℤ => Ex.hyp.P idx 3) y
    unfold tensor at t2
    simp only [e, e2]
    simp only [smul_eq_mul] at t2
    rw [t2]
    have i01 : Finset.Icc (0 : ℤ) 1 = {0, 1} := by decide
    rw [i01]
    simp only [Finset.sum_pair (show (0 : ℤ) ≠ 1 by decide)]
    rw [(hs 0).basis hso le_rfl (by norm_num), (hs 0).basis hso (by norm_num) le_rfl,
      (hs 1).basis hso le_rfl (by norm_num), (hs 1).basis hso (by norm_num) le_rfl]
    simp [Ex.hyp, piece, coxDB, Ex.bezU]
    ring_nf
  have hf : ∀ y : Fin 2 → ℝ, (∀ a, y a ∈ Set.Ioo (0 : ℝ) 1) →
      Ex.hyp.ratField (fun idx c => Ex.hyp.P idx c / Ex.hyp.P idx 3) 0 y = 1 / (1 + y 0) := by
    intro y hy
    have hp := ratField_proj (N := Ex.hyp) (fun idx h => (hw idx h).ne') 0 0 y
    simp only [zero_add] at hp
    rw [hp]
    unfold Nrb.proj
    have h3 : Ex.hyp.eval y 3 = 1 + y 0 := hden y hy
    rw [h3]
    congr 1
    rw [Nrb.eval_apply, Finset.sum_congr rfl (g := fun idx => Ex.hyp.wt y idx),
      Nrb.wt_sum Ex.hyp_valid (cell_inDom Ex.hyp_valid hdom hcell hy)]
    intro idx _
    simp [Ex.hyp]
  refine ⟨Ex.hyp, fun _ => 1 / 2, fun _ => Set.Ioo 0 1, fun idx c => Ex.hyp.P idx c / Ex.hyp.P idx 3,
    Ex.hyp_valid, hdom, hcell, rfl, hw, _,
    derivative4_ok (F := fun idx c => Ex.hyp.P idx c / Ex.hyp.P idx 3) J Ex.hyp_valid hdom (by omega) rfl
      (by norm_num), ?_⟩
  rw [Ne, C28_fourth_iff J Ex.hyp_valid hdom (Or.inl rfl) hcell
    (C27_denom_pos Ex.hyp_valid hdom hw hcell), not_or]
  have hu := cell_unique hcell
  have hm := cell_mem hcell
  have pos : ∀ y : Fin 2 → ℝ, (∀ a, y a ∈ Set.Ioo (0 : ℝ) 1) → 1 + y 0 ≠ 0 := fun y hy => by
    have := (hy 0).1; linarith
  constructor
  · have s1 : ∀ y : Fin 2 → ℝ, (∀ a, y a ∈ Set.Ioo (0 : ℝ) 1) → pd (fun _ => Set.Ioo 0 1) [0]
        (Ex.hyp.ratField (fun idx c => Ex.hyp.P idx c / Ex.hyp.P idx 3) 0) y = -1 / (1 + y 0) ^ 2 := by
      intro y hy
      refine pd_step (l := []) (g := fun y => 1 / (1 + y 0)) (g' := fun y => -1 / (1 + y 0) ^ 2) hu hf hy ?_
      have h := ((hasDerivAt_id (y 0)).const_add 1).inv (pos y hy)
      refine (HasDerivAt.congr_deriv h ?_).congr_of_eventuallyEq ?_
      · simp
      · exact Filter.Eventually.of_forall fun t => by simp
    have s2 : ∀ y : Fin 2 → ℝ, (∀ a, y a ∈ Set.Ioo (0 : ℝ) 1) → pd (fun _ => Set.Ioo 0 1) [0, 0]
        (Ex.hyp.ratField (fun idx c => Ex.hyp.P idx c / Ex.hyp.P idx 3) 0) y = 2 / (1 + y 0) ^ 3 := by
      intro y hy
      refine pd_step (g' := fun y => 2 / (1 + y 0) ^ 3) hu s1 hy ?_
      have h := ((((hasDerivAt_id (y 0)).const_add 1).pow 2).inv (pow_ne_zero 2 (pos y hy))).const_mul (-1)
      refine (HasDerivAt.congr_deriv h ?_).congr_of_eventuallyEq ?_
      · have := pos y hy
        simp
        field_simp
      · exact Filter.Eventually.of_forall fun t => by simp [div_eq_mul_inv]
    have s3 : ∀ y : Fin 2 → ℝ, (∀ a, y a ∈ Set.Ioo (0 : ℝ) 1) → pd (fun _ => Set.Ioo 0 1) [0, 0, 0]
        (Ex.hyp.ratField (fun idx c => Ex.hyp.P idx c / Ex.hyp.P idx 3) 0) y = -6 / (1 + y 0) ^ 4 := by
      intro y hy
      refine pd_step (g' := fun y => -6 / (1 + y 0) ^ 4) hu s2 hy ?_
      have h := ((((hasDerivAt_id (y 0)).const_add 1).pow 3).inv (pow_ne_zero 3 (pos y hy))).const_mul 2
      refine (HasDerivAt.congr_deriv h ?_).congr_of_eventuallyEq ?_
      · have := pos y hy
        simp
        field_simp
        ring
      · exact Filter.Eventually.of_forall fun t => by simp [div_eq_mul_inv]
    rw [s3 _ hm]
    norm_num
  · have s1 : pd (fun _ => Set.Ioo 0 1) [0] Ex.hyp.denom (fun _ : Fin 2 => (1 / 2 : ℝ)) = 1 := by
      refine pd_step (l := []) (g := fun y => 1 + y 0) (g' := fun _ => 1) hu hden hm ?_
      simp only [Function.update_self]
      exact (hasDerivAt_id _).const_add 1
    rw [s1]
    exact one_ne_zero

end Igakit
