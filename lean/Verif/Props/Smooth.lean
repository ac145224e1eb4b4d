import Verif.Proofs.Smooth
import Verif.Props.Nurbs
import Verif.Props.KnotVector
import Mathlib.Analysis.Calculus.Deriv.Abs

/-! # C57: smoothness of the evaluated map

Real parameters and control points. -/

set_option linter.unusedSectionVars false

namespace Igakit
open Spec Set Filter Topology

variable {d : ℕ}

/-- `F` is the function of the parameters computed by calling the object: points in the components 0..2, fields from 4 on -/
def IsCall (jk : ℤ → ℝ) (je : ℤ → ℕ → ℝ) (N : Nrb ℝ d) (F : (Fin d → ℝ) → ℕ → ℝ) : Prop :=
  ∀ x, N.InDom x → ∃ C, N.call jk je (fun _ => 0) (fun a _ => x a) = .ok C ∧
    ∀ c, (C (fun _ => 0)).1 c = F x c ∧ (C (fun _ => 0)).2 c = F x (4 + c)

/-- at `x`, every coordinate that is a knot strictly inside the domain has multiplicity at most the degree minus `r` -/
def Nrb.SmoothAt (N : Nrb ℝ d) (r : ℕ) (x : Fin d → ℝ) : Prop :=
  ∀ a, N.lo a < x a → x a < N.hi a → 0 < N.multOf a (x a) → (N.multOf a (x a) : ℤ) + r ≤ N.degree a

theorem isCall_proj (jk : ℤ → ℝ) (je : ℤ → ℕ → ℝ) {N : Nrb ℝ d} (hd : d ≤ 3) (hv : N.Valid) :
    IsCall jk je N N.proj := by
  intro x hx
  obtain ⟨C, h1, h2⟩ := C05_call jk je hd hv (r := fun _ => 0) (X := fun a _ => x a) (fun _ => le_rfl)
    (fun a i _ _ => hx a)
  exact ⟨C, h1, fun c => h2 (fun _ => 0) (fun a => ⟨le_rfl, le_rfl⟩) c⟩

/-- the function computed by calling the object is determined on the domain -/
theorem isCall_eq {jk : ℤ → ℝ} {je : ℤ → ℕ → ℝ} {N : Nrb ℝ d} (hd : d ≤ 3) (hv : N.Valid)
    {F : (Fin d → ℝ) → ℕ → ℝ} (hF : IsCall jk je N F) {x : Fin d → ℝ} (hx : N.InDom x) (c : ℕ) :
    F x c = N.proj x c := by
  obtain ⟨C, h1, h2⟩ := hF x hx
  obtain ⟨C', h1', h2'⟩ := isCall_proj jk je hd hv x hx
  rw [h1] at h1'
  obtain rfl := Except.ok.inj h1'
  rw [← (h2 c).1, (h2' c).1]

theorem eval_smooth {N : Nrb ℝ d} (hv : N.Valid) {r : ℕ} {x : Fin d → ℝ} (hx : N.InDom x) (hm : N.SmoothAt r x) (c : ℕ) :
    ContDiffWithinAt ℝ r (fun y => N.eval y c) {y | N.InDom y} x := by
  have e : (fun y => N.eval y c) = fun y => ∑ idx ∈ Fintype.piFinset (fun a => Finset.Icc 0 (N.n a)),
      (∏ a, bsplineD (N.n a) (N.U a) (N.degree a).toNat (idx a) (y a)) * N.P idx c := by
    funext y
    exact Nrb.eval_apply N y c
  rw [e]
  refine ContDiffWithinAt.sum (fun idx hidx => ContDiffWithinAt.mul ?_ contDiffWithinAt_const)
  refine contDiffWithinAt_prod (fun a _ => ?_)
  obtain ⟨p, hp, hk, el⟩ := deg_nat hv a
  have hlo : N.lo a = N.U a p := by rw [Nrb.lo_eq, hp]
  have hhi : N.hi a = N.U a (N.n a + 1) := Nrb.hi_eq N a
  have hb : ContDiffWithinAt ℝ r (bsplineD (N.n a) (N.U a) (N.degree a).toNat (idx a))
      (Icc (N.U a p) (N.U a (N.n a + 1))) (x a) := by
    rw [hp, Int.toNat_natCast]
    refine bsplineD_smooth hk (Fintype.mem_piFinset.1 hidx a) (by rw [← hlo]; exact (hx a).1)
      (by rw [← hhi]; exact (hx a).2) (fun h1 h2 => ?_)
    have hmul : N.multOf a (x a) = mult (N.U a) 0 (N.n a + p + 1) (x a) := by
      unfold Nrb.multOf; rw [el]
    rw [← hmul]
    rcases Nat.eq_zero_or_pos (N.multOf a (x a)) with h | h
    · exact Or.inl h
    · have := hm a (by rw [hlo]; exact h1) (by rw [hhi]; exact h2) h
      right; omega
  refine ContDiffWithinAt.comp (f := fun y : Fin d → ℝ => y a) x hb (contDiff_apply ℝ ℝ a).contDiffAt.contDiffWithinAt ?_
  intro y hy
  have := hy a
  rw [hlo, hhi] at this
  exact this

/-- C57: at every parameter of the domain where the weight does not vanish the map computed by calling a valid object is
`r` times continuously differentiable (within the domain), provided the knots among its coordinates have multiplicity
at most the degree minus `r` -/
theorem C57_at {jk : ℤ → ℝ} {je : ℤ → ℕ → ℝ} {N : Nrb ℝ d} (hd : d ≤ 3) (hv : N.Valid)
    {F : (Fin d → ℝ) → ℕ → ℝ} (hF : IsCall jk je N F) {r : ℕ} {x : Fin d → ℝ} (hx : N.InDom x) (hm : N.SmoothAt r x)
    (hw : N.eval x 3 ≠ 0) (c : ℕ) :
    ContDiffWithinAt ℝ r (fun y => F y c) {y | N.InDom y} x := by
  have h : ContDiffWithinAt ℝ r (fun y => N.eval y c / N.eval y 3) {y | N.InDom y} x :=
    (eval_smooth hv hx hm c).div (eval_smooth hv hx hm 3) hw
  exact h.congr (fun y hy => isCall_eq hd hv hF hy c) (isCall_eq hd hv hF hx c)

/-- C57: on the whole domain, with positive weights -/
theorem C57_on (jk : ℤ → ℝ) (je : ℤ → ℕ → ℝ) {N : Nrb ℝ d} (hd : d ≤ 3) (hv : N.Valid)
    (hw : ∀ idx, (∀ a, 0 ≤ idx a ∧ idx a < N.shape a) → 0 < N.P idx 3) {r : ℕ}
    (hm : ∀ a u, N.lo a < u → u < N.hi a → 0 < N.multOf a u → (N.multOf a u : ℤ) + r ≤ N.degree a) :
    ∃ F, IsCall jk je N F ∧ ∀ c, ContDiffOn ℝ r (fun y => F y c) {y | N.InDom y} := by
  refine ⟨N.proj, isCall_proj jk je hd hv, fun c x hx => ?_⟩
  refine C57_at hd hv (isCall_proj jk je hd hv) hx (fun a h1 h2 h3 => hm a _ h1 h2 h3) (ne_of_gt ?_) c
  exact Nrb.eval_pos hv hx (fun idx h => hw idx (fun a => ⟨(h a).1, by have := (h a).2; unfold Nrb.n at this; omega⟩))

/-- C57: inside the domain the derivatives are two-sided -/
theorem C57_inside {jk : ℤ → ℝ} {je : ℤ → ℕ → ℝ} {N : Nrb ℝ d} (hd : d ≤ 3) (hv : N.Valid)
    {F : (Fin d → ℝ) → ℕ → ℝ} (hF : IsCall jk je N F) {r : ℕ} {x : Fin d → ℝ}
    (hx : ∀ a, N.lo a < x a ∧ x a < N.hi a) (hm : N.SmoothAt r x) (hw : N.eval x 3 ≠ 0) (c : ℕ) :
    ContDiffAt ℝ r (fun y => F y c) x := by
  refine (C57_at hd hv hF (fun a => ⟨(hx a).1.le, (hx a).2.le⟩) hm hw c).contDiffAt ?_
  have : ∀ᶠ y in 𝓝 x, ∀ a, N.lo a < y a ∧ y a < N.hi a := by
    rw [eventually_all]
    intro a
    have h1 : ∀ᶠ y : Fin d → ℝ in 𝓝 x, N.lo a < y a := (continuous_apply a).continuousAt.eventually (Ioi_mem_nhds (hx a).1)
    have h2 : ∀ᶠ y : Fin d → ℝ in 𝓝 x, y a < N.hi a := (continuous_apply a).continuousAt.eventually (Iio_mem_nhds (hx a).2)
    exact h1.and h2
  filter_upwards [this] with y hy
  exact fun a => ⟨(hy a).1.le, (hy a).2.le⟩

/-- C57: objects on knot vectors made by `iga.KnotVector(E,p,C)`, open or wrapped, are `C` times continuously
differentiable -/
theorem C57_KnotVector (jk : ℤ → ℝ) (je : ℤ → ℕ → ℝ) {N : Nrb ℝ d} (hd : d ≤ 3)
    (hw : ∀ idx, (∀ a, 0 ≤ idx a ∧ idx a < N.shape a) → 0 < N.P idx 3) {r : ℕ}
    {E p C : Fin d → ℤ} {Ui Uf : Fin d → ℝ} {w : Fin d → Bool} (hlt : ∀ a, Ui a < Uf a)
    (hp : ∀ a, N.degree a = p a) (hn : ∀ a, N.shape a = p a + (E a - 1) * (p a - C a) + 1)
    (hk : ∀ a, iga_KnotVector jk (E a) (p a) (C a) (Ui a) (Uf a) (w a) = .ok (N.U a)) (hr : ∀ a, (r : ℤ) ≤ C a) :
    N.Valid ∧ ∃ F, IsCall jk je N F ∧ ∀ c, ContDiffOn ℝ r (fun y => F y c) {y | N.InDom y} := by
  have hok : ∀ a, 1 ≤ E a ∧ 1 ≤ p a ∧ 0 ≤ C a ∧ C a < p a := by
    intro a
    by_contra h
    have := C25_rejects jk (E := E a) (p := p a) (C := C a) (by omega) (Ui a) (Uf a) (w a)
    rw [hk a] at this
    cases this
  have hu : ∀ a, UniformKnots (N.n a) (N.degree a) (N.U a) (E a) (p a - C a) (Ui a) (Uf a) := by
    intro a
    obtain ⟨h1, h2, h3, h4⟩ := hok a
    rw [hp a, show N.n a = p a + (E a - 1) * (p a - C a) by unfold Nrb.n; rw [hn a]; ring]
    cases hb : w a with
    | false =>
      obtain ⟨U, e, h, _⟩ := C25_open jk h1 h2 h3 h4 (hlt a)
      have := hk a
      rw [hb, e] at this
      rw [← Except.ok.inj this]
      exact h
    | true =>
      obtain ⟨U, e, h, _⟩ := C25_wrapped jk h1 h2 h3 h4 (hlt a)
      have := hk a
      rw [hb, e] at this
      rw [← Except.ok.inj this]
      exact h
  have hv : N.Valid := fun a => (hu a).valid
  refine ⟨hv, C57_on jk je hd hv hw (fun a u h1 h2 h3 => ?_)⟩
  have hlo : N.lo a = Ui a := by rw [Nrb.lo_eq, (hu a).lo]
  have hhi : N.hi a = Uf a := by rw [Nrb.hi_eq, (hu a).hi]
  have hlen : N.len a - 1 = N.n a + N.degree a + 1 := by unfold Nrb.n Nrb.degree; ring
  unfold Nrb.multOf mult at h3
  obtain ⟨j, hj⟩ := Finset.card_pos.1 h3
  simp only [Finset.mem_filter, Finset.mem_Icc] at hj
  rw [hlo] at h1
  rw [hhi] at h2
  obtain ⟨i, i1, i2, i3⟩ := (hu a).only j hj.1.1 (by omega) (by rw [hj.2]; exact h1) (by rw [hj.2]; exact h2)
  have := (hu a).inner i i1 i2
  rw [← i3, hj.2, ← hlen] at this
  unfold Nrb.multOf
  have := hr a
  have := hp a
  omega

/-! ## examples -/

namespace Ex

/-- polygon of degree one on `[0, 2]` with a corner at 1 -/
def corner : Nrb ℝ 1 where
  shape := ![3]
  nc := 4
  len := ![5]
  U := ![fun j => if j ≤ 1 then 0 else if j ≤ 2 then 1 else 2]
  P := fun idx c => if c = 3 then 1 else if idx 0 = 1 then 1 else 0

theorem corner_valid : corner.Valid := by
  intro a
  fin_cases a
  refine ⟨by decide, by decide, ?_, ?_, ?_⟩
  · intro i j _ h _
    show (if i ≤ 1 then (0 : ℝ) else if i ≤ 2 then 1 else 2) ≤ (if j ≤ 1 then (0 : ℝ) else if j ≤ 2 then 1 else 2)
    split_ifs <;> first | (exfalso; omega) | norm_num
  · show (if (1 : ℤ) ≤ 1 then (0 : ℝ) else if (1 : ℤ) ≤ 2 then 1 else 2) < (if (1 : ℤ) + 1 ≤ 1 then (0 : ℝ) else if (1 : ℤ) + 1 ≤ 2 then 1 else 2)
    norm_num
  · show (if (2 : ℤ) ≤ 1 then (0 : ℝ) else if (2 : ℤ) ≤ 2 then 1 else 2) < (if (2 : ℤ) + 1 ≤ 1 then (0 : ℝ) else if (2 : ℤ) + 1 ≤ 2 then 1 else 2)
    norm_num

theorem corner_eval {u : ℝ} (h0 : 0 ≤ u) (h2 : u < 2) (c : ℕ) :
    corner.eval (fun _ => u) c = if c = 3 then 1 else if u < 1 then u else 2 - u := by
  have e : Finset.Icc (0 : ℤ) 2 = {0, 1, 2} := by decide
  unfold Nrb.eval
  rw [tensor_one, Finset.sum_apply]
  have hn : corner.n 0 = 2 := rfl
  have hd : (corner.degree 0).toNat = 1 := rfl
  rw [hn, hd, e]
  have hU : ∀ j, corner.U 0 j = if j ≤ 1 then 0 else if j ≤ 2 then 1 else 2 := fun j => rfl
  have hP : ∀ j, corner.P ![j] c = if c = 3 then 1 else if j = 1 then 1 else 0 := fun j => rfl
  simp only [Pi.smul_apply, smul_eq_mul, bsplineD, bspline, coxDB, hU, hP]
  norm_num [h2, h0]
  rcases lt_or_ge u 1 with h | h
  · simp only [if_pos h, if_neg (not_le.2 h)]
    congr 1 <;> ring
  · simp only [if_neg (not_lt.2 h), if_pos h]
    congr 1 <;> ring

end Ex

/-- the bound is sharp: a knot of multiplicity one in degree one; the map is continuous but not differentiable there -/
theorem C57_sharp (jk : ℤ → ℝ) (je : ℤ → ℕ → ℝ) :
    ∃ F, IsCall jk je Ex.corner F ∧ ContDiffOn ℝ 0 (fun y => F y 0) {y | Ex.corner.InDom y} ∧
      ¬ DifferentiableAt ℝ (fun y => F y 0) (fun _ => 1) := by
  have hw : ∀ idx : Fin 1 → ℤ, (∀ a, 0 ≤ idx a ∧ idx a < Ex.corner.shape a) → 0 < Ex.corner.P idx 3 := by
    intro idx _
    show (0 : ℝ) < 1
    norm_num
  refine ⟨Ex.corner.proj, isCall_proj jk je (by decide) Ex.corner_valid, ?_, ?_⟩
  · intro x hx
    have := C57_at (r := 0) (by decide) Ex.corner_valid (isCall_proj jk je (by decide) Ex.corner_valid) hx ?_
      (ne_of_gt (Nrb.eval_pos Ex.corner_valid hx (fun idx h => hw idx (fun a => ⟨(h a).1, by
        have := (h a).2; unfold Nrb.n at this; omega⟩)))) 0
    · exact_mod_cast this
    · intro a h1 h2 h3
      obtain rfl : a = 0 := Subsingleton.elim _ _
      have h1 : (0 : ℝ) < x 0 := h1
      have h2 : x 0 < (2 : ℝ) := h2
      show ((mult (Ex.corner.U 0) 0 4 (x 0) : ℕ) : ℤ) + ((0 : ℕ) : ℤ) ≤ 1
      have : (Finset.Icc (0 : ℤ) 4).filter (fun i => Ex.corner.U 0 i = x 0) ⊆ {2} := by
        intro j hj
        simp only [Finset.mem_filter, Finset.mem_Icc, Finset.mem_singleton] at hj ⊢
        have hU : Ex.corner.U 0 j = if j ≤ 1 then 0 else if j ≤ 2 then 1 else 2 := rfl
        rw [hU] at hj
        by_contra hne
        by_cases h : j ≤ 1
        · rw [if_pos h] at hj; linarith [hj.2]
        · rw [if_neg h, if_neg (by omega)] at hj; linarith [hj.2]
      have := Finset.card_le_card this
      unfold mult
      rw [Finset.card_singleton] at this
      omega
  · intro h
    have hg : DifferentiableAt ℝ (fun u : ℝ => Ex.corner.proj (fun _ => u) 0) 1 :=
      DifferentiableAt.comp (f := fun u : ℝ => (fun _ : Fin 1 => u)) 1 h
        (differentiableAt_pi.2 fun _ => differentiableAt_id)
    have h2 : DifferentiableAt ℝ (fun u : ℝ => 1 - |u - 1|) 1 := by
      refine hg.congr_of_eventuallyEq ?_
      filter_upwards [Ioi_mem_nhds (show (0 : ℝ) < 1 by norm_num), Iio_mem_nhds (show (1 : ℝ) < 2 by norm_num)] with u h0 h2
      unfold Nrb.proj
      rw [Ex.corner_eval (le_of_lt h0) h2, Ex.corner_eval (le_of_lt h0) h2, if_pos rfl, if_neg (by decide), div_one]
      split
      · rename_i h; rw [abs_of_neg (by linarith)]; ring
      · rename_i h; rw [abs_of_nonneg (by linarith)]; ring
    have h3 : DifferentiableAt ℝ (fun u : ℝ => |u - 1|) 1 := by
      have := (differentiableAt_const (1 : ℝ)).sub h2
      simpa using this
    have h4 : DifferentiableAt ℝ (fun u : ℝ => |u|) 0 := by
      have h5 : DifferentiableAt ℝ (fun u : ℝ => u + 1) 0 := differentiableAt_id.add (differentiableAt_const _)
      have := DifferentiableAt.comp (f := fun u : ℝ => u + 1) (g := fun u : ℝ => |u - 1|) 0 (by simpa using h3) h5
      have e : ((fun u : ℝ => |u - 1|) ∘ fun u : ℝ => u + 1) = fun u => |u| := by
        funext u
        simp
      rw [e] at this
      exact this
    exact not_differentiableAt_abs_zero h4

/-- between the knots the map has derivatives of all orders -/
example (jk : ℤ → ℝ) (je : ℤ → ℕ → ℝ) : ContDiffAt ℝ 5 (fun y => Ex.corner.proj y 0) (fun _ => 1 / 2) := by
  refine C57_inside (r := 5) (by decide) Ex.corner_valid (isCall_proj jk je (by decide) Ex.corner_valid) ?_ ?_ ?_ 0
  · intro a
    obtain rfl : a = 0 := Subsingleton.elim _ _
    have e1 : Ex.corner.lo 0 = 0 := rfl
    have e2 : Ex.corner.hi 0 = 2 := rfl
    rw [e1, e2]
    norm_num
  · intro a _ _ h3
    obtain rfl : a = 0 := Subsingleton.elim _ _
    unfold Nrb.multOf mult at h3
    obtain ⟨j, hj⟩ := Finset.card_pos.1 h3
    have hU : Ex.corner.U 0 j = if j ≤ 1 then 0 else if j ≤ 2 then 1 else 2 := rfl
    simp only [Finset.mem_filter, hU] at hj
    have := hj.2
    split_ifs at this <;> norm_num at this
  · rw [Ex.corner_eval (by norm_num) (by norm_num), if_pos rfl]
    norm_num

/-- wrapped and open knots of `iga.KnotVector`: a surface which is twice continuously differentiable -/
noncomputable def Ex.smooth (jk : ℤ → ℝ) : Nrb ℝ 2 where
  shape := ![3 + (4 - 1) * (3 - 2) + 1, 4 + (5 - 1) * (4 - 2) + 1]
  nc := 4
  len := ![3 + (4 - 1) * (3 - 2) + 1 + 3 + 1, 4 + (5 - 1) * (4 - 2) + 1 + 4 + 1]
  U := ![(C25_wrapped jk (E := 4) (p := 3) (C := 2) (by norm_num) (by norm_num) (by norm_num) (by norm_num)
      (Ui := 0) (Uf := 1) (by norm_num)).choose,
    (C25_open jk (E := 5) (p := 4) (C := 2) (by norm_num) (by norm_num) (by norm_num) (by norm_num)
      (Ui := -1) (Uf := 5) (by norm_num)).choose]
  P := fun idx c => if c = 3 then 1 + idx 1 ^ 2 else (c + 1) * idx 0 * idx 0 + idx 1 * 3 - c

example (jk : ℤ → ℝ) (je : ℤ → ℕ → ℝ) := C57_KnotVector jk je (N := Ex.smooth jk) (by decide)
  (fun idx h => by
    show (0 : ℝ) < 1 + (idx 1 : ℝ) ^ 2
    positivity)
  (r := 2) (E := ![4, 5]) (p := ![3, 4]) (C := ![2, 2]) (Ui := ![0, -1]) (Uf := ![1, 5]) (w := ![true, false])
  (fun a => by fin_cases a <;> norm_num) (fun a => by fin_cases a <;> rfl) (fun a => by fin_cases a <;> rfl)
  (fun a => by
    fin_cases a
    · exact (C25_wrapped jk (E := 4) (p := 3) (C := 2) (by norm_num) (by norm_num) (by norm_num) (by norm_num)
        (Ui := 0) (Uf := 1) (by norm_num)).choose_spec.1
    · exact (C25_open jk (E := 5) (p := 4) (C := 2) (by norm_num) (by norm_num) (by norm_num) (by norm_num)
        (Ui := -1) (Uf := 5) (by norm_num)).choose_spec.1)
  (fun a => by fin_cases a <;> norm_num)

end Igakit
