import Verif.Props.QuasiConformal

/-!
# Property C93 for arbitrary weights: what `ConformalProjectionError` computes
-/

set_option linter.unusedSectionVars false

namespace Igakit
open Spec

/-- the surface whose Cartesian control points are the homogeneous ones of `N`, with the same weights -/
def Spec.timesWeights (N : Nrb ℝ 2) : Nrb ℝ 2 := { N with P := fun idx c => if c = 3 then N.P idx 3 else N.P idx c * N.P idx 3 }

/-- inside a box of spans the tensor product spline is differentiable -/
theorem tensor_hasDeriv {d : ℕ} {n : Fin d → ℤ} {p : Fin d → ℕ} {U : Fin d → ℤ → ℝ}
    (hv : ∀ a, ValidKnots (n a) (p a) (U a)) (P : (Fin d → ℤ) → ℝ) {k : Fin d → ℤ}
    (hk : ∀ a, (p a : ℤ) ≤ k a ∧ k a ≤ n a) (i : Fin d) {x : Fin d → ℝ} (hx : ∀ a, U a (k a) < x a ∧ x a < U a (k a + 1)) :
    HasDerivAt (fun t => tensor n p U P (Function.update x i t)) (pdo [i] (tensor n p U P) x) (x i) := by
  simp only [pdo]
  refine DifferentiableAt.hasDerivAt ?_
  unfold tensor
  refine DifferentiableAt.fun_sum fun idx hidx => ?_
  have hi : ∀ a, 0 ≤ idx a ∧ idx a ≤ n a := fun a => Finset.mem_Icc.1 (Fintype.mem_piFinset.1 hidx a)
  have e1 : (fun t => (∏ a, bsplineD (n a) (U a) (p a) (idx a) (Function.update x i t a)) • P idx) =
      fun t => bsplineD (n i) (U i) (p i) (idx i) t * ((∏ a ∈ Finset.univ.erase i, bsplineD (n a) (U a) (p a) (idx a) (x a)) * P idx) := by
    funext t
    rw [smul_eq_mul, ← Finset.mul_prod_erase _ _ (Finset.mem_univ i), Function.update_self, mul_assoc]
    congr 2
    refine Finset.prod_congr rfl fun a ha => ?_
    rw [Function.update_of_ne (Finset.ne_of_mem_erase ha)]
  rw [e1]
  refine DifferentiableAt.mul_const ?_ _
  have h2 : bsplineD (n i) (U i) (p i) (idx i) =ᶠ[nhds (x i)] fun y => (pieceP (U i) (k i) (p i) (idx i)).eval y := by
    filter_upwards [Ioo_mem_nhds (hx i).1 (hx i).2] with y hy
    have := iteratedDeriv_span (hv i).sorted (hk i).1 (hk i).2 (hi i).1 (hi i).2 0 hy.1 hy.2
    simpa using this
  exact (Filter.EventuallyEq.differentiableAt_iff h2).2 (Polynomial.differentiableAt _)

/-- C93: for any positive weights the returned number is the root of the weighted sum of the squared Cauchy-Riemann equations, at the
quadrature points, of the surface whose Cartesian control points are the homogeneous ones; the weight of a point has the squared half
length of the element in direction 0. -/
theorem C93_rational {eps : ℝ} (heps : 0 ≤ eps) (jo : Fin 2 → ℤ → ℤ) (jk : Fin 2 → ℤ → ℝ) (j2 ja jd : Fin 2 → ℤ → ℤ → ℝ)
    {N : Nrb ℝ 2} (hN : N.Valid) (hp : ∀ a, N.degree a ≤ 9) (hw : ∀ idx, N.InNet idx → 0 < N.P idx 3)
    (hsep : ∀ a k, N.degree a ≤ k → k ≤ N.n a → N.U a k < N.U a (k + 1) → eps < N.U a (k + 1) - N.U a k) :
    ∃ B : Fin 2 → QuadData ℝ,
      (∀ a, IsQuad eps (N.n a) (N.degree a).toNat (N.U a) (N.degree a).toNat ((N.degree a).toNat + 1) (B a)) ∧
      conformalProjectionError eps jo jk j2 ja jd N = .ok (Real.sqrt (
        ∑ eu ∈ Finset.range (B 0).r.toNat, ∑ ev ∈ Finset.range (B 1).r.toNat, ∑ qu ∈ Finset.range ((N.degree 0).toNat + 1),
          ∑ qv ∈ Finset.range ((N.degree 1).toNat + 1), (B 0).J eu ^ 2 * ((B 0).W qu * (B 1).W qv) *
            cauchyRiemann (timesWeights N) ![(B 0).X eu qu, (B 1).X ev qv])) := by
  obtain ⟨B, hB, hQ⟩ := conf_data heps jo jk j2 ja jd hN hp hsep
  refine ⟨B, hQ, ?_⟩
  unfold conformalProjectionError
  rw [hB 0, hB 1]
  dsimp only [bind, Except.bind, pure, Except.pure]
  refine congrArg (fun z => (Except.ok (Real.sqrt z) : Res ℝ)) ?_
  have hdeg : ∀ a, ((N.degree a).toNat : ℤ) = N.degree a := fun a => Int.toNat_of_nonneg (by have := (hN a).one_le; omega)
  set p : Fin 2 → ℕ := fun a => (N.degree a).toNat with hpdef
  have hp1 : ∀ a, 1 ≤ p a := fun a => by have := (hN a).one_le; have := hdeg a; simp only [hpdef]; omega
  unfold Conf.error
  refine Finset.sum_congr rfl fun eu heu => Finset.sum_congr rfl fun ev hev => Finset.sum_congr rfl fun qu hqu =>
    Finset.sum_congr rfl fun qv hqv => ?_
  have heu := Finset.mem_range.1 heu
  have hev := Finset.mem_range.1 hev
  have hqu := Finset.mem_range.1 hqu
  have hqv := Finset.mem_range.1 hqv
  have he : ∀ a, ![eu, ev] a < (B a).r.toNat := by intro a; fin_cases a; exacts [heu, hev]
  have hg : ∀ a, ![qu, qv] a < p a + 1 := by intro a; fin_cases a; exacts [hqu, hqv]
  have hX : (fun a => (B a).X (![eu, ev] a) (![qu, qv] a)) = ![(B 0).X eu qu, (B 1).X ev qv] := by
    funext a; fin_cases a <;> rfl
  set x : Fin 2 → ℝ := ![(B 0).X eu qu, (B 1).X ev qv] with hx
  choose k hk using fun a => (hQ a).inside heps (he a) (hg a)
  have hkx : ∀ a, N.U a (k a) < x a ∧ x a < N.U a (k a + 1) := fun a => by
    rw [← hX]; exact ⟨(hk a).2.2.2.2.2.2.1, (hk a).2.2.2.2.2.2.2.1⟩
  have hev' : ∀ (M : Nrb ℝ 2) (c : ℕ), (fun y => M.eval y c) = tensor M.n (fun a => (M.degree a).toNat) M.U fun idx => M.P idx c := by
    intro M c
    funext y; unfold Nrb.eval; exact tensor_apply _ _ _
  -- values and derivatives of the components
  have hloc0 : ∀ c, localSum B p ![0, 0] (fun idx => (timesWeights N).P idx c) ![eu, ev] ![qu, qv] = (timesWeights N).eval x c := by
    intro c
    have := C92_partials (N := timesWeights N) heps hQ [] (fun a => Nat.zero_le _) c he hg
    rw [show (fun a : Fin 2 => ([] : List (Fin 2)).count a) = ![0, 0] by funext a; fin_cases a <;> rfl, hX] at this
    exact this
  have hcnt : ∀ j : Fin 2, (fun a : Fin 2 => [j].count a) = ![if j = 0 then 1 else 0, if j = 0 then 0 else 1] := by
    intro j; funext a; fin_cases j <;> fin_cases a <;> rfl
  have hloc1 : ∀ (j : Fin 2) (c : ℕ), localSum B p ![if j = 0 then 1 else 0, if j = 0 then 0 else 1] (fun idx => (timesWeights N).P idx c)
      ![eu, ev] ![qu, qv] = pdo [j] (fun y => (timesWeights N).eval y c) x := by
    intro j c
    rw [← hcnt j, ← hX]
    refine C92_partials (N := timesWeights N) heps hQ [j] (fun a => ?_) c he hg
    have := hp1 a
    have h2 : [j].count a ≤ 1 := by rw [List.count_singleton]; split_ifs <;> omega
    exact h2.trans this
  have hder : ∀ (j : Fin 2) (c : ℕ), HasDerivAt (fun t => (timesWeights N).eval (Function.update x j t) c)
      (pdo [j] (fun y => (timesWeights N).eval y c) x) (x j) := by
    intro j c
    have := tensor_hasDeriv (fun a => (hQ a).valid) (fun idx => (timesWeights N).P idx c) (k := k) (fun a => ⟨(hk a).1, (hk a).2.1⟩) j hkx
    rw [show tensor N.n (fun a => (N.degree a).toNat) N.U (fun idx => (timesWeights N).P idx c) = fun y => (timesWeights N).eval y c from
      (hev' (timesWeights N) c).symm] at this
    exact this
  have hw3 : (timesWeights N).eval x 3 ≠ 0 := by
    have hd : N.InDom x := by
      intro a
      obtain ⟨k1, k2, _⟩ := hk a
      have o1 := (hN a).one_le
      have o2 := (hN a).le
      rw [hdeg] at k1
      have s1 : N.lo a ≤ N.U a (k a) := (hN a).sorted (N.degree a) (k a) (by omega) k1 (by omega)
      have s2 : N.U a (k a + 1) ≤ N.hi a := by rw [N.hi_eq]; exact (hN a).sorted _ _ (by omega) (by omega) (by omega)
      exact ⟨s1.trans (hkx a).1.le, (hkx a).2.le.trans s2⟩
    exact (Nrb.eval_pos (N := timesWeights N) hN hd (c := 3) fun idx h => hw idx fun a => by
      have := h a
      have e : (timesWeights N).n a = N.shape a - 1 := rfl
      omega).ne'
  have hproj : ∀ (j : Fin 2) (c : ℕ), pdo [j] (fun y => (timesWeights N).proj y c) x =
      (pdo [j] (fun y => (timesWeights N).eval y c) x - (timesWeights N).eval x c / (timesWeights N).eval x 3 *
        pdo [j] (fun y => (timesWeights N).eval y 3) x) / (timesWeights N).eval x 3 := by
    intro j c
    have := quot_hasDeriv (hder j c) (hder j 3) (by rw [Function.update_eq_self]; exact hw3)
    rw [Function.update_eq_self] at this
    exact this.deriv
  have hdX : ∀ (j : Fin 2) (c : ℕ), c ≠ 3 → Conf.dX (B 0) (B 1) (p 0) (p 1) (fun i j c => N.P ![i, j] c) eu ev qu qv
      (if j = 0 then 1 else 0) (if j = 0 then 0 else 1) c = pdo [j] (fun y => (timesWeights N).proj y c) x := by
    intro j c hc
    rw [hproj, ← hloc1, ← hloc1, ← hloc0, ← hloc0]
    rw [← conf_total B p eu ev qu qv (if j = 0 then 1 else 0) (if j = 0 then 0 else 1) (fun idx => (timesWeights N).P idx c), ← conf_total B p eu ev qu qv (if j = 0 then 1 else 0) (if j = 0 then 0 else 1) (fun idx => (timesWeights N).P idx 3),
      ← conf_total B p eu ev qu qv 0 0 (fun idx => (timesWeights N).P idx c), ← conf_total B p eu ev qu qv 0 0 (fun idx => (timesWeights N).P idx 3)]
    have t3 : ∀ i i' : ℕ, (timesWeights N).P ![(B 0).O eu + i, (B 1).O ev + i'] 3 = N.P ![(B 0).O eu + i, (B 1).O ev + i'] 3 := fun _ _ => rfl
    have tc : ∀ i i' : ℕ, (timesWeights N).P ![(B 0).O eu + i, (B 1).O ev + i'] c =
        N.P ![(B 0).O eu + i, (B 1).O ev + i'] c * N.P ![(B 0).O eu + i, (B 1).O ev + i'] 3 := fun _ _ => if_neg hc
    simp only [t3, tc]
    unfold Conf.dX Conf.dR
    dsimp only
    set w := Conf.total (B 0) (B 1) (p 0) (p 1) eu ev qu qv 0 0 (fun i i' => N.P ![(B 0).O eu + i, (B 1).O ev + i'] 3) with hwdef
    set dw := Conf.total (B 0) (B 1) (p 0) (p 1) eu ev qu qv (if j = 0 then 1 else 0) (if j = 0 then 0 else 1)
      (fun i i' => N.P ![(B 0).O eu + i, (B 1).O ev + i'] 3)
    unfold Conf.total
    rw [sub_div, Finset.sum_div, Finset.sum_div, Finset.sum_mul, Finset.sum_div, ← Finset.sum_sub_distrib]
    refine Finset.sum_congr rfl fun i _ => ?_
    rw [Finset.sum_div, Finset.sum_div, Finset.sum_mul, Finset.sum_div, ← Finset.sum_sub_distrib]
    refine Finset.sum_congr rfl fun i' _ => ?_
    ring
  have h00 := hdX 0 0 (by norm_num)
  have h10 := hdX 1 0 (by norm_num)
  have h01 := hdX 0 1 (by norm_num)
  have h11 := hdX 1 1 (by norm_num)
  simp only [if_true, show ((1 : Fin 2) = 0) = False by simp, if_false] at h00 h10 h01 h11
  dsimp only
  rw [h00, h10, h01, h11]
  unfold cauchyRiemann
  ring

/-- the bent surface with weights `1 + i²` -/
noncomputable def Ex.heavyBent : Nrb ℝ 2 := { Ex.bent with P := fun idx c => if c = 3 then 1 + (idx 0 : ℝ) ^ 2 else Ex.bent.P idx c }

example (jo : Fin 2 → ℤ → ℤ) (jk : Fin 2 → ℤ → ℝ) (j2 ja jd : Fin 2 → ℤ → ℤ → ℝ) :=
  C93_rational (eps := 1 / 10 ^ 16) (by norm_num) jo jk j2 ja jd (N := Ex.heavyBent) Ex.bent_valid
    (fun a => (show Ex.bent.degree a ≤ 9 by rw [Ex.bent_degree]; norm_num))
    (fun idx _ => (show (0 : ℝ) < 1 + (idx 0 : ℝ) ^ 2 by positivity)) Ex.bent_sep

end Igakit
