import Verif.Proofs.FloatNrb
import Verif.Proofs.FloatSign
import Verif.Proofs.FloatBinary

/-! # Properties C71, C72: rounding errors

The rounding `rd` is any function with the properties collected in `Verif.Spec.Float`; `Ex.fl 53` and `Ex.flMin 53 (-1074)` show
that binary floating point rounding has them. -/

set_option linter.unusedSectionVars false

namespace Igakit
open Spec

variable {K : Type} [Field K] [LinearOrder K] [IsStrictOrderedRing K] {d : ℕ}

/-- `m` roundings cost a relative error of at most `m δ / (1 - m δ)` -/
theorem growth_le {δ : K} (h0 : 0 ≤ δ) {m : ℕ} (hm : m * δ < 1) : growth δ ^ m - 1 ≤ m * δ / (1 - m * δ) := by
  rcases Nat.eq_zero_or_pos m with rfl | hm0
  · simp
  have h1 : δ < 1 := by
    have : (1 : K) ≤ m := by exact_mod_cast hm0
    nlinarith
  have hb : 1 - m * δ ≤ (1 - δ) ^ m := by
    have := one_add_mul_le_pow (a := -δ) (by linarith) m
    calc 1 - m * δ = 1 + m * -δ := by ring
      _ ≤ _ := this
      _ = _ := by rw [← sub_eq_add_neg]
  have hp : 0 < 1 - m * δ := by linarith
  unfold growth
  rw [inv_pow]
  have : ((1 - δ) ^ m)⁻¹ ≤ (1 - m * δ)⁻¹ := inv_anti₀ hp hb
  calc ((1 - δ) ^ m)⁻¹ - 1 ≤ (1 - m * δ)⁻¹ - 1 := by linarith
    _ = _ := by field_simp; ring

/-! ## C71 -/

/-- C71: in floating point the basis functions are finite and nonnegative, whatever the initial contents of the output and work
arrays; subnormal numbers are allowed -/
theorem C71_finite_nonneg {F : K → Prop} {rd : K → K} (hr : Rounds F rd) (jk : ℤ → Fp K) {n : ℤ} {p : ℕ} {U : ℤ → K}
    (hv : ValidKnots n p U) (hF : ∀ i, 0 ≤ i → i ≤ n + p + 1 → F (U i)) {u : K} (hu : F u) (h1 : U p ≤ u)
    (h2 : u ≤ U (n + 1)) :
    ∃ N, Fp.EvalBasisFuns rd jk p (n + p + 1) U u = .ok N ∧
      ∀ r : ℤ, 0 ≤ r → r ≤ p → ∃ x, N r = some x ∧ F x ∧ 0 ≤ x := by
  have hp := hv.one_le
  have hle := hv.le
  have e : n + (p : ℤ) + 1 - (p + 1) = n := by ring
  have hrg := findSpan_range (U := U) u (by omega : (0 : ℤ) ≤ p) hle
  have hin := findSpan_inSpan hv h1 h2
  refine ⟨Fp.basisFuns rd jk (findSpan n p u U) u p U, ?_, ?_⟩
  · unfold Fp.EvalBasisFuns
    rw [if_pos (by omega), if_neg (by omega), e]
  · exact Fp.basisFuns_good hr jk (fun i j a b c => hv.sorted i j (by omega) b (by omega))
      (fun i a b => hF i (by omega) (by omega)) hu hin.ne hin.left hin.right

/-- C71: relative to the exact B-splines the computed ones are off by at most `6 p` roundings; so is their sum, relative to one -/
theorem C71_error {δ : K} {rd : K → K} (h0 : 0 ≤ δ) (hδ : δ < 1) (hr : RelErr δ rd) (jk : ℤ → Fp K) {n : ℤ} {p : ℕ} {U : ℤ → K}
    (hv : ValidKnots n p U) {u : K} (h1 : U p ≤ u) (h2 : u ≤ U (n + 1)) :
    ∃ k N, BSp.FindSpan p (n + p + 1) U u = .ok k ∧ Fp.EvalBasisFuns rd jk p (n + p + 1) U u = .ok N ∧
      ∃ x : ℤ → K, (∀ r : ℤ, 0 ≤ r → r ≤ p → N r = some (x r) ∧ 0 ≤ x r ∧
        |x r - bsplineD n U p (k - p + r) u| ≤ (growth δ ^ (6 * p) - 1) * bsplineD n U p (k - p + r) u) ∧
      |∑ r ∈ Finset.range (p + 1), x r - 1| ≤ growth δ ^ (6 * p) - 1 := by
  have hp := hv.one_le
  have hle := hv.le
  have e : n + (p : ℤ) + 1 - (p + 1) = n := by ring
  have hrg := findSpan_range (U := U) u (by omega : (0 : ℤ) ≤ p) hle
  have hc := Fp.basis_at h0 hδ hr hv h1 h2 jk (fun _ => 0)
  obtain ⟨k, N, e1, e2, e3, -⟩ := C03_EvalBasisFuns (fun _ => 0) hv h1 h2
  obtain ⟨N', e4, -, e5⟩ := C04_partition_of_unity (fun _ => 0) hv h1 h2
  rw [e2] at e4
  injection e4 with e4
  subst e4
  have hN : N = basisFuns (fun _ => 0) (findSpan n p u U) u p U := by
    unfold BSp.EvalBasisFuns at e2
    rw [if_pos (by omega), if_neg (by omega), e] at e2
    injection e2 with e2
    exact e2.symm
  refine ⟨k, Fp.basisFuns rd jk (findSpan n p u U) u p U, e1, ?_, fun r => (Fp.basisFuns rd jk (findSpan n p u U) u p U r).getD 0, ?_, ?_⟩
  · unfold Fp.EvalBasisFuns
    rw [if_pos (by omega), if_neg (by omega), e]
  · intro r a b
    obtain ⟨x, q1, q2, q3, q4⟩ := hc r a b
    rw [← hN, e3 r a b] at q3 q4
    dsimp only
    rw [q1]
    exact ⟨rfl, q2, q4.abs (Fp.one_le_growth h0 hδ) q3⟩
  · rw [← e5, ← Finset.sum_sub_distrib]
    refine (Finset.abs_sum_le_sum_abs _ _).trans ?_
    calc _ ≤ ∑ r ∈ Finset.range (p + 1), (growth δ ^ (6 * p) - 1) * N r := by
          refine Finset.sum_le_sum fun r hr' => ?_
          have hr' := Finset.mem_range.mp hr'
          obtain ⟨x, q1, q2, q3, q4⟩ := hc r (by omega) (by omega)
          rw [← hN] at q3 q4
          dsimp only
          rw [q1]
          exact q4.abs (Fp.one_le_growth h0 hδ) q3
      _ = _ := by rw [← Finset.mul_sum, e5, mul_one]

/-- C71: without rounding the floating point model is the exact one -/
theorem C71_exact (jk : ℤ → Fp K) (jk' : ℤ → K) {n : ℤ} {p : ℕ} {U : ℤ → K} (hv : ValidKnots n p U) {u : K} (h1 : U p ≤ u)
    (h2 : u ≤ U (n + 1)) :
    ∃ N N', Fp.EvalBasisFuns id jk p (n + p + 1) U u = .ok N ∧ BSp.EvalBasisFuns jk' p (n + p + 1) U u = .ok N' ∧
      ∀ r : ℤ, 0 ≤ r → r ≤ p → N r = some (N' r) := by
  obtain ⟨k, N, e1, e2, x, e3, -⟩ := C71_error (δ := 0) le_rfl one_pos (rd := id) (fun x => by simp) jk hv h1 h2
  obtain ⟨k', N', e1', e2', e3', -⟩ := C03_EvalBasisFuns jk' hv h1 h2
  rw [e1] at e1'
  injection e1' with e1'
  subst e1'
  refine ⟨N, N', e2, e2', fun r a b => ?_⟩
  obtain ⟨q1, -, q2⟩ := e3 r a b
  rw [show growth (0 : K) = 1 by unfold growth; simp, one_pow, sub_self, zero_mul] at q2
  rw [q1, e3' r a b, sub_eq_zero.mp (abs_eq_zero.mp (le_antisymm q2 (abs_nonneg _)))]

/-- doubles: the knots `Ex.U` and the parameter `1/3` rounded to 53 bits -/
example : ∃ N, Fp.EvalBasisFuns (Ex.flMin 53 (-1074)) (fun _ => none) 2 8 Ex.U (Ex.flMin 53 (-1074) (1 / 3)) = .ok N ∧
    ∀ r : ℤ, 0 ≤ r → r ≤ 2 → ∃ x, N r = some x ∧ Ex.IsFloat 53 (-1074) x ∧ 0 ≤ x := by
  have hr := Ex.flMin_rounds (t := 53) (by norm_num) (emin := -1074) (by norm_num)
  refine C71_finite_nonneg (n := 5) (p := 2) hr (fun _ => none) Ex.U_valid ?_ (hr.mem _)
    (show (0 : ℚ) ≤ _ from Ex.flMin_nonneg (by norm_num) _ (by norm_num)) ?_
  · intro i a b
    have h3 : i = 0 ∨ i = 1 ∨ i = 2 ∨ i = 3 ∨ i = 4 ∨ i = 5 ∨ i = 6 ∨ i = 7 ∨ i = 8 := by
      push_cast at b
      omega
    have key : ∀ m : ℤ, |m| ≤ 2 ^ 53 → Ex.IsFloat 53 (-1074) (m : ℚ) := fun m hm => ⟨m, 0, by norm_num, hm, by simp⟩
    rcases h3 with h | h | h | h | h | h | h | h | h <;> subst h
    · exact_mod_cast key 0 (by norm_num)
    · exact_mod_cast key 0 (by norm_num)
    · exact_mod_cast key 0 (by norm_num)
    · exact_mod_cast key 1 (by norm_num)
    · exact_mod_cast key 2 (by norm_num)
    · exact_mod_cast key 2 (by norm_num)
    · exact_mod_cast key 3 (by norm_num)
    · exact_mod_cast key 3 (by norm_num)
    · exact_mod_cast key 3 (by norm_num)
  · exact (Ex.flMin_mono (by norm_num) _ (by norm_num : (1 / 3 : ℚ) ≤ 1)).trans
      (by rw [hr.exact 1 hr.one]; show (1 : ℚ) ≤ 3; norm_num)

/-- with 53 bits the sum of the basis functions of degree 2 on `Ex.U` is within `2 · 10^-15` of one -/
example (jk : ℤ → Fp ℚ) {u : ℚ} (h1 : 0 ≤ u) (h2 : u ≤ 3) :
    ∃ (N : ℤ → Fp ℚ) (x : ℤ → ℚ), Fp.EvalBasisFuns (Ex.fl 53) jk 2 8 Ex.U u = .ok N ∧ N 0 = some (x 0) ∧ N 1 = some (x 1) ∧ N 2 = some (x 2) ∧
      |x 0 + x 1 + x 2 - 1| ≤ 2 / 10 ^ 15 := by
  obtain ⟨k, N, -, e2, x, e3, e4⟩ := C71_error (by positivity) (by norm_num) (Ex.fl_relErr 53) jk Ex.U_valid
    (u := u) h1 h2
  refine ⟨N, x, e2, (e3 0 (by norm_num) (by norm_num)).1, (e3 1 (by norm_num) (by norm_num)).1,
    (e3 2 (by norm_num) (by norm_num)).1, ?_⟩
  rw [Finset.sum_range_succ, Finset.sum_range_succ, Finset.sum_range_one] at e4
  refine (le_of_eq_of_le ?_ e4).trans ((growth_le (by positivity) (by norm_num)).trans (by norm_num))
  norm_num

/-- The bound is not zero: at the first knot of `0, 0, 49, 49` doubles give `49 * (1/49) = 1 - 2^-53` for the first basis function,
which is one, and zero for the other.  So clamped ends are interpolated up to rounding only, and the sum is not one. -/
theorem C71_not_exact (jk : ℤ → Fp ℚ) : ∃ N, Fp.EvalBasisFuns (Ex.fl 53) jk 1 3 (vec [0, 0, 49, 49]) (0 : ℚ) = .ok N ∧
    N 0 = some (1 - 1 / 2 ^ 53) ∧ N 1 = some 0 := by
  have hs : findSpan 1 1 (0 : ℚ) (vec [0, 0, 49, 49]) = 1 := by decide +kernel
  refine ⟨Fp.basisFuns (Ex.fl 53) jk 1 0 1 (vec [0, 0, 49, 49]), ?_, ?_, ?_⟩
  · unfold Fp.EvalBasisFuns
    rw [if_pos (by norm_num), if_neg (by norm_num), show (3 : ℤ) - (1 + 1) = 1 by norm_num, hs]
  · have e : Fp.basisFuns (Ex.fl 53) jk 1 0 1 (vec [0, 0, 49, 49]) 0 =
        Fp.add (Ex.fl 53) (some 0) (Fp.mul (Ex.fl 53) (Fp.sub (Ex.fl 53) (some 49) (some 0))
          (Fp.div (Ex.fl 53) (some 1) (Fp.add (Ex.fl 53) (Fp.sub (Ex.fl 53) (some 49) (some 0))
            (Fp.sub (Ex.fl 53) (some 0) (some 0))))) := rfl
    rw [e]
    decide +kernel
  · have e : Fp.basisFuns (Ex.fl 53) jk 1 0 1 (vec [0, 0, 49, 49]) 1 =
        Fp.mul (Ex.fl 53) (Fp.sub (Ex.fl 53) (some 0) (some 0))
          (Fp.div (Ex.fl 53) (some 1) (Fp.add (Ex.fl 53) (Fp.sub (Ex.fl 53) (some 49) (some 0))
            (Fp.sub (Ex.fl 53) (some 0) (some 0)))) := rfl
    rw [e]
    decide +kernel

/-! ## C72 -/

/-- C72: the points and fields of a NURBS object with positive weights, computed in floating point, differ from those of the exact
map by at most `2 m + 1` roundings of the largest control point, where `m = 6 (p₁ + … + p_d) + d + (p₁ + 1) ⋯ (p_d + 1)` -/
theorem C72_call {δ : K} {rd : K → K} (h0 : 0 ≤ δ) (hδ : δ < 1) (hr : RelErr δ rd) (jk : ℤ → Fp K) (je : ℤ → ℕ → Fp K)
    {N : Nrb K d} (hd : d ≤ 3) (hv : N.Valid) {r : Fin d → ℤ} {X : Fin d → ℤ → K} (hn : ∀ a, 0 ≤ r a)
    (hx : ∀ a i, 0 ≤ i → i ≤ r a → N.lo a ≤ X a i ∧ X a i ≤ N.hi a)
    (hw : ∀ idx, (∀ a, 0 ≤ idx a ∧ idx a < N.shape a) → 0 < N.P idx 3) {m : ℕ}
    (hm : m = 6 * (∑ a, (N.degree a).toNat) + d + ∏ a, ((N.degree a).toNat + 1)) :
    ∃ C, N.callF rd jk je r X = .ok C ∧ ∀ i : Fin d → ℤ, (∀ a, 0 ≤ i a ∧ i a ≤ r a) → ∀ (c : ℕ) (B : K),
      ((∀ idx, (∀ a, 0 ≤ idx a ∧ idx a < N.shape a) → |N.P idx c / N.P idx 3| ≤ B) →
        ∃ y, (C i).1 c = some y ∧ |y - N.proj (fun a => X a (i a)) c| ≤ (growth δ ^ (2 * m + 1) - 1) * B) ∧
      ((∀ idx, (∀ a, 0 ≤ idx a ∧ idx a < N.shape a) → |N.P idx (4 + c) / N.P idx 3| ≤ B) →
        ∃ y, (C i).2 c = some y ∧ |y - N.proj (fun a => X a (i a)) (4 + c)| ≤ (growth δ ^ (2 * m + 1) - 1) * B) := by
  have key : ∃ CF, Nrb.evaluateF rd jk je N r X = .ok CF := by
    match d, hd, N, r, X with
    | 0, _, _, _, _ => exact ⟨_, rfl⟩
    | 1, _, _, _, _ => exact ⟨_, rfl⟩
    | 2, _, _, _, _ => exact ⟨_, rfl⟩
    | 3, _, _, _, _ => exact ⟨_, rfl⟩
  obtain ⟨CF, hCF⟩ := key
  have main : ∀ i : Fin d → ℤ, (∀ a, 0 ≤ i a ∧ i a ≤ r a) → ∀ (c : ℕ) (B : K),
      (∀ idx, (∀ a, 0 ≤ idx a ∧ idx a < N.shape a) → |N.P idx c / N.P idx 3| ≤ B) →
      ∃ y, Fp.div rd (CF i c) (CF i 3) = some y ∧
        |y - N.proj (fun a => X a (i a)) c| ≤ (growth δ ^ (2 * m + 1) - 1) * B := by
    intro i hi c B hB
    have hin : N.InDom (fun a => X a (i a)) := fun a => hx a (i a) (hi a).1 (hi a).2
    have hsh : ∀ idx : Fin d → ℤ, (∀ a, 0 ≤ idx a ∧ idx a ≤ N.n a) → ∀ a, 0 ≤ idx a ∧ idx a < N.shape a := by
      intro idx h a
      have := h a
      unfold Nrb.n at this
      omega
    obtain ⟨CF', h1, h2⟩ := Nrb.evaluateF_close h0 hδ hr jk je hd hv (B := B) (c := c) (fun idx h => by
      have hw' := hw idx (hsh idx h)
      have hb := hB idx (hsh idx h)
      rw [abs_div, abs_of_pos hw', div_le_iff₀ hw'] at hb
      exact ⟨hw'.le, hb⟩) r X
    rw [hCF] at h1
    injection h1 with h1
    subst h1
    have hpos := N.eval_pos hv hin (c := 3) (fun idx h => hw idx (hsh idx h))
    have hB0 : 0 ≤ B := (abs_nonneg _).trans (hB 0 (fun a => ⟨le_rfl, by
      have := (hv a).le
      have := (hv a).one_le
      unfold Nrb.n at *
      show 0 < N.shape a
      omega⟩))
    rw [hm]
    exact (h2 i hi hin).div h0 hδ hr hB0 hpos
  unfold Nrb.callF
  rw [callArg_ok hn hx, hCF]
  exact ⟨_, rfl, fun i hi c B => ⟨main i hi c B, main i hi (4 + c) B⟩⟩

/-- `Ex.S`, of degree 2 × 2, in doubles: 71 roundings -/
example (jk : ℤ → Fp ℚ) (je : ℤ → ℕ → Fp ℚ) : ∃ C, Ex.S.callF (Ex.fl 53) jk je ![0, 0] ![fun _ => 1 / 3, fun _ => 1 / 7] = .ok C ∧
    ∃ y, (C ![0, 0]).1 0 = some y ∧ |y - Ex.S.proj ![1 / 3, 1 / 7] 0| ≤ 1 / 10 ^ 12 := by
  obtain ⟨C, h1, h2⟩ := C72_call (by positivity) (by norm_num) (Ex.fl_relErr 53) jk je (N := Ex.S) (by norm_num) Ex.S_valid
    (r := ![0, 0]) (X := ![fun _ => 1 / 3, fun _ => 1 / 7]) (fun a => by fin_cases a <;> exact le_rfl)
    (fun a i _ _ => by
      fin_cases a
      · exact ⟨(by norm_num : (0 : ℚ) ≤ 1 / 3), (by norm_num : (1 / 3 : ℚ) ≤ 3)⟩
      · exact ⟨(by norm_num : (0 : ℚ) ≤ 1 / 7), (by norm_num : (1 / 7 : ℚ) ≤ 1)⟩)
    (fun idx h => by
      show (0 : ℚ) < 1 + idx 1
      have : (0 : ℚ) ≤ idx 1 := by exact_mod_cast (h 1).1
      linarith) (m := 35) (by decide +kernel)
  obtain ⟨y, e1, e2⟩ := (h2 ![0, 0] (fun a => by fin_cases a <;> exact ⟨le_rfl, le_rfl⟩) 0 31).1 (fun idx h => by
    show |((((0 : ℕ) : ℚ) + 1) * idx 0 * idx 0 + idx 1 * 3 - ((0 : ℕ) : ℚ)) / (1 + idx 1)| ≤ 31
    have a1 : (0 : ℚ) ≤ idx 0 := by exact_mod_cast (h 0).1
    have a2 : (idx 0 : ℚ) ≤ 5 := by exact_mod_cast Int.le_of_lt_add_one (show idx 0 < 5 + 1 from (h 0).2)
    have a3 : (0 : ℚ) ≤ idx 1 := by exact_mod_cast (h 1).1
    rw [abs_of_nonneg (div_nonneg (by push_cast; nlinarith) (by linarith)), div_le_iff₀ (by linarith)]
    push_cast
    nlinarith)
  refine ⟨C, h1, y, e1, ?_⟩
  have e3 : (fun a => (![fun _ => 1 / 3, fun _ => 1 / 7] : Fin 2 → ℤ → ℚ) a ((![0, 0] : Fin 2 → ℤ) a)) = ![1 / 3, 1 / 7] := by
    funext a
    fin_cases a <;> rfl
  rw [e3] at e2
  refine e2.trans ?_
  have := growth_le (δ := (2 : ℚ) ^ (-((53 : ℕ) : ℤ))) (by positivity) (m := 2 * 35 + 1) (by norm_num)
  refine (mul_le_mul_of_nonneg_right this (by norm_num)).trans (by norm_num)

end Igakit
