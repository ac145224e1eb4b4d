import Verif.Props.FloatRotate
import Verif.Props.Ends

/-!
# Property C105: placing an object and evaluating it, all in floating point
-/

set_option linter.unusedSectionVars false

namespace Igakit
open Spec Transform

variable {K : Type} [Field K] [LinearOrder K] [IsStrictOrderedRing K] {d : ℕ}

/-- the points of an object with positive weights are in the box of its control points -/
theorem point_le {N : Nrb K d} (hv : N.Valid) (hw : ∀ idx, N.InNet idx → 0 < N.P idx 3) {j : Fin 3} {b : K}
    (hB : ∀ idx, N.InNet idx → |N.P idx j / N.P idx 3| ≤ b) {x : Fin d → K} (hx : N.InDom x) : |N.point x j| ≤ b := by
  have hmem : ∀ idx ∈ Fintype.piFinset (fun a => Finset.Icc 0 (N.n a)), N.InNet idx ∧ 0 ≤ N.wt x idx := by
    intro idx hi
    have hi : ∀ a, 0 ≤ idx a ∧ idx a ≤ N.n a := fun a => Finset.mem_Icc.mp (Fintype.mem_piFinset.mp hi a)
    refine ⟨fun a => ?_, Nrb.wt_nonneg hv hx hi⟩
    have := hi a
    unfold Nrb.n at this
    omega
  have hpos : 0 < N.eval x 3 := Nrb.eval_pos hv hx (fun idx hi => hw idx (fun a => by
    have := hi a
    unfold Nrb.n at this
    omega))
  unfold Nrb.point Nrb.proj
  rw [abs_div, abs_of_pos hpos, div_le_iff₀ hpos, Nrb.eval_apply, Nrb.eval_apply, Finset.mul_sum]
  refine (Finset.abs_sum_le_sum_abs _ _).trans (Finset.sum_le_sum fun idx hi => ?_)
  obtain ⟨m1, m2⟩ := hmem idx hi
  have p := hw idx m1
  have := hB idx m1
  rw [abs_div, abs_of_pos p, div_le_iff₀ p] at this
  have := mul_le_mul_of_nonneg_left this m2
  rw [show b * (N.wt x idx * N.P idx 3) = N.wt x idx * (b * N.P idx 3) by ring]
  change |N.wt x idx * N.P idx j| ≤ _
  rwa [abs_mul, abs_of_nonneg m2]

/-- C105: a chain of transformations by rounded affine matrices, applied to an object which is then evaluated, all in floating
point: the points differ from the image of the exact points under the exact transformations by at most
`2 m + 6 + 5 k + m₁ + … + m_k` roundings of the size of the result -/
theorem C105_call {δ : K} {rd : K → K} (h0 : 0 ≤ δ) (hδ : δ < 1) (hr : RelErr δ rd) (hone : rd 1 = 1) (jk : ℤ → Fp K)
    (je : ℤ → ℕ → Fp K) (l : List (Step K)) (hl : ∀ s ∈ l, ∀ i j, Carried δ s.m (s.rounded i j) (s.exact i j) (s.size i j))
    (ha : ∀ s ∈ l, IsAffine s.rounded) {A : Mat4 K} (hA : ChainF rd (l.map Step.rounded) A) {N L : Nrb K d} (hd : d ≤ 3)
    (hv : N.Valid) (h : N.TransformF rd A L) (hw : ∀ idx, N.InNet idx → 0 < N.P idx 3)
    (hf : ∀ idx, N.InNet idx → rd (N.P idx 3) = N.P idx 3) {B : Fin 3 → K}
    (hB : ∀ idx, N.InNet idx → ∀ j : Fin 3, |N.P idx j / N.P idx 3| ≤ B j) {r : Fin d → ℤ} {X : Fin d → ℤ → K}
    (hn : ∀ a, 0 ≤ r a) (hx : ∀ a i, 0 ≤ i → i ≤ r a → N.lo a ≤ X a i ∧ X a i ≤ N.hi a) {m : ℕ}
    (hm : m = 6 * (∑ a, (N.degree a).toNat) + d + ∏ a, ((N.degree a).toNat + 1)) :
    ∃ C, L.callF rd jk je r X = .ok C ∧ ∀ g : Fin d → ℤ, (∀ a, 0 ≤ g a ∧ g a ≤ r a) → ∀ i : Fin 3, ∃ y, (C g).1 i = some y ∧
      |y - affPart (l.map Step.exact).prod (N.point (fun a => X a (g a))) i| ≤
        (growth δ ^ (2 * m + 6 + (5 * l.length + (l.map Step.m).sum)) - 1) * reach (l.map Step.size).prod B i.castSucc := by
  have hAff : IsAffine A := C101_affine hr hone hA (by
    intro M hM
    obtain ⟨s, hs, rfl⟩ := List.mem_map.1 hM
    exact ha s hs)
  obtain ⟨C, c1, c2⟩ := C99_call h0 hδ hr jk je hd hv hAff h hw hf hB hn hx hm
  refine ⟨C, c1, fun g hg i => ?_⟩
  obtain ⟨y, y1, y2⟩ := c2 g hg i
  refine ⟨y, y1, ?_⟩
  have hin : N.InDom (fun a => X a (g a)) := fun a => hx a (g a) (hg a).1 (hg a).2
  have hvB : ∀ j, |N.point (fun a => X a (g a)) j| ≤ B j := fun j => point_le hv hw (fun idx hi => hB idx hi j) hin
  generalize N.point (fun a => X a (g a)) = v at *
  have k := C104_chain h0 hδ hr l hl hA i.castSucc
  generalize 5 * l.length + (l.map Step.m).sum = q at *
  generalize (l.map Step.exact).prod = E at *
  generalize (l.map Step.size).prod = S at *
  have cv : ∀ j, Carried δ 0 (v j) (v j) (B j) := fun j => ⟨hvB j, by simp⟩
  have b0 : ∀ j, 0 ≤ B j := fun j => (cv j).nonneg
  have e := (((((k 0).mul h0 hδ (cv 0)).add ((k 1).mul h0 hδ (cv 1))).add ((k 2).mul h0 hδ (cv 2))).add (k 3)).err
  rw [add_zero] at e
  change |affPart A v i - affPart E v i| ≤ _ at e
  have eS : reach S B i.castSucc = S i.castSucc 0 * B 0 + S i.castSucc 1 * B 1 + S i.castSucc 2 * B 2 + S i.castSucc 3 := by
    unfold reach
    rw [abs_of_nonneg (k 0).nonneg, abs_of_nonneg (k 1).nonneg, abs_of_nonneg (k 2).nonneg, abs_of_nonneg (k 3).nonneg]
    ring
  have eA : reach A B i.castSucc ≤ growth δ ^ q * reach S B i.castSucc := by
    rw [eS]
    unfold reach
    have t0 := mul_le_mul_of_nonneg_left (k 0).size (b0 0)
    have t1 := mul_le_mul_of_nonneg_left (k 1).size (b0 1)
    have t2 := mul_le_mul_of_nonneg_left (k 2).size (b0 2)
    linarith [(k 3).size]
  rw [← eS] at e
  have g6 := Fp.growth_pow h0 hδ (2 * m + 6)
  have t := mul_le_mul_of_nonneg_left eA (sub_nonneg.2 g6)
  have f := abs_sub_le y (affPart A v i) (affPart E v i)
  rw [show (growth δ ^ (2 * m + 6 + q) - 1) * reach S B i.castSucc = (growth δ ^ (2 * m + 6) - 1) *
    (growth δ ^ q * reach S B i.castSucc) + (growth δ ^ q - 1) * reach S B i.castSucc by rw [pow_add]; ring]
  linarith

/-- the unit vector of an axis is unique -/
theorem axis_unique {ax : List ℝ} {u v : Fin 3 → ℝ} (hu : IsAxis (.vec ax) u) (hv : IsAxis (.vec ax) v) : u = v := by
  cases hu with
  | vec _ _ r _ hr h1 hl =>
    cases hv with
    | vec _ _ r' _ hr' h1' hl' =>
      have e : ∀ i, r * u i = r' * v i := fun i => (hl i).symm.trans (hl' i)
      have rr : r = r' := by
        have : r ^ 2 = r' ^ 2 := by
          calc r ^ 2 = r * u 0 * (r * u 0) + r * u 1 * (r * u 1) + r * u 2 * (r * u 2) := by
                linear_combination (-r ^ 2) * h1
            _ = r' * v 0 * (r' * v 0) + r' * v 1 * (r' * v 1) + r' * v 2 * (r' * v 2) := by rw [e 0, e 1, e 2]
            _ = r' ^ 2 := by linear_combination (r' ^ 2) * h1'
        nlinarith
      funext i
      have := e i
      rw [← rr] at this
      exact mul_left_cancel₀ hr.ne' this

/-- C105: `nrb.rotate(angle, axis)` about a vector, then `nrb(u, …)`: the point is the exact point turned about the axis, up to
`2 m + 24` roundings -/
theorem C105_rotate {rd : ℝ → ℝ} {δ angle : ℝ} (h0 : 0 ≤ δ) (hδ : δ < 1) (hr : RelErr δ rd) (hone : rd 1 = 1) (jk : ℤ → Fp ℝ)
    (je : ℤ → ℕ → Fp ℝ) {ax : List ℝ} {u : Fin 3 → ℝ} (hu : IsAxis (.vec ax) u) {R' : Matrix (Fin 3) (Fin 3) ℝ}
    (hR' : RotF rd δ angle (.vec ax) R') {A : Mat4 ℝ} (hA : ChainF rd [embed3 R'] A) {N L : Nrb ℝ d} (hd : d ≤ 3)
    (hv : N.Valid) (h : N.TransformF rd A L) (hw : ∀ idx, N.InNet idx → 0 < N.P idx 3)
    (hf : ∀ idx, N.InNet idx → rd (N.P idx 3) = N.P idx 3) {B : Fin 3 → ℝ}
    (hB : ∀ idx, N.InNet idx → ∀ j : Fin 3, |N.P idx j / N.P idx 3| ≤ B j) {r : Fin d → ℤ} {X : Fin d → ℤ → ℝ}
    (hn : ∀ a, 0 ≤ r a) (hx : ∀ a i, 0 ≤ i → i ≤ r a → N.lo a ≤ X a i ∧ X a i ≤ N.hi a) {m : ℕ}
    (hm : m = 6 * (∑ a, (N.degree a).toNat) + d + ∏ a, ((N.degree a).toNat + 1)) :
    ∃ C, L.callF rd jk je r X = .ok C ∧ ∀ g : Fin d → ℤ, (∀ a, 0 ≤ g a ∧ g a ≤ r a) → ∀ i : Fin 3, ∃ y, (C g).1 i = some y ∧
      |y - rotVec angle u (N.point (fun a => X a (g a))) i| ≤ (growth δ ^ (2 * m + 24) - 1) *
        ∑ k, rotSize (Real.cos angle) (Real.sin angle) u i k * B k := by
  obtain ⟨v, hav, hRv, hc⟩ := C104_vector h0 hδ hr hR' (rotMat_ok hu angle)
  have huv : u = v := axis_unique hu hav
  subst huv
  obtain ⟨C, c1, c2⟩ := C105_call h0 hδ hr hone jk je [⟨embed3 R', embed3 (rodrigues (Real.cos angle) (Real.sin angle) u),
      embed3 (rotSize (Real.cos angle) (Real.sin angle) u), 13⟩]
    (fun s hs i j => by
      rw [List.mem_singleton.1 hs]
      exact carried_embed h0 hδ hc i j)
    (fun s hs => by
      rw [List.mem_singleton.1 hs]
      exact embed3_affine _) hA hd hv h hw hf hB hn hx hm
  refine ⟨C, c1, fun g hg i => ?_⟩
  obtain ⟨y, y1, y2⟩ := c2 g hg i
  refine ⟨y, y1, ?_⟩
  simp only [List.map_cons, List.map_nil, List.prod_cons, List.prod_nil, mul_one, List.sum_cons, List.sum_nil,
    List.length_cons, List.length_nil] at y2
  have hs : ∀ i j, 0 ≤ rotSize (Real.cos angle) (Real.sin angle) u i j := fun i j => (hc i j).nonneg
  have e1 : reach (embed3 (rotSize (Real.cos angle) (Real.sin angle) u)) B i.castSucc =
      ∑ k, rotSize (Real.cos angle) (Real.sin angle) u i k * B k := by
    have q : ∀ k : Fin 3, embed3 (rotSize (Real.cos angle) (Real.sin angle) u) i.castSucc k.castSucc =
        rotSize (Real.cos angle) (Real.sin angle) u i k := by
      intro k
      unfold embed3
      rw [dif_pos ⟨i.2, k.2⟩]
      rfl
    have q3 : embed3 (rotSize (Real.cos angle) (Real.sin angle) u) i.castSucc 3 = 0 := by
      unfold embed3
      rw [dif_neg (by simp), if_neg (fun hh => by
        have := congrArg Fin.val hh.1
        have := i.2
        simp at *
        omega)]
    unfold reach
    rw [Fin.sum_univ_three, ← abs_of_nonneg (hs i 0), ← abs_of_nonneg (hs i 1), ← abs_of_nonneg (hs i 2), ← q 0, ← q 1, ← q 2,
      q3, abs_zero]
    show _ = |embed3 _ i.castSucc 0| * B 0 + |embed3 _ i.castSucc 1| * B 1 + |embed3 _ i.castSucc 2| * B 2
    ring
  have e2 : affPart (embed3 (rodrigues (Real.cos angle) (Real.sin angle) u)) (N.point (fun a => X a (g a))) i =
      rotVec angle u (N.point (fun a => X a (g a))) i := by
    generalize N.point (fun a => X a (g a)) = p
    unfold affPart rotVec
    fin_cases i <;> simp [embed3, rodrigues] <;> ring
  rw [e1, e2] at y2
  exact y2

namespace Ex

/-- natural numbers below `2 ^ 53` are numbers of the machine -/
theorem flR_nat {n : ℕ} (hn : n < 2 ^ 53) : flR 53 n = n := by
  rcases Nat.eq_zero_or_pos n with rfl | h1
  · simp [flR]
  have hl : Nat.log 2 n < 53 := Nat.log_lt_of_lt_pow (by omega) hn
  obtain ⟨k, hk⟩ : ∃ k : ℕ, ((Nat.log 2 n : ℤ) + 1 - ((53 : ℕ) : ℤ)) = -(k : ℤ) := ⟨52 - Nat.log 2 n, by omega⟩
  unfold flR
  rw [abs_of_nonneg (by positivity), Int.log_natCast, hk, zpow_neg, zpow_natCast, div_inv_eq_mul,
    show (n : ℝ) * 2 ^ k = ((n * 2 ^ k : ℕ) : ℝ) by push_cast; ring, round_natCast]
  push_cast
  field_simp

/-- the surface `patch` turned by one radian about (1, 2, 2) and evaluated at four points, all with doubles: 76 roundings -/
example (jk : ℤ → Fp ℝ) (je : ℤ → ℕ → Fp ℝ) : ∃ R' A L C, RotF (flR 53) (2 ^ (-(53 : ℕ) : ℤ)) 1 (.vec [1, 2, 2]) R' ∧
    ChainF (flR 53) [embed3 R'] A ∧ patch.TransformF (flR 53) A L ∧
    L.callF (flR 53) jk je (fun _ => 1) (fun _ i => (i : ℝ) / 3) = .ok C ∧
    ∀ g : Fin 2 → ℤ, (∀ a, 0 ≤ g a ∧ g a ≤ 1) → ∀ i : Fin 3, ∃ y, (C g).1 i = some y ∧
      |y - rotVec 1 ![1 / 3, 2 / 3, 2 / 3] (patch.point (fun a => (g a : ℝ) / 3)) i| ≤
        (growth (2 ^ (-(53 : ℕ) : ℤ)) ^ 76 - 1) *
          ∑ k, rotSize (Real.cos 1) (Real.sin 1) ![1 / 3, 2 / 3, 2 / 3] i k * (![4, 1, 1] : Fin 3 → ℝ) k := by
  obtain ⟨R', h⟩ := (C104_accepts d53.1 d53.2 (flR_relErr 53) 1 (.vec [1, 2, 2])).2 ⟨_, rotMat_ok diag_axis 1⟩
  obtain ⟨A, hA⟩ := C101_total (flR 53) [embed3 R']
  have net : ∀ idx, patch.InNet idx → (0 ≤ idx 0 ∧ idx 0 < 3) ∧ 0 ≤ idx 1 ∧ idx 1 < 2 := fun idx hi => ⟨hi 0, hi 1⟩
  obtain ⟨C, c1, c2⟩ := C105_rotate (m := 26) d53.1 d53.2 (flR_relErr 53) (by exact_mod_cast flR_nat (n := 1) (by norm_num)) jk je
    diag_axis h hA (by norm_num) patch_valid (C99_total (flR 53) patch A) patch_pos (by
      intro idx hi
      obtain ⟨n, hn⟩ := Int.eq_ofNat_of_zero_le (net idx hi).1.1
      have hn3 := (net idx hi).1.2
      have := flR_nat (n := 1 + n) (by omega)
      show flR 53 (1 + (idx 0 : ℝ)) = 1 + (idx 0 : ℝ)
      rw [hn]
      push_cast at this ⊢
      exact this) (B := ![4, 1, 1]) (by
      intro idx hi j
      obtain ⟨⟨a1, a2⟩, b1, b2⟩ := net idx hi
      have p : (1 + (idx 0 : ℝ)) ≠ 0 := (patch_pos idx hi).ne'
      have q1 : (0 : ℝ) ≤ idx 0 := by exact_mod_cast a1
      have q2 : (idx 0 : ℝ) ≤ 2 := by exact_mod_cast (by omega : idx 0 ≤ 2)
      have q3 : (0 : ℝ) ≤ idx 1 := by exact_mod_cast b1
      have q4 : (idx 1 : ℝ) ≤ 1 := by exact_mod_cast (by omega : idx 1 ≤ 1)
      fin_cases j
      · show |(1 + (idx 0 : ℝ)) * ((idx 0 ^ 2 : ℤ) : ℝ) / (1 + (idx 0 : ℝ))| ≤ 4
        push_cast
        rw [mul_div_cancel_left₀ _ p, abs_of_nonneg (by positivity)]
        nlinarith
      · show |(1 + (idx 0 : ℝ)) * (idx 1 : ℝ) / (1 + (idx 0 : ℝ))| ≤ 1
        rw [mul_div_cancel_left₀ _ p, abs_of_nonneg q3]
        exact q4
      · show |(1 + (idx 0 : ℝ)) * (idx 1 : ℝ) / (1 + (idx 0 : ℝ))| ≤ 1
        rw [mul_div_cancel_left₀ _ p, abs_of_nonneg q3]
        exact q4) (r := fun _ => 1) (X := fun _ i => (i : ℝ) / 3) (fun _ => by norm_num) (by
      intro a i i0 i1
      have q1 : (0 : ℝ) ≤ i := by exact_mod_cast i0
      have q2 : (i : ℝ) ≤ 1 := by exact_mod_cast i1
      fin_cases a
      · show (if (2 : ℤ) ≤ 2 then (0 : ℝ) else 2) ≤ i / 3 ∧ (i : ℝ) / 3 ≤ if (3 : ℤ) ≤ 2 then (0 : ℝ) else 2
        norm_num
        constructor <;> linarith
      · show (if (1 : ℤ) ≤ 1 then (0 : ℝ) else 1) ≤ i / 3 ∧ (i : ℝ) / 3 ≤ if (2 : ℤ) ≤ 1 then (0 : ℝ) else 1
        norm_num
        constructor <;> linarith) (by
      rw [Fin.sum_univ_two, Fin.prod_univ_two]
      rfl)
  exact ⟨R', A, _, C, h, hA, C99_total _ _ _, c1, c2⟩

end Ex
end Igakit
