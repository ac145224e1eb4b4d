import Verif.Proofs.FloatComp

/-!
# Property C114: signs, relative errors and boxes of points in floating point
-/

set_option linter.unusedSectionVars false

namespace Igakit
open Spec

variable {K : Type} [Field K] [LinearOrder K] [IsStrictOrderedRing K] {d : ℕ}

/-- the exact map keeps within bounds of the control points -/
theorem proj_within {N : Nrb K d} (hv : N.Valid) {x : Fin d → K} (hx : N.InDom x)
    (hw : ∀ idx, (∀ a, 0 ≤ idx a ∧ idx a ≤ N.n a) → 0 < N.P idx 3) {c : ℕ} {l u : K}
    (hb : ∀ idx, (∀ a, 0 ≤ idx a ∧ idx a ≤ N.n a) → l ≤ N.P idx c / N.P idx 3 ∧ N.P idx c / N.P idx 3 ≤ u) :
    l ≤ N.proj x c ∧ N.proj x c ≤ u := by
  have hpos := N.eval_pos hv hx hw
  have hmem : ∀ idx ∈ Fintype.piFinset (fun a => Finset.Icc 0 (N.n a)), ∀ a, 0 ≤ idx a ∧ idx a ≤ N.n a :=
    fun idx h a => Finset.mem_Icc.1 (Fintype.mem_piFinset.1 h a)
  unfold Nrb.proj
  rw [le_div_iff₀ hpos, div_le_iff₀ hpos, N.eval_apply x c, N.eval_apply x 3, Finset.mul_sum, Finset.mul_sum]
  constructor
  · refine Finset.sum_le_sum fun idx h => ?_
    have h1 := (hb idx (hmem idx h)).1
    rw [le_div_iff₀ (hw idx (hmem idx h))] at h1
    have := mul_le_mul_of_nonneg_left h1 (Nrb.wt_nonneg hv hx (hmem idx h))
    linarith [mul_left_comm l (N.wt x idx) (N.P idx 3)]
  · refine Finset.sum_le_sum fun idx h => ?_
    have h1 := (hb idx (hmem idx h)).2
    rw [div_le_iff₀ (hw idx (hmem idx h))] at h1
    have := mul_le_mul_of_nonneg_left h1 (Nrb.wt_nonneg hv hx (hmem idx h))
    linarith [mul_left_comm u (N.wt x idx) (N.P idx 3)]

/-- C114: a coordinate which is negative in no control point is computed with a relative error of `2 m + 1` roundings, with `m` as in
C72: it is never negative, it is zero only where the exact one is, and it keeps within the bounds of the control points up to
these roundings. The same holds for fields. -/
theorem C114_relative {δ : K} {rd : K → K} (h0 : 0 ≤ δ) (hδ : δ < 1) (hr : RelErr δ rd) (jk : ℤ → Fp K) (je : ℤ → ℕ → Fp K)
    {N : Nrb K d} (hd : d ≤ 3) (hv : N.Valid) {r : Fin d → ℤ} {X : Fin d → ℤ → K} (hn : ∀ a, 0 ≤ r a)
    (hx : ∀ a i, 0 ≤ i → i ≤ r a → N.lo a ≤ X a i ∧ X a i ≤ N.hi a)
    (hw : ∀ idx, (∀ a, 0 ≤ idx a ∧ idx a < N.shape a) → 0 < N.P idx 3) {m : ℕ}
    (hm : m = 6 * (∑ a, (N.degree a).toNat) + d + ∏ a, ((N.degree a).toNat + 1)) :
    ∃ C, N.callF rd jk je r X = .ok C ∧ ∀ i : Fin d → ℤ, (∀ a, 0 ≤ i a ∧ i a ≤ r a) → ∀ (c k : ℕ) (v : Fp K),
      (k = c ∧ v = (C i).1 c ∨ k = 4 + c ∧ v = (C i).2 c) →
      (∀ idx, (∀ a, 0 ≤ idx a ∧ idx a < N.shape a) → 0 ≤ N.P idx k) →
        ∃ y, v = some y ∧ 0 ≤ y ∧
          |y - N.proj (fun a => X a (i a)) k| ≤ (growth δ ^ (2 * m + 1) - 1) * N.proj (fun a => X a (i a)) k ∧
          (0 < y ↔ 0 < N.proj (fun a => X a (i a)) k) ∧
          ∀ l u, (∀ idx, (∀ a, 0 ≤ idx a ∧ idx a < N.shape a) → l ≤ N.P idx k / N.P idx 3 ∧ N.P idx k / N.P idx 3 ≤ u) →
            l ≤ growth δ ^ (2 * m + 1) * y ∧ y ≤ growth δ ^ (2 * m + 1) * u := by
  have key : ∃ CF, Nrb.evaluateF rd jk je N r X = .ok CF := by
    match d, hd, N, r, X with
    | 0, _, _, _, _ => exact ⟨_, rfl⟩
    | 1, _, _, _, _ => exact ⟨_, rfl⟩
    | 2, _, _, _, _ => exact ⟨_, rfl⟩
    | 3, _, _, _, _ => exact ⟨_, rfl⟩
  obtain ⟨CF, hCF⟩ := key
  have hsh : ∀ idx : Fin d → ℤ, (∀ a, 0 ≤ idx a ∧ idx a ≤ N.n a) → ∀ a, 0 ≤ idx a ∧ idx a < N.shape a := by
    intro idx h a
    have := h a
    unfold Nrb.n at this
    omega
  have hρ := Fp.one_le_growth h0 hδ
  have hρ' : (0 : K) < growth δ ^ (2 * m + 1) := pow_pos (by linarith) _
  have main : ∀ i : Fin d → ℤ, (∀ a, 0 ≤ i a ∧ i a ≤ r a) → ∀ k : ℕ,
      (∀ idx, (∀ a, 0 ≤ idx a ∧ idx a < N.shape a) → 0 ≤ N.P idx k) →
        ∃ y, Fp.div rd (CF i k) (CF i 3) = some y ∧ 0 ≤ y ∧
          |y - N.proj (fun a => X a (i a)) k| ≤ (growth δ ^ (2 * m + 1) - 1) * N.proj (fun a => X a (i a)) k ∧
          (0 < y ↔ 0 < N.proj (fun a => X a (i a)) k) ∧
          ∀ l u, (∀ idx, (∀ a, 0 ≤ idx a ∧ idx a < N.shape a) → l ≤ N.P idx k / N.P idx 3 ∧ N.P idx k / N.P idx 3 ≤ u) →
            l ≤ growth δ ^ (2 * m + 1) * y ∧ y ≤ growth δ ^ (2 * m + 1) * u := by
    intro i hi k hk
    have hin : N.InDom (fun a => X a (i a)) := fun a => hx a (i a) (hi a).1 (hi a).2
    have hw' : ∀ idx, (∀ a, 0 ≤ idx a ∧ idx a ≤ N.n a) → 0 < N.P idx 3 := fun idx h => hw idx (hsh idx h)
    have hpos := N.eval_pos hv hin (c := 3) hw'
    have c1 := Nrb.evaluateF_rel h0 hδ hr jk je hd hv hCF (c := k) (fun idx h => hk idx (hsh idx h)) hi hin
    have c2 := Nrb.evaluateF_rel h0 hδ hr jk je hd hv hCF (c := 3) (fun idx h => (hw' idx h).le) hi hin
    rw [← hm] at c1 c2
    have c3 := c1.div h0 hδ hr c2 hpos
    rw [show m + m + 1 = 2 * m + 1 from by ring] at c3
    obtain ⟨y, e, y0, p0, near⟩ := c3
    refine ⟨y, e, y0, near.abs hρ p0, ⟨fun h => ?_, fun h => near.pos hρ h⟩, fun l u hb => ?_⟩
    · by_contra hneg
      have : N.eval (fun a => X a (i a)) k / N.eval (fun a => X a (i a)) 3 = 0 := le_antisymm (not_lt.1 hneg) p0
      have h1 := near.1
      rw [this, mul_zero] at h1
      linarith
    · obtain ⟨b1, b2⟩ := proj_within hv hin hw' (fun idx h => hb idx (hsh idx h))
      exact ⟨b1.trans near.2, near.1.trans (mul_le_mul_of_nonneg_left b2 hρ'.le)⟩
  unfold Nrb.callF
  rw [callArg_ok hn hx, hCF]
  refine ⟨_, rfl, fun i hi c k v hkv hk => ?_⟩
  rcases hkv with ⟨rfl, rfl⟩ | ⟨rfl, rfl⟩
  · exact main i hi _ hk
  · exact main i hi _ hk

/-- C114: coordinates of any sign keep within bounds of the control points up to `2 m + 1` roundings of the larger bound -/
theorem C114_box {δ : K} {rd : K → K} (h0 : 0 ≤ δ) (hδ : δ < 1) (hr : RelErr δ rd) (jk : ℤ → Fp K) (je : ℤ → ℕ → Fp K)
    {N : Nrb K d} (hd : d ≤ 3) (hv : N.Valid) {r : Fin d → ℤ} {X : Fin d → ℤ → K} (hn : ∀ a, 0 ≤ r a)
    (hx : ∀ a i, 0 ≤ i → i ≤ r a → N.lo a ≤ X a i ∧ X a i ≤ N.hi a)
    (hw : ∀ idx, (∀ a, 0 ≤ idx a ∧ idx a < N.shape a) → 0 < N.P idx 3) {m : ℕ}
    (hm : m = 6 * (∑ a, (N.degree a).toNat) + d + ∏ a, ((N.degree a).toNat + 1)) :
    ∃ C, N.callF rd jk je r X = .ok C ∧ ∀ i : Fin d → ℤ, (∀ a, 0 ≤ i a ∧ i a ≤ r a) → ∀ (c k : ℕ) (v : Fp K),
      (k = c ∧ v = (C i).1 c ∨ k = 4 + c ∧ v = (C i).2 c) → ∀ l u,
      (∀ idx, (∀ a, 0 ≤ idx a ∧ idx a < N.shape a) → l ≤ N.P idx k / N.P idx 3 ∧ N.P idx k / N.P idx 3 ≤ u) →
        ∃ y, v = some y ∧ l - (growth δ ^ (2 * m + 1) - 1) * max |l| |u| ≤ y ∧ y ≤ u + (growth δ ^ (2 * m + 1) - 1) * max |l| |u| := by
  obtain ⟨C, h1, h2⟩ := C72_call h0 hδ hr jk je hd hv hn hx hw hm
  refine ⟨C, h1, fun i hi c k v hkv l u hb => ?_⟩
  have hin : N.InDom (fun a => X a (i a)) := fun a => hx a (i a) (hi a).1 (hi a).2
  have hsh : ∀ idx : Fin d → ℤ, (∀ a, 0 ≤ idx a ∧ idx a ≤ N.n a) → ∀ a, 0 ≤ idx a ∧ idx a < N.shape a := by
    intro idx h a
    have := h a
    unfold Nrb.n at this
    omega
  obtain ⟨b1, b2⟩ := proj_within hv hin (fun idx h => hw idx (hsh idx h)) (fun idx h => hb idx (hsh idx h))
  have hB : ∀ idx, (∀ a, 0 ≤ idx a ∧ idx a < N.shape a) → |N.P idx k / N.P idx 3| ≤ max |l| |u| :=
    fun idx h => abs_le_max_abs_abs (hb idx h).1 (hb idx h).2
  rcases hkv with ⟨rfl, rfl⟩ | ⟨rfl, rfl⟩
  · obtain ⟨y, e, hy⟩ := (h2 i hi _ _).1 hB
    have := abs_le.1 hy
    exact ⟨y, e, by linarith, by linarith⟩
  · obtain ⟨y, e, hy⟩ := (h2 i hi _ _).2 hB
    have := abs_le.1 hy
    exact ⟨y, e, by linarith, by linarith⟩

/-- `Ex.S` in doubles: the first coordinate is negative in no control point -/
example (jk : ℤ → Fp ℚ) (je : ℤ → ℕ → Fp ℚ) : ∃ C, Ex.S.callF (Ex.fl 53) jk je ![0, 0] ![fun _ => 1 / 3, fun _ => 1 / 7] = .ok C ∧
    ∃ y, (C ![0, 0]).1 0 = some y ∧ 0 ≤ y ∧ y ≤ 26 := by
  obtain ⟨C, h1, h2⟩ := C114_relative (by positivity) (by norm_num) (Ex.fl_relErr 53) jk je (N := Ex.S) (by norm_num) Ex.S_valid
    (r := ![0, 0]) (X := ![fun _ => 1 / 3, fun _ => 1 / 7]) (fun a => by fin_cases a <;> exact le_rfl)
    (fun a i _ _ => by
      fin_cases a
      · exact ⟨(by norm_num : (0 : ℚ) ≤ 1 / 3), (by norm_num : (1 / 3 : ℚ) ≤ 3)⟩
      · exact ⟨(by norm_num : (0 : ℚ) ≤ 1 / 7), (by norm_num : (1 / 7 : ℚ) ≤ 1)⟩)
    (fun idx h => by
      show (0 : ℚ) < 1 + idx 1
      have : (0 : ℚ) ≤ idx 1 := by exact_mod_cast (h 1).1
      linarith) (m := 35) (by decide +kernel)
  have hP : ∀ idx : Fin 2 → ℤ, Ex.S.P idx 0 = (idx 0 : ℚ) * idx 0 + idx 1 * 3 := fun idx => by
    show (((0 : ℕ) : ℚ) + 1) * idx 0 * idx 0 + idx 1 * 3 - ((0 : ℕ) : ℚ) = _
    push_cast
    ring
  obtain ⟨y, e1, e2, -, -, e3⟩ := h2 ![0, 0] (fun a => by fin_cases a <;> exact ⟨le_rfl, le_rfl⟩) 0 0 _ (Or.inl ⟨rfl, rfl⟩)
    (fun idx h => by
      have a3 : (0 : ℚ) ≤ idx 1 := by exact_mod_cast (h 1).1
      rw [hP]
      nlinarith)
  refine ⟨C, h1, y, e1, e2, ?_⟩
  have := (e3 0 25 (fun idx h => by
    have a1 : (0 : ℚ) ≤ idx 0 := by exact_mod_cast (h 0).1
    have a2 : (idx 0 : ℚ) ≤ 5 := by exact_mod_cast Int.le_of_lt_add_one (show idx 0 < 5 + 1 from (h 0).2)
    have a3 : (0 : ℚ) ≤ idx 1 := by exact_mod_cast (h 1).1
    rw [hP, show Ex.S.P idx 3 = 1 + (idx 1 : ℚ) from rfl]
    exact ⟨div_nonneg (by nlinarith) (by linarith), by rw [div_le_iff₀ (by linarith)]; nlinarith⟩)).2
  have hg := growth_le (δ := (2 : ℚ) ^ (-((53 : ℕ) : ℤ))) (by positivity) (m := 2 * 35 + 1) (by norm_num)
  refine this.trans ?_
  have hs := hg.trans (by norm_num : _ ≤ (1 / 25 : ℚ))
  exact (mul_le_mul_of_nonneg_right (sub_le_iff_le_add.1 hs) (by norm_num)).trans (by norm_num)

end Igakit
