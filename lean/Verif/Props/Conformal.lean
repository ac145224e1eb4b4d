import Verif.Model.Conformal
import Verif.Props.AssembleNEx

/-!
# Property C93: the conformality error computed by `demo/conformal.py`
-/

set_option linter.unusedSectionVars false

namespace Igakit
open Spec MeasureTheory

/-- the squared sum of the Cauchy-Riemann equations of the surface at `x` -/
noncomputable def Spec.cauchyRiemann (N : Nrb ℝ 2) (x : Fin 2 → ℝ) : ℝ :=
  (pdo [0] (fun y => N.proj y 0) x - pdo [1] (fun y => N.proj y 1) x) ^ 2 +
    (pdo [1] (fun y => N.proj y 0) x + pdo [0] (fun y => N.proj y 1) x) ^ 2

theorem sum_pi2 {α M : Type} [DecidableEq α] [AddCommMonoid M] (s : Fin 2 → Finset α) (F : (Fin 2 → α) → M) :
    ∑ e ∈ Fintype.piFinset s, F e = ∑ i ∈ s 0, ∑ j ∈ s 1, F ![i, j] := by
  rw [← Finset.sum_product']
  refine Finset.sum_bij' (fun e _ => (e 0, e 1)) (fun q _ => ![q.1, q.2]) ?_ ?_ ?_ ?_ ?_
  · intro e h
    exact Finset.mem_product.2 ⟨Fintype.mem_piFinset.1 h 0, Fintype.mem_piFinset.1 h 1⟩
  · intro q h
    have h := Finset.mem_product.1 h
    refine Fintype.mem_piFinset.2 fun a => ?_
    fin_cases a
    · exact h.1
    · exact h.2
  · intro e _
    funext a
    fin_cases a <;> rfl
  · intro q _; rfl
  · intro e _
    congr 1
    funext a
    fin_cases a <;> rfl

/-- the sums of the program are the local sums -/
theorem conf_total {K : Type} [Field K] (B : Fin 2 → QuadData K) (p : Fin 2 → ℕ) (eu ev qu qv l m : ℕ) (P : (Fin 2 → ℤ) → K) :
    Conf.total (B 0) (B 1) (p 0) (p 1) eu ev qu qv l m (fun i j => P ![(B 0).O eu + i, (B 1).O ev + j]) =
      localSum B p ![l, m] P ![eu, ev] ![qu, qv] := by
  unfold Conf.total localSum
  rw [sum_pi2]
  refine Finset.sum_congr rfl fun i _ => Finset.sum_congr rfl fun j _ => ?_
  rw [Fin.prod_univ_two]
  have : (fun a => (B a).O (![eu, ev] a) + (![i, j] a : ℕ)) = ![(B 0).O eu + i, (B 1).O ev + j] := by
    funext a
    fin_cases a <;> rfl
  rw [this]
  rfl

/-- C93: for surfaces with equal weights `w` and elements of equal size `h 0` by `h 1` the square of the returned number is the
integral of the squared Cauchy-Riemann equations times `w ^ 2 * (h 0 / h 1)`, up to the error of the quadrature. -/
theorem C93_value {eps : ℝ} (heps : 0 ≤ eps) (jo : Fin 2 → ℤ → ℤ) (jk : Fin 2 → ℤ → ℝ) (j2 ja jd : Fin 2 → ℤ → ℤ → ℝ)
    {N : Nrb ℝ 2} (hN : N.Valid) (hp : ∀ a, N.degree a ≤ 9) {w : ℝ} (hw0 : 0 < w) (hw : ∀ idx, N.InNet idx → N.P idx 3 = w)
    {h : Fin 2 → ℝ} {m : ℝ} (hh : ∀ a, eps < h a)
    (hlen : ∀ a k, N.degree a ≤ k → k ≤ N.n a → N.U a k < N.U a (k + 1) → N.U a (k + 1) - N.U a k = h a)
    (hm : ∀ idx, N.InNet idx → ∀ i : Fin 2, |N.P idx i| ≤ m) :
    ∃ r, conformalProjectionError eps jo jk j2 ja jd N = .ok r ∧ 0 ≤ r ∧
      |r ^ 2 - w ^ 2 * (h 0 / h 1) * ∫ x in N.box, cauchyRiemann N x| ≤ h 0 / h 1 * (
        2 * (m * (∏ a, (((N.degree a).toNat + 1) * 2 ^ (N.degree a).toNat)) *
          (2 * (N.degree 0).toNat / h 0 + 2 * (N.degree 1).toNat / h 1)) ^ 2 * ((1 + 3 / 2 / 10 ^ 36) ^ 2 - 1) *
          ∏ a, (N.hi a - N.lo a)) := by
  have h0 : ∀ a, 0 < h a := fun a => lt_of_le_of_lt heps (hh a)
  have hdeg : ∀ a, ((N.degree a).toNat : ℤ) = N.degree a := fun a => Int.toNat_of_nonneg (by have := (hN a).one_le; omega)
  have hhi : ∀ a, N.hi a = N.U a (N.n a + 1) := N.hi_eq
  have hmm : ∀ a, N.len a - 1 = N.n a + (N.degree a).toNat + 1 := by
    intro a
    rw [hdeg]
    show N.len a - 1 = N.n a + (N.len a - 1 - N.n a - 1) + 1
    ring
  have hnet : ∀ idx : Fin 2 → ℤ, (∀ a, 0 ≤ idx a ∧ idx a ≤ N.n a) → N.InNet idx := by
    intro idx h a
    have := h a
    unfold Nrb.n at this
    omega
  have hone : ∀ x, N.InDom x → N.eval x 3 = w := by
    intro x hx
    rw [Nrb.eval_apply, Finset.sum_congr rfl fun idx h => by
      rw [hw idx (hnet idx fun a => Finset.mem_Icc.1 (Fintype.mem_piFinset.1 h a))], ← Finset.sum_mul, Nrb.wt_sum hN hx, one_mul]
  have hdata : ∀ a, ∃ B : QuadData ℝ, BasisData eps (jo a) (jk a) (j2 a) (ja a) (jd a) (N.degree a) (N.len a - 1) (N.U a) none none = .ok B ∧
      IsQuad eps (N.n a) (N.degree a).toNat (N.U a) (N.degree a).toNat ((N.degree a).toNat + 1) B := by
    intro a
    have hv : ValidKnots (N.n a) (N.degree a).toNat (N.U a) := by rw [hdeg]; exact hN a
    have := C92_data heps (jo a) (jk a) (j2 a) (ja a) (jd a) hv (fun k k1 k2 k3 => by
      rw [hlen a k (by rw [← hdeg]; exact k1) k2 k3]; exact hh a) (d := none) (q := none) (D := (N.degree a).toNat)
      (Q := (N.degree a).toNat + 1) rfl le_rfl (by simp) (by omega) (by have := hp a; omega)
    rw [hdeg, ← hdeg, ← hmm a, hdeg] at this
    exact this
  choose B hB hQ using hdata
  refine ⟨_, by unfold conformalProjectionError; rw [hB 0, hB 1]; rfl, Real.sqrt_nonneg _, ?_⟩
  set p : Fin 2 → ℕ := fun a => (N.degree a).toNat with hpdef
  have hp1 : ∀ a, 1 ≤ p a := fun a => by have := (hN a).one_le; have := hdeg a; simp only [hpdef]; omega
  -- the derivatives at the points
  have hpt : ∀ eu < (B 0).r.toNat, ∀ ev < (B 1).r.toNat, ∀ qu < p 0 + 1, ∀ qv < p 1 + 1,
      (∀ c, Conf.dX (B 0) (B 1) (p 0) (p 1) (fun i j c => N.P ![i, j] c) eu ev qu qv 1 0 c =
        pdo [0] (fun y => N.eval y c) fun a => (B a).X (![eu, ev] a) (![qu, qv] a)) ∧
      (∀ c, Conf.dX (B 0) (B 1) (p 0) (p 1) (fun i j c => N.P ![i, j] c) eu ev qu qv 0 1 c =
        pdo [1] (fun y => N.eval y c) fun a => (B a).X (![eu, ev] a) (![qu, qv] a)) := by
    intro eu heu ev hev qu hqu qv hqv
    have he : ∀ a, ![eu, ev] a < (B a).r.toNat := by intro a; fin_cases a; exacts [heu, hev]
    have hg : ∀ a, ![qu, qv] a < p a + 1 := by intro a; fin_cases a; exacts [hqu, hqv]
    choose k hk using fun a => (hQ a).inside heps (he a) (hg a)
    have hin : ∀ a, N.lo a < (B a).X (![eu, ev] a) (![qu, qv] a) ∧ (B a).X (![eu, ev] a) (![qu, qv] a) < N.hi a := by
      intro a
      obtain ⟨k1, k2, k3, k4, k5, k6, k7, k8, _⟩ := hk a
      have o1 := (hN a).one_le
      have o2 := (hN a).le
      rw [hdeg] at k1
      have s1 : N.lo a ≤ N.U a (k a) := (hN a).sorted (N.degree a) (k a) (by omega) k1 (by omega)
      have s2 : N.U a (k a + 1) ≤ N.hi a := by rw [hhi]; exact (hN a).sorted _ _ (by omega) (by omega) (by omega)
      exact ⟨lt_of_le_of_lt s1 k7, lt_of_lt_of_le k8 s2⟩
    have hW0 : localSum B p ![0, 0] (fun idx => N.P idx 3) ![eu, ev] ![qu, qv] = w := by
      have := C92_partials heps hQ [] (fun a => Nat.zero_le _) 3 he hg
      rw [show (fun a : Fin 2 => ([] : List (Fin 2)).count a) = ![0, 0] by funext a; fin_cases a <;> rfl] at this
      rw [this]
      exact hone _ fun a => ⟨(hin a).1.le, (hin a).2.le⟩
    have hcnt : ∀ j : Fin 2, (fun a : Fin 2 => [j].count a) = ![if j = 0 then 1 else 0, if j = 0 then 0 else 1] := by
      intro j; funext a; fin_cases j <;> fin_cases a <;> rfl
    have hpart : ∀ (j : Fin 2) (c : ℕ), localSum B p ![if j = 0 then 1 else 0, if j = 0 then 0 else 1] (fun idx => N.P idx c) ![eu, ev] ![qu, qv] =
        pdo [j] (fun y => N.eval y c) fun a => (B a).X (![eu, ev] a) (![qu, qv] a) := by
      intro j c
      rw [← hcnt j]
      refine C92_partials heps hQ [j] (fun a => ?_) c he hg
      have := hp1 a
      have h2 : [j].count a ≤ 1 := by rw [List.count_singleton]; split_ifs <;> omega
      exact h2.trans this
    have hW1 : ∀ j : Fin 2, localSum B p ![if j = 0 then 1 else 0, if j = 0 then 0 else 1] (fun idx => N.P idx 3) ![eu, ev] ![qu, qv] = 0 := by
      intro j
      rw [hpart, pdo_congr_box (lo := N.lo) (hi := N.hi) (f' := fun _ => w) (fun y hy => hone y hy) j hin]
      simp [pdo]
    have hdX : ∀ (j : Fin 2) (c : ℕ), Conf.dX (B 0) (B 1) (p 0) (p 1) (fun i j c => N.P ![i, j] c) eu ev qu qv
        (if j = 0 then 1 else 0) (if j = 0 then 0 else 1) c = pdo [j] (fun y => N.eval y c) fun a => (B a).X (![eu, ev] a) (![qu, qv] a) := by
      intro j c
      rw [← hpart, ← conf_total]
      unfold Conf.dX Conf.total
      refine Finset.sum_congr rfl fun i hi => Finset.sum_congr rfl fun i' hi' => ?_
      have hwt : N.P ![(B 0).O eu + i, (B 1).O ev + i'] 3 = w := by
        refine hw _ (hnet _ fun a => ?_)
        have hi := Finset.mem_range.1 hi
        have hi' := Finset.mem_range.1 hi'
        obtain ⟨k1, k2, k3, k4, _⟩ := hk a
        fin_cases a
        · change (B 0).O eu = _ at k4
          change 0 ≤ (B 0).O eu + (i : ℤ) ∧ (B 0).O eu + (i : ℤ) ≤ N.n 0
          change _ ≤ N.n 0 at k2
          change ((p 0 : ℕ) : ℤ) ≤ k 0 at k1
          change (B 0).O eu = k 0 - (p 0 : ℕ) at k4
          change k 0 ≤ N.n 0 at k2
          omega
        · change (B 1).O ev = _ at k4
          change 0 ≤ (B 1).O ev + (i' : ℤ) ∧ (B 1).O ev + (i' : ℤ) ≤ N.n 1
          change ((p 1 : ℕ) : ℤ) ≤ k 1 at k1
          change (B 1).O ev = k 1 - (p 1 : ℕ) at k4
          change k 1 ≤ N.n 1 at k2
          omega
      unfold Conf.dR
      dsimp only
      rw [conf_total B p eu ev qu qv 0 0 (fun idx => N.P idx 3), hW0,
        conf_total B p eu ev qu qv _ _ (fun idx => N.P idx 3), hW1 j, hwt]
      field_simp
      ring
    exact ⟨fun c => hdX 0 c, fun c => hdX 1 c⟩
  set f : (Fin 2 → ℝ) → ℝ := fun x => (pdo [0] (fun y => N.eval y 0) x - pdo [1] (fun y => N.eval y 1) x) ^ 2 +
    (pdo [1] (fun y => N.eval y 0) x + pdo [0] (fun y => N.eval y 1) x) ^ 2 with hf
  have e1 : Conf.error (B 0) (B 1) (p 0) (p 1) (fun i j c => N.P ![i, j] c) =
      h 0 / h 1 * patchSumN B (fun a => p a + 1) f := by
    unfold Conf.error patchSumN
    rw [sum_pi2, Finset.mul_sum]
    refine Finset.sum_congr rfl fun eu heu => ?_
    rw [Finset.mul_sum]
    refine Finset.sum_congr rfl fun ev hev => ?_
    rw [sum_pi2, Finset.mul_sum]
    refine Finset.sum_congr rfl fun qu hqu => ?_
    rw [Finset.mul_sum]
    refine Finset.sum_congr rfl fun qv hqv => ?_
    have heu := Finset.mem_range.1 heu
    have hev := Finset.mem_range.1 hev
    have hqu := Finset.mem_range.1 hqu
    have hqv := Finset.mem_range.1 hqv
    obtain ⟨a1, a2⟩ := hpt eu heu ev hev qu hqu qv hqv
    have hJ : (B 0).J eu = h 0 / h 1 * (B 1).J ev := by
      have : ∀ a (e : ℕ), e < (B a).r.toNat → (B a).J e = h a / 2 := by
        intro a e he
        obtain ⟨l, hl, hm, hr, hW, hE⟩ := (hQ a).raw heps
        have he' : e < l.length := by omega
        obtain ⟨k1, k2, k3⟩ := (hm _).1 (List.getElem_mem he')
        rw [(hE e he').2.1, hlen a _ (by rw [← hdeg]; exact k1) k2 k3]
      rw [this 0 eu heu, this 1 ev hev]
      have := (h0 1).ne'
      field_simp
    dsimp only
    rw [a1, a1, a2, a2, hf, Fin.prod_univ_two, mul_comm, ← mul_assoc]
    congr 1
    show (B 0).J eu * (B 0).J eu * (B 0).W qu * (B 1).W qv = h 0 / h 1 * ((B 0).J eu * (B 0).W qu * ((B 1).J ev * (B 1).W qv))
    rw [show ∀ x y z : ℝ, x * x * y * z = x * (x * y * z) from fun x y z => by ring]
    nth_rw 1 [hJ]
    ring
  have hbox : N.box = Set.univ.pi fun a => Set.Icc (N.U a (p a)) (N.U a (N.n a + 1)) := by
    unfold Nrb.box
    simp only [hpdef, hdeg, hhi]
    rfl
  have e2 : w ^ 2 * ∫ x in N.box, cauchyRiemann N x = ∫ x in N.box, f x := by
    have hae : (Set.univ.pi fun a => Set.Ioo (N.lo a) (N.hi a)) =ᵐ[volume] N.box := by
      unfold Nrb.box
      rw [volume_pi]
      exact Measure.pi_Ioo_ae_eq_pi_Icc
    rw [← integral_const_mul, ← setIntegral_congr_set hae, ← setIntegral_congr_set hae]
    refine setIntegral_congr_fun (MeasurableSet.univ_pi fun _ => measurableSet_Ioo) fun x hx => ?_
    have : ∀ (c : ℕ) (j : Fin 2), w * pdo [j] (fun y => N.proj y c) x = pdo [j] (fun y => N.eval y c) x := by
      intro c j
      have : pdo [j] (fun y => N.proj y c) x = pdo [j] (fun y => N.eval y c / w) x := by
        refine pdo_congr_box (lo := N.lo) (hi := N.hi) (fun y hy => ?_) j fun a => hx a (Set.mem_univ a)
        unfold Nrb.proj
        rw [hone y hy]
      rw [this]
      simp only [pdo]
      rw [deriv_div_const]
      field_simp
    rw [hf]
    dsimp only
    rw [← this, ← this, ← this, ← this]
    unfold cauchyRiemann
    ring
  have hnn : 0 ≤ Conf.error (B 0) (B 1) (p 0) (p 1) (fun i j c => N.P ![i, j] c) := by
    unfold Conf.error
    refine Finset.sum_nonneg fun eu heu => Finset.sum_nonneg fun ev hev => Finset.sum_nonneg fun qu hqu =>
      Finset.sum_nonneg fun qv hqv => mul_nonneg (by positivity) ?_
    obtain ⟨_, _, _, _, _, _, w1, _⟩ := (hQ 0).inside heps (Finset.mem_range.1 heu) (Finset.mem_range.1 hqu)
    obtain ⟨_, _, _, _, _, _, w2, _⟩ := (hQ 1).inside heps (Finset.mem_range.1 hev) (Finset.mem_range.1 hqv)
    have := mul_self_nonneg ((B 0).J eu)
    positivity
  rw [Real.sq_sqrt hnn, e1, show w ^ 2 * (h 0 / h 1) * ∫ x in N.box, cauchyRiemann N x =
    h 0 / h 1 * (w ^ 2 * ∫ x in N.box, cauchyRiemann N x) by ring, e2, ← mul_sub, abs_mul, abs_of_pos (div_pos (h0 0) (h0 1)), hbox]
  refine mul_le_mul_of_nonneg_left ?_ (div_pos (h0 0) (h0 1)).le
  have e3 : ∏ a, (N.hi a - N.lo a) = ∏ a, (N.U a (N.n a + 1) - N.U a (p a)) := by
    simp only [hpdef, hdeg, hhi]
    rfl
  rw [e3]
  refine (C92_integral heps hQ fun k hk => ⟨fun a => p a + p a, fun a => by show p a + p a < 2 * (p a + 1); omega, ?_⟩).2
  have hc : ∀ (i j : Fin 2), CellPoly N.U k p (m * (∏ a, ((p a + 1) * 2 ^ p a)) * (2 * p j / h j))
      (fun x => pdo [j] (fun y => N.eval y i) x) := by
    intro i j
    have hl : ∀ a, h a ≤ N.U a (k a + 1) - N.U a (k a) := fun a =>
      (hlen a (k a) (by rw [← hdeg]; exact (hk a).1) (hk a).2.1 (hk a).2.2).ge
    have := tensorD_cell (fun a => (hQ a).valid) h0 hk hl
      (fun a => if a = j then 1 else 0) (P := fun idx => N.P idx i) (m := m) (fun idx h => hm idx (hnet idx h) i)
    refine (this.congr (f' := fun x => pdo [j] (fun y => N.eval y i) x) (fun a => (hk a).2.2) fun x hx => ?_).mono
      (fun a => Nat.sub_le _ _) (le_of_eq ?_)
    · have e1 : (fun y => N.eval y i) = tensor N.n (fun a => (N.degree a).toNat) N.U fun idx => N.P idx i := by
        funext y; unfold Nrb.eval; exact tensor_apply _ _ _
      rw [e1, pdo_tensor (fun a => (hQ a).valid) _ (k := k) (fun a => ⟨(hk a).1, (hk a).2.1⟩) [j] _ hx]
      congr 1
      funext a
      fin_cases j <;> fin_cases a <;> rfl
    · rw [mul_assoc]
      congr 1
      simp only [Fin.prod_univ_two, hpdef]
      fin_cases j <;> simp <;> ring
  have hsub : CellPoly N.U k p (m * (∏ a, ((p a + 1) * 2 ^ p a)) * (2 * p 0 / h 0) + |(-1 : ℝ)| * (m * (∏ a, ((p a + 1) * 2 ^ p a)) * (2 * p 1 / h 1)))
      (fun x => pdo [0] (fun y => N.eval y 0) x - pdo [1] (fun y => N.eval y 1) x) := by
    have := (hc 0 0).add (((CellPoly.const N.U k (-1)).mul (hc 1 1)).mono (D' := p) (fun a => by simp) le_rfl)
    refine this.congr (fun a => (hk a).2.2) fun x _ => ?_
    simp only [Fin.val_zero, Fin.val_one]
    ring
  have hadd := (hc 0 1).add (hc 1 0)
  have := (hsub.mul hsub).add (hadd.mul hadd)
  refine (this.congr (f' := f) (fun a => (hk a).2.2) fun x _ => ?_).mono (fun a => le_rfl) (le_of_eq ?_)
  · rw [hf]
    simp only [Fin.val_zero, Fin.val_one]
    ring
  · rw [abs_neg, abs_one]
    ring

/-- C93: for surfaces without weights all of whose elements are squares of the same size the square of the returned number is
the integral of the squared Cauchy-Riemann equations, up to the error of the quadrature.  The claim of the documentation is
the same for all surfaces; it is false for elements that are not squares and for weights other than 1
(`C93_elements`, `C93_weights`). -/
theorem C93_conformal_partial {eps : ℝ} (heps : 0 ≤ eps) (jo : Fin 2 → ℤ → ℤ) (jk : Fin 2 → ℤ → ℝ) (j2 ja jd : Fin 2 → ℤ → ℤ → ℝ)
    {N : Nrb ℝ 2} (hN : N.Valid) (hp : ∀ a, N.degree a ≤ 9) (hw : ∀ idx, N.InNet idx → N.P idx 3 = 1) {h m : ℝ} (hh : eps < h)
    (hlen : ∀ a k, N.degree a ≤ k → k ≤ N.n a → N.U a k < N.U a (k + 1) → N.U a (k + 1) - N.U a k = h)
    (hm : ∀ idx, N.InNet idx → ∀ i : Fin 2, |N.P idx i| ≤ m) :
    ∃ r, conformalProjectionError eps jo jk j2 ja jd N = .ok r ∧ 0 ≤ r ∧
      |r ^ 2 - ∫ x in N.box, cauchyRiemann N x| ≤
        2 * (m * (∏ a, (((N.degree a).toNat + 1) * 2 ^ (N.degree a).toNat)) *
          (2 * (N.degree 0).toNat / h + 2 * (N.degree 1).toNat / h)) ^ 2 * ((1 + 3 / 2 / 10 ^ 36) ^ 2 - 1) *
          ∏ a, (N.hi a - N.lo a) := by
  have := C93_value heps jo jk j2 ja jd hN hp one_pos hw (h := fun _ => h) (fun _ => hh) hlen hm
  have h0 : h ≠ 0 := (lt_of_le_of_lt heps hh).ne'
  rw [div_self h0, one_pow, one_mul, one_mul, one_mul] at this
  exact this

namespace Ex

/-- the rectangle `[0, 1] × [0, h]`, mirrored (`x = u`, `y = -v`), all weights equal to `w` -/
noncomputable def mirror (h w : ℝ) : Nrb ℝ 2 where
  shape := ![2, 2]
  nc := 4
  len := ![4, 4]
  U := fun a j => if j ≤ 1 then 0 else if a = 0 then 1 else h
  P := fun idx c => if c = 0 then w * idx 0 else if c = 1 then -(w * h * idx 1) else if c = 3 then w else 0

theorem mirror_n (h w : ℝ) (a : Fin 2) : (mirror h w).n a = 1 := by fin_cases a <;> rfl
theorem mirror_degree (h w : ℝ) (a : Fin 2) : (mirror h w).degree a = 1 := by fin_cases a <;> rfl
theorem mirror_lo (h w : ℝ) (a : Fin 2) : (mirror h w).lo a = 0 := by
  show (mirror h w).U a ((mirror h w).degree a) = 0
  rw [mirror_degree]
  rfl
theorem mirror_hi (h w : ℝ) (a : Fin 2) : (mirror h w).hi a = if a = 0 then 1 else h := by
  rw [Nrb.hi_eq, mirror_n]
  rfl

theorem mirror_valid {h : ℝ} (h0 : 0 < h) (w : ℝ) : (mirror h w).Valid := by
  intro a
  rw [mirror_degree, mirror_n]
  have hlast : (mirror h w).U a 1 < (mirror h w).U a (1 + 1) := by
    show (if (1 : ℤ) ≤ 1 then (0 : ℝ) else if a = 0 then 1 else h) < if (1 : ℤ) + 1 ≤ 1 then 0 else if a = 0 then 1 else h
    rw [if_pos le_rfl, if_neg (by norm_num)]
    split_ifs <;> linarith
  refine ⟨le_rfl, le_rfl, fun i j _ hij _ => ?_, hlast, hlast⟩
  show (if i ≤ 1 then (0 : ℝ) else if a = 0 then 1 else h) ≤ if j ≤ 1 then 0 else if a = 0 then 1 else h
  split_ifs <;> first | linarith | (exfalso; omega)

theorem mirror_cr {h : ℝ} (h0 : 0 < h) {w : ℝ} (hw : 0 < w) : ∫ x in (mirror h w).box, cauchyRiemann (mirror h w) x = 4 * h := by
  have hv := mirror_valid h0 w
  have hax : ∀ (a : Fin 2) (x), (mirror h w).InDom x →
      curve ((mirror h w).n a) ((mirror h w).degree a).toNat ((mirror h w).U a) (fun i => (i : ℝ) * (mirror h w).hi a) (x a) = x a := by
    intro a x hx
    obtain ⟨h1, h2⟩ := hx a
    have := hv a
    rw [mirror_degree, mirror_n] at this
    rw [Nrb.lo_eq, mirror_degree] at h1
    rw [Nrb.hi_eq, mirror_n] at h2
    rw [mirror_degree, mirror_n]
    refine (curve_congr (fun _ _ _ => rfl) (fun j j0 j1 => ?_) _).trans (curve_greville (p := 1) this h1 h2)
    unfold greville
    rw [mirror_hi]
    have : j = 0 ∨ j = 1 := by omega
    rw [forUp_step (by push_cast; omega), forUp_empty (by push_cast; omega)]
    rcases this with rfl | rfl
    · simp [mirror]
    · simp [mirror]
  have hone : ∀ x, (mirror h w).InDom x → (mirror h w).eval x 3 = w := by
    intro x hx
    rw [Nrb.eval_apply, Finset.sum_congr rfl fun idx _ => by rw [show (mirror h w).P idx 3 = w from rfl], ← Finset.sum_mul,
      Nrb.wt_sum hv hx, one_mul]
  have hx0 : ∀ x, (mirror h w).InDom x → (mirror h w).proj x 0 = x 0 := by
    intro x hx
    unfold Nrb.proj
    rw [hone x hx, eval_axis hv hx (a := 0) (g := fun i => w * ((i : ℝ) * (mirror h w).hi 0)) (fun idx _ => ?_)]
    · conv_rhs => rw [← hax 0 x hx]
      unfold curve
      rw [Finset.sum_div]
      refine Finset.sum_congr rfl fun i _ => ?_
      simp only [smul_eq_mul]
      field_simp
    · rw [mirror_hi]
      simp [mirror]
  have hx1 : ∀ x, (mirror h w).InDom x → (mirror h w).proj x 1 = -x 1 := by
    intro x hx
    unfold Nrb.proj
    rw [hone x hx, eval_axis hv hx (a := 1) (g := fun i => -(w * ((i : ℝ) * (mirror h w).hi 1))) (fun idx _ => ?_)]
    · conv_rhs => rw [← hax 1 x hx]
      unfold curve
      rw [Finset.sum_div, ← Finset.sum_neg_distrib]
      refine Finset.sum_congr rfl fun i _ => ?_
      simp only [smul_eq_mul]
      field_simp
    · rw [mirror_hi]
      simp [mirror]
      ring
  have hae : (Set.univ.pi fun a => Set.Ioo ((mirror h w).lo a) ((mirror h w).hi a)) =ᵐ[volume] (mirror h w).box := by
    unfold Nrb.box
    rw [volume_pi]
    exact Measure.pi_Ioo_ae_eq_pi_Icc
  have e : ∫ x in (mirror h w).box, cauchyRiemann (mirror h w) x = ∫ _ in (mirror h w).box, (4 : ℝ) := by
    rw [← setIntegral_congr_set hae, ← setIntegral_congr_set hae]
    refine setIntegral_congr_fun (MeasurableSet.univ_pi fun _ => measurableSet_Ioo) fun x hx => ?_
    have hx' := fun a => hx a (Set.mem_univ a)
    unfold cauchyRiemann
    rw [pdo_congr_box (f' := fun y => y 0) hx0 0 hx', pdo_congr_box (f' := fun y => y 0) hx0 1 hx',
      pdo_congr_box (f' := fun y => -y 1) hx1 0 hx', pdo_congr_box (f' := fun y => -y 1) hx1 1 hx']
    simp [pdo]
    norm_num
  rw [e, setIntegral_const]
  unfold Nrb.box
  rw [Set.pi_univ_Icc, Measure.real, Real.volume_Icc_pi_toReal, Fin.prod_univ_two]
  · simp only [mirror_lo, mirror_hi]
    simp
    ring
  · intro a
    rw [mirror_lo, mirror_hi]
    split_ifs <;> linarith

theorem mirror_value {eps : ℝ} (heps : 0 ≤ eps) (he : eps < 1) (jo : Fin 2 → ℤ → ℤ) (jk : Fin 2 → ℤ → ℝ) (j2 ja jd : Fin 2 → ℤ → ℤ → ℝ)
    {h w : ℝ} (h1 : 1 ≤ h) (hw : 0 < w) :
    ∃ r, conformalProjectionError eps jo jk j2 ja jd (mirror h w) = .ok r ∧ 0 ≤ r ∧ |r ^ 2 - 4 * w ^ 2| ≤ (w * h) ^ 2 / 10 ^ 30 := by
  have h0 : 0 < h := by linarith
  have hwh : w ≤ w * h := le_mul_of_one_le_right hw.le h1
  obtain ⟨r, e1, e2, e3⟩ := C93_value heps jo jk j2 ja jd (mirror_valid h0 w) (fun a => by rw [mirror_degree]; norm_num) hw
    (fun _ _ => rfl) (h := fun a => if a = 0 then 1 else h) (m := w * h)
    (fun a => by split_ifs <;> linarith)
    (fun a k k1 k2 k3 => by
      rw [mirror_degree] at k1
      rw [mirror_n] at k2
      obtain rfl : k = 1 := by omega
      show (if (1 : ℤ) + 1 ≤ 1 then (0 : ℝ) else if a = 0 then 1 else h) - (if (1 : ℤ) ≤ 1 then (0 : ℝ) else if a = 0 then 1 else h) = _
      rw [if_pos le_rfl, if_neg (by norm_num), sub_zero])
    (fun idx hi i => by
      have a0 : idx 0 = 0 ∨ idx 0 = 1 := by
        have := hi 0
        have e : (mirror h w).shape 0 = 2 := rfl
        omega
      have a1 : idx 1 = 0 ∨ idx 1 = 1 := by
        have := hi 1
        have e : (mirror h w).shape 1 = 2 := rfl
        omega
      have hwh0 : 0 < w * h := mul_pos hw h0
      fin_cases i
      · show |w * (idx 0 : ℝ)| ≤ w * h
        rcases a0 with e | e <;> rw [e] <;> simp [abs_of_pos hw, hwh, hwh0.le]
      · show |-(w * h * (idx 1 : ℝ))| ≤ w * h
        rcases a1 with e | e <;> rw [e] <;> simp [abs_of_pos hw, abs_of_pos h0, hwh0.le])
  refine ⟨r, e1, e2, ?_⟩
  rw [mirror_cr h0 hw] at e3
  simp only [mirror_degree, mirror_lo, mirror_hi, Fin.prod_univ_two, if_true, if_neg (by decide : ¬(1 : Fin 2) = 0),
    show Int.toNat 1 = 1 from rfl, sub_zero] at e3
  rw [show w ^ 2 * (1 / h) * (4 * h) = 4 * w ^ 2 by field_simp] at e3
  refine e3.trans ?_
  have hq : (0 : ℝ) < 1 / h := by positivity
  have hq1 : 1 / h ≤ 1 := by rw [div_le_one h0]; exact h1
  push_cast
  have : 1 / h * (2 * (w * h * 16 * (2 * 1 / 1 + 2 * 1 / h)) ^ 2 * ((1 + 3 / 2 / 10 ^ 36) ^ 2 - 1) * (1 * h)) =
      (w * h) ^ 2 * ((2 * 16 ^ 2 * ((1 + 3 / 2 / 10 ^ 36) ^ 2 - 1)) * (2 + 2 * (1 / h)) ^ 2) := by
    field_simp
  rw [this, div_eq_mul_inv]
  refine mul_le_mul_of_nonneg_left ?_ (sq_nonneg _)
  calc _ ≤ (2 * 16 ^ 2 * ((1 + 3 / 2 / 10 ^ 36) ^ 2 - 1)) * (4 : ℝ) ^ 2 := by
        refine mul_le_mul_of_nonneg_left (pow_le_pow_left₀ (by positivity) (by linarith) 2) (by norm_num)
    _ ≤ _ := by norm_num

end Ex

/-- C93: with elements of 1 by 2 the returned number is off by a factor of `√2`: the rectangle mirrored has the integral 8, the
program returns the root of 4 (up to the error of the quadrature) -/
theorem C93_elements {eps : ℝ} (heps : 0 ≤ eps) (he : eps < 1) (jo : Fin 2 → ℤ → ℤ) (jk : Fin 2 → ℤ → ℝ) (j2 ja jd : Fin 2 → ℤ → ℤ → ℝ) :
    ∃ N : Nrb ℝ 2, N.Valid ∧ (∀ idx, N.InNet idx → N.P idx 3 = 1) ∧ ∫ x in N.box, cauchyRiemann N x = 8 ∧
      ∃ r, conformalProjectionError eps jo jk j2 ja jd N = .ok r ∧ |r ^ 2 - 4| ≤ 1 / 10 ^ 29 := by
  obtain ⟨r, e1, _, e3⟩ := Ex.mirror_value heps he jo jk j2 ja jd (h := 2) (w := 1) (by norm_num) one_pos
  refine ⟨_, Ex.mirror_valid two_pos 1, fun _ _ => rfl, by rw [Ex.mirror_cr two_pos one_pos]; norm_num, r, e1, ?_⟩
  norm_num at e3 ⊢
  exact e3.trans (by norm_num)

/-- C93: with all weights equal to 3 (the same map as with weights 1) the returned number is three times too large: the square
mirrored has the integral 4, the program returns the root of 36 (up to the error of the quadrature) -/
theorem C93_weights {eps : ℝ} (heps : 0 ≤ eps) (he : eps < 1) (jo : Fin 2 → ℤ → ℤ) (jk : Fin 2 → ℤ → ℝ) (j2 ja jd : Fin 2 → ℤ → ℤ → ℝ) :
    ∃ N : Nrb ℝ 2, N.Valid ∧ (∀ a k, N.degree a ≤ k → k ≤ N.n a → N.U a (k + 1) - N.U a k = 1) ∧
      ∫ x in N.box, cauchyRiemann N x = 4 ∧
      ∃ r, conformalProjectionError eps jo jk j2 ja jd N = .ok r ∧ |r ^ 2 - 36| ≤ 1 / 10 ^ 29 := by
  obtain ⟨r, e1, _, e3⟩ := Ex.mirror_value heps he jo jk j2 ja jd (h := 1) (w := 3) le_rfl (by norm_num)
  refine ⟨_, Ex.mirror_valid one_pos 3, fun a k k1 k2 => ?_, by rw [Ex.mirror_cr one_pos (by norm_num)]; norm_num, r, e1, ?_⟩
  · rw [Ex.mirror_degree] at k1
    rw [Ex.mirror_n] at k2
    obtain rfl : k = 1 := by omega
    show (if (1 : ℤ) + 1 ≤ 1 then (0 : ℝ) else if a = 0 then 1 else 1) - (if (1 : ℤ) ≤ 1 then (0 : ℝ) else if a = 0 then 1 else 1) = 1
    rw [if_pos le_rfl, if_neg (by norm_num), sub_zero, ite_self]
  · norm_num at e3 ⊢
    exact e3.trans (by norm_num)

/-- the bent surface: degree 2, knots 0 0 0 1 2 2 3 3 3 in both directions -/
example (jo : Fin 2 → ℤ → ℤ) (jk : Fin 2 → ℤ → ℝ) (j2 ja jd : Fin 2 → ℤ → ℤ → ℝ) :
    ∃ r, conformalProjectionError (1 / 10 ^ 16) jo jk j2 ja jd Ex.bent = .ok r ∧
      |r ^ 2 - ∫ x in Ex.bent.box, cauchyRiemann Ex.bent x| ≤ 1 / 10 ^ 26 := by
  obtain ⟨r, e1, _, e3⟩ := C93_conformal_partial (eps := 1 / 10 ^ 16) (by norm_num) jo jk j2 ja jd Ex.bent_valid
    (fun a => by rw [Ex.bent_degree]; norm_num) (fun _ _ => rfl) (h := 1) (by norm_num)
    (fun a k k1 k2 k3 => by
      rw [Ex.bent_degree] at k1
      rw [Ex.bent_n] at k2
      rw [Ex.bent_U] at k3 ⊢
      unfold Ex.Ur at k3 ⊢
      have h3 : Ex.U k < Ex.U (k + 1) := by exact_mod_cast k3
      have : Ex.U (k + 1) - Ex.U k = 1 := by
        have hk : k = 2 ∨ k = 3 ∨ k = 4 ∨ k = 5 := by omega
        rcases hk with rfl | rfl | rfl | rfl <;> revert h3 <;> decide +kernel
      exact_mod_cast this) Ex.bent_net
  refine ⟨r, e1, e3.trans ?_⟩
  simp only [Ex.bent_degree, Ex.bent_lo, Ex.bent_hi, Fin.prod_univ_two, show Int.toNat 2 = 2 from rfl]
  norm_num

end Igakit
