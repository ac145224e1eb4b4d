import Verif.Props.FloatKnots

/-! # C75: generated knot vectors in floating point arithmetic -/

set_option linter.unusedSectionVars false

namespace Igakit
open Spec

variable {K : Type} [Field K] [LinearOrder K] [IsStrictOrderedRing K]

/-- What C75 promises of a knot vector with `n + 1` basis functions of degree `p`, `E` nearly equal spans on `[Ui, Uf]` and interior
multiplicity `q`, the breaks being off by at most `err`. -/
structure NearlyUniform (n p : ℤ) (U : ℤ → K) (E : ℤ) (q : ℤ) (Ui Uf err : K) : Prop where
  valid : ValidKnots n p U
  lo : U p = Ui
  hi : U (n + 1) = Uf
  /-- exactly `E` spans of the domain are nonempty -/
  spans : (((Finset.Icc p n).filter (fun k => U k < U (k + 1))).card : ℤ) = E
  /-- the breaks -/
  breaks : ∃ b : ℤ → K, b 0 = Ui ∧ b E = Uf ∧ (∀ i j, 0 ≤ i → i < j → j ≤ E → b i < b j) ∧
    (∀ i, 0 ≤ i → i ≤ E → |b i - (Ui + (i : K) * ((Uf - Ui) / (E : K)))| ≤ err) ∧
    (∀ i, 0 < i → i < E → (mult U 0 (n + p + 1) (b i) : ℤ) = q) ∧
    (∀ j, 0 ≤ j → j ≤ n + p + 1 → Ui < U j → U j < Uf → ∃ i : ℤ, 0 < i ∧ i < E ∧ U j = b i)

/-- knots `b(⌈(x-p)/q⌉)` inside the domain, with increasing `b` -/
theorem nearly_of {n p E q : ℤ} {U : ℤ → K} {Ui Uf err : K} (hE : 1 ≤ E) (hp : 1 ≤ p) (hq : 0 < q)
    (hn : n = p + (E - 1) * q) {b : ℤ → K} (b0 : b 0 = Ui) (bE : b E = Uf) (hb : ∀ i j, 0 ≤ i → i < j → j ≤ E → b i < b j)
    (herr : ∀ i, 0 ≤ i → i ≤ E → |b i - (Ui + (i : K) * ((Uf - Ui) / (E : K)))| ≤ err)
    (hU : ∀ x, p ≤ x → x ≤ n + 1 → U x = b (cdiv (x - p) q)) (hs : SortedOn U 0 (n + p + 1)) :
    NearlyUniform n p U E q Ui Uf err := by
  have hEq : 0 ≤ (E - 1) * q := mul_nonneg (by omega) hq.le
  have c0 : cdiv (p - p) q = 0 := cdiv_eq hq (by omega) (by omega)
  have cn1 : cdiv (n + 1 - p) q = E := cdiv_eq hq (by omega) (by rw [hn]; nlinarith)
  have cn : cdiv (n - p) q = E - 1 := cdiv_eq hq (by rw [hn]; nlinarith) (by omega)
  have cp1 : cdiv (p + 1 - p) q = 1 := cdiv_eq hq (by omega) (by omega)
  have hUp : U p = Ui := by rw [hU p le_rfl (by omega), c0, b0]
  have hUn : U (n + 1) = Uf := by rw [hU _ (by omega) le_rfl, cn1, bE]
  have rng : ∀ x, p ≤ x → x ≤ n + 1 → 0 ≤ cdiv (x - p) q ∧ cdiv (x - p) q ≤ E := by
    intro x h1 h2
    have a := cdiv_mono hq (show p - p ≤ x - p by omega)
    have c := cdiv_mono hq (show x - p ≤ n + 1 - p by omega)
    rw [c0] at a
    rw [cn1] at c
    exact ⟨a, c⟩
  have blt : ∀ i j, 0 ≤ i → i ≤ E → 0 ≤ j → j ≤ E → (b i < b j ↔ i < j) := by
    intro i j i0 i1 j0 j1
    constructor
    · intro h
      by_contra hc
      rcases eq_or_lt_of_le (not_lt.mp hc) with e | e
      · rw [e] at h; exact lt_irrefl _ h
      · exact lt_asymm h (hb j i j0 e i1)
    · exact fun h => hb i j i0 h j1
  have beq : ∀ i j, 0 ≤ i → i ≤ E → 0 ≤ j → j ≤ E → b i = b j → i = j := by
    intro i j i0 i1 j0 j1 h
    rcases lt_trichotomy i j with e | e | e
    · exact absurd h (hb i j i0 e j1).ne
    · exact e
    · exact absurd h (hb j i j0 e i1).ne'
  have hstep : ∀ k, p ≤ k → k ≤ n → (U k < U (k + 1) ↔ ∃ i, 0 ≤ i ∧ i < E ∧ k = p + i * q) := by
    intro k h1 h2
    obtain ⟨r1, r2⟩ := rng k h1 (by omega)
    obtain ⟨r3, r4⟩ := rng (k + 1) (by omega) (by omega)
    rw [hU k h1 (by omega), hU (k + 1) (by omega) (by omega), blt _ _ r1 r2 r3 r4]
    obtain ⟨b1, b2⟩ := cdiv_bounds (k - p) hq
    constructor
    · intro h
      refine ⟨cdiv (k - p) q, r1, by omega, ?_⟩
      by_contra hc
      have : cdiv (k + 1 - p) q = cdiv (k - p) q := cdiv_eq hq (by omega) (by omega)
      omega
    · rintro ⟨i, hi1, hi2, rfl⟩
      have e1 : cdiv (p + i * q - p) q = i := cdiv_eq hq (by nlinarith) (by omega)
      have e2 : cdiv (p + i * q + 1 - p) q = i + 1 := cdiv_eq hq (by linarith) (by nlinarith)
      rw [e1, e2]; omega
  refine ⟨⟨hp, by omega, hs, ?_, ?_⟩, hUp, hUn, ?_, b, b0, bE, hb, herr, ?_, ?_⟩
  · rw [hU p le_rfl (by omega), hU (p + 1) (by omega) (by omega), c0, cp1]
    exact hb _ _ le_rfl (by omega) (by omega)
  · rw [hU n (by omega) (by omega), hU (n + 1) (by omega) le_rfl, cn, cn1]
    exact hb _ _ (by omega) (by omega) le_rfl
  · have : (Finset.Icc p n).filter (fun k => U k < U (k + 1)) =
        (Finset.Ico (0 : ℤ) E).image (fun i => p + i * q) := by
      ext k
      simp only [Finset.mem_filter, Finset.mem_Icc, Finset.mem_image, Finset.mem_Ico]
      constructor
      · rintro ⟨⟨h1, h2⟩, h3⟩
        obtain ⟨i, a, b, c⟩ := (hstep k h1 h2).mp h3
        exact ⟨i, ⟨a, b⟩, c.symm⟩
      · rintro ⟨i, ⟨a, b⟩, rfl⟩
        have h1 : p ≤ p + i * q := by nlinarith
        have h2 : p + i * q ≤ n := by rw [hn]; nlinarith
        exact ⟨⟨h1, h2⟩, (hstep _ h1 h2).mpr ⟨i, a, b, rfl⟩⟩
    rw [this, Finset.card_image_of_injective _ (fun i j h => by
      have h : p + i * q = p + j * q := h
      exact mul_right_cancel₀ hq.ne' (by linarith)), Int.card_Ico]
    omega
  · intro i hi1 hi2
    have : (Finset.Icc 0 (n + p + 1)).filter (fun x => U x = b i) = Finset.Icc (p + (i - 1) * q + 1) (p + i * q) := by
      have hiq : 0 ≤ (i - 1) * q := mul_nonneg (by omega) hq.le
      have hiq' : i * q ≤ (E - 1) * q := mul_le_mul_of_nonneg_right (by omega) hq.le
      have l0 := hb 0 i le_rfl hi1 hi2.le
      have l1 := hb i E hi1.le hi2 le_rfl
      rw [b0] at l0
      rw [bE] at l1
      ext x
      simp only [Finset.mem_filter, Finset.mem_Icc]
      constructor
      · rintro ⟨⟨h1, h2⟩, h3⟩
        have hx1 : p ≤ x := by
          by_contra hc
          have := hs x p h1 (by omega) (by omega)
          rw [hUp, h3] at this
          exact absurd l0 (not_lt.mpr this)
        have hx2 : x ≤ n + 1 := by
          by_contra hc
          have := hs (n + 1) x (by omega) (by omega) h2
          rw [hUn, h3] at this
          exact absurd l1 (not_lt.mpr this)
        rw [hU x hx1 hx2] at h3
        obtain ⟨r1, r2⟩ := rng x hx1 hx2
        have h3 := beq _ _ r1 r2 hi1.le hi2.le h3
        obtain ⟨b1, b2⟩ := cdiv_bounds (x - p) hq
        rw [h3] at b1 b2
        omega
      · rintro ⟨h1, h2⟩
        refine ⟨⟨by omega, by omega⟩, ?_⟩
        rw [hU x (by omega) (by omega)]
        congr 1
        exact cdiv_eq hq (by omega) (by omega)
    unfold mult
    rw [this, Int.card_Icc]
    have : p + i * q + 1 - (p + (i - 1) * q + 1) = q := by ring
    rw [this]
    omega
  · intro j h1 h2 h3 h4
    have hx1 : p ≤ j := by
      by_contra hc
      have := hs j p h1 (by omega) (by omega)
      rw [hUp] at this
      exact absurd h3 (not_lt.mpr this)
    have hx2 : j ≤ n + 1 := by
      by_contra hc
      have := hs (n + 1) j (by omega) (by omega) h2
      rw [hUn] at this
      exact absurd h4 (not_lt.mpr this)
    obtain ⟨r1, r2⟩ := rng j hx1 hx2
    rw [hU j hx1 hx2] at h3 h4 ⊢
    rw [← b0] at h3
    rw [← bE] at h4
    exact ⟨_, (blt _ _ le_rfl (by omega) r1 r2).mp h3, (blt _ _ r1 r2 (by omega) le_rfl).mp h4, rfl⟩

/-- C75: `iga.KnotVector(E,p,C,Ui,Uf)` in floating point.  The ends are exact, the interior knots are off by at most one rounding of
their size and four of the length; they keep their multiplicity `p - C`.  If a span is longer than twice that, the knots are in
order and the domain has exactly `E` spans. -/
theorem C75_KnotVector {F : K → Prop} {δ : K} {rd : K → K} (hF : Rounds F rd) (h0 : 0 ≤ δ) (hδ : δ < 1) (hr : RelErr δ rd)
    (jk : ℤ → K) {E p C : ℤ} (hE : 1 ≤ E) (hp : 1 ≤ p) (hC0 : 0 ≤ C) (hC : C < p) {Ui Uf : K} (hlt : Ui < Uf)
    (fi : F Ui) (ff : F Uf) {M : K} (hM1 : |Ui| ≤ M) (hM2 : |Uf| ≤ M)
    (hsp : 2 * (δ * M + (growth δ ^ 4 - 1) * (Uf - Ui)) < (Uf - Ui) / (E : K)) :
    (∃ U, Fp.iga_KnotVector rd jk E p C Ui Uf false = .ok U ∧
      NearlyUniform (p + (E - 1) * (p - C)) p U E (p - C) Ui Uf (δ * M + (growth δ ^ 4 - 1) * (Uf - Ui)) ∧
      (∀ j, 0 ≤ j → j ≤ p → U j = Ui) ∧
      (∀ j, p + (E - 1) * (p - C) + 1 ≤ j → j ≤ p + (E - 1) * (p - C) + p + 1 → U j = Uf) ∧
      (∀ j, 0 ≤ j → j ≤ p + (E - 1) * (p - C) + p + 1 → F (U j))) ∧
    (∃ U, Fp.iga_KnotVector rd jk E p C Ui Uf true = .ok U ∧
      NearlyUniform (p + (E - 1) * (p - C)) p U E (p - C) Ui Uf (δ * M + (growth δ ^ 4 - 1) * (Uf - Ui)) ∧
      (∀ j, 0 ≤ j → j ≤ C → U j = rd (rd (Ui - Uf) + U (j + E * (p - C)))) ∧
      (∀ j, p + (E - 1) * (p - C) + p + 1 - C ≤ j → j ≤ p + (E - 1) * (p - C) + p + 1 →
        U j = rd (rd (Uf - Ui) + U (j - E * (p - C)))) ∧
      (∀ j, 0 ≤ j → j ≤ p + (E - 1) * (p - C) + p + 1 → F (U j))) := by
  have hq : 0 < p - C := by omega
  have hEq : 0 ≤ (E - 1) * (p - C) := mul_nonneg (by omega) hq.le
  have hEqq : E * (p - C) = (E - 1) * (p - C) + (p - C) := by ring
  have hEK : (0 : K) < (E : K) := by exact_mod_cast (by omega : 0 < E)
  have hg := Fp.one_le_growth h0 hδ
  have hG4 : (1 : K) ≤ growth δ ^ 4 := one_le_pow₀ hg
  have hM0 : 0 ≤ M := (abs_nonneg _).trans hM1
  have hL : 0 < Uf - Ui := by linarith
  have hm := knotVectorM_eq E p C
  set m := knotVectorM E p C with hmdef
  set err := δ * M + (growth δ ^ 4 - 1) * (Uf - Ui) with herr
  have herr0 : 0 ≤ err := add_nonneg (mul_nonneg h0 hM0) (mul_nonneg (by linarith) hL.le)
  set dU := (Uf - Ui) / (E : K) with hdU
  have hEd : (E : K) * dU = Uf - Ui := by rw [hdU]; field_simp
  have hd : 0 < dU := div_pos hL hEK
  have m1 := abs_le.mp hM1
  have m2 := abs_le.mp hM2
  -- the breaks
  set b : ℤ → K := fun i => if i = E then Uf else Fp.evenKnot rd Ui Uf E i with hbdef
  have bE : b E = Uf := by simp [hbdef]
  have b0 : b 0 = Ui := by
    simp only [hbdef]
    rw [if_neg (by omega)]
    exact Fp.evenKnot_zero hF fi _ _
  have berr : ∀ i, 0 ≤ i → i ≤ E → |b i - (Ui + (i : K) * dU)| ≤ err := by
    intro i i0 i1
    simp only [hbdef]
    by_cases hi : i = E
    · rw [if_pos hi, hi, hEd, show Uf - (Ui + (Uf - Ui)) = 0 by ring, abs_zero]
      exact herr0
    · rw [if_neg hi]
      refine (Fp.evenKnot_err h0 hδ hr hlt.le hE i0).trans ?_
      have t0 : 0 ≤ (i : K) * dU := mul_nonneg (by exact_mod_cast i0) hd.le
      have t1 : (i : K) * dU ≤ Uf - Ui := by
        rw [← hEd]
        exact mul_le_mul_of_nonneg_right (by exact_mod_cast i1) hd.le
      exact add_le_add (mul_le_mul_of_nonneg_left (abs_le.mpr ⟨by linarith, by linarith⟩) h0)
        (mul_le_mul_of_nonneg_left t1 (by linarith))
  have bmono : ∀ i j, 0 ≤ i → i < j → j ≤ E → b i < b j := by
    intro i j i0 hij j1
    have e1 := abs_le.mp (berr i i0 (by omega))
    have e2 := abs_le.mp (berr j (by omega) j1)
    have : (i : K) + 1 ≤ (j : K) := by exact_mod_cast hij
    have : ((i : K) + 1) * dU ≤ (j : K) * dU := mul_le_mul_of_nonneg_right this hd.le
    linarith [e1.2, e2.1]
  have bF : ∀ i, F (b i) := by
    intro i
    simp only [hbdef]
    split_ifs
    · exact ff
    · exact hF.mem _
  -- the open knot vector
  obtain ⟨g1, g2, g3⟩ := Fp.open_val rd jk hE hp hC Ui Uf
  set U := knotVectorEnds p m Ui Uf (Fp.knotVectorInner rd jk E p C Ui Uf).2 with hUdef
  have inner : ∀ x, p ≤ x → x ≤ p + (E - 1) * (p - C) + 1 → U x = b (cdiv (x - p) (p - C)) := by
    intro x x0 x1
    rcases eq_or_lt_of_le x0 with e | e
    · rw [g1 x (by omega) (by omega), cdiv_eq (i := 0) hq (by omega) (by omega), b0]
    · rcases le_or_gt x (p + (E - 1) * (p - C)) with h | h
      · rw [g2 x (by omega) h]
        have : cdiv (x - p) (p - C) ≤ E - 1 := by
          have := cdiv_mono hq (show x - p ≤ (E - 1) * (p - C) by omega)
          rwa [cdiv_eq (a := (E - 1) * (p - C)) (i := E - 1) hq (by nlinarith) le_rfl] at this
        simp only [hbdef]
        rw [if_neg (by omega)]
      · rw [g3 x (by omega) (by omega), cdiv_eq (i := E) hq (by omega) (by omega), bE]
  have crng : ∀ x, p ≤ x → x ≤ p + (E - 1) * (p - C) + 1 → 0 ≤ cdiv (x - p) (p - C) ∧ cdiv (x - p) (p - C) ≤ E := by
    intro x h1 h2
    have a := cdiv_mono hq (show 0 ≤ x - p by omega)
    have c := cdiv_mono hq (show x - p ≤ E * (p - C) by omega)
    rw [cdiv_eq (a := 0) (i := 0) hq (by omega) (by omega)] at a
    rw [cdiv_eq (a := E * (p - C)) (i := E) hq (by omega) (by omega)] at c
    exact ⟨a, c⟩
  have sorted : SortedOn U 0 m := by
    refine Fp.sortedOn_of_succ fun x x0 x1 => ?_
    rcases lt_or_ge x p with h | h
    · rw [g1 x x0 h.le, g1 (x + 1) (by omega) (by omega)]
    · rcases le_or_gt x (p + (E - 1) * (p - C)) with h' | h'
      · rw [inner x h (by omega), inner (x + 1) (by omega) (by omega)]
        have := cdiv_mono hq (show x - p ≤ x + 1 - p by omega)
        rcases eq_or_lt_of_le this with e | e
        · rw [e]
        · exact (bmono _ _ (crng x h (by omega)).1 e (crng (x + 1) (by omega) (by omega)).2).le
      · rw [g3 x (by omega) (by omega), g3 (x + 1) (by omega) (by omega)]
  have allF : ∀ x, 0 ≤ x → x ≤ m → F (U x) := by
    intro x x0 x1
    rcases lt_or_ge x p with h | h
    · rw [g1 x x0 h.le]; exact fi
    · rcases le_or_gt x (p + (E - 1) * (p - C)) with h' | h'
      · rw [inner x h (by omega)]; exact bF _
      · rw [g3 x (by omega) (by omega)]; exact ff
  have hmn : m = p + (E - 1) * (p - C) + p + 1 := by omega
  refine ⟨⟨U, ?_, ?_, g1, fun j a c => g3 j a (by omega), fun j a c => allF j a (by omega)⟩, ?_⟩
  · unfold Fp.iga_KnotVector
    rw [if_pos ⟨hE, hp, hC0, hC⟩]
    rfl
  · refine nearly_of hE hp hq rfl b0 bE bmono berr inner ?_
    rw [← hmn]
    exact sorted
  -- the wrapped knot vector
  · obtain ⟨w1, w2, w3⟩ := Fp.wrap_val rd hE hC0 hC hm Ui Uf U
    have hdelta : δ * (Uf - Ui) ≤ err := by
      have hl := Fp.le_growth h0 hδ
      have : δ ≤ growth δ ^ 4 - 1 := by
        have h1 : growth δ ≤ growth δ ^ 4 := le_self_pow₀ hg (by norm_num)
        linarith
      have := mul_le_mul_of_nonneg_right this hL.le
      have := mul_nonneg h0 hM0
      linarith
    have sortedW : SortedOn (Fp.knotVectorWrap rd p C m Ui Uf U) 0 m := by
      refine Fp.wrap_sorted hF.mono hE hC0 hC hm sorted ?_ ?_
      · have hn : U (m - (p + 1)) = b (E - 1) := by
          rw [inner _ (by omega) (by omega)]
          congr 1
          exact cdiv_eq hq (by rw [hm]; nlinarith) (by omega)
        rw [hn, g1 (C + 1) (by omega) (by omega)]
        conv_rhs => rw [← hF.exact Ui fi]
        refine hF.mono ?_
        have e1 := (abs_le.mp (hr (Ui - Uf))).2
        rw [abs_of_neg (by linarith : Ui - Uf < 0)] at e1
        have e2 := (abs_le.mp (berr (E - 1) (by omega) (by omega))).2
        push_cast at e2
        nlinarith
      · have hn : U (p + 1) = b 1 := by
          rw [inner _ (by omega) (by omega)]
          congr 1
          exact cdiv_eq hq (by omega) (by omega)
        rw [hn, g3 (m - C - 1) (by omega) (by omega)]
        conv_lhs => rw [← hF.exact Uf ff]
        refine hF.mono ?_
        have e1 := (abs_le.mp (hr (Uf - Ui))).1
        rw [abs_of_pos hL] at e1
        have e2 := (abs_le.mp (berr 1 (by omega) (by omega))).1
        push_cast at e2
        nlinarith
    refine ⟨Fp.knotVectorWrap rd p C m Ui Uf U, ?_, ?_, w2, fun j a c => w3 j (by omega) (by omega), fun j a c => ?_⟩
    · unfold Fp.iga_KnotVector
      rw [if_pos ⟨hE, hp, hC0, hC⟩]
      rfl
    · refine nearly_of hE hp hq rfl b0 bE bmono berr (fun x x0 x1 => ?_) ?_
      · rw [w1 x (by omega) (by omega)]
        exact inner x x0 x1
      · rw [← hmn]
        exact sortedW
    · rcases le_or_gt j C with h | h
      · rw [w2 j a h]; exact hF.mem _
      · rcases le_or_gt (m - C) j with h' | h'
        · rw [w3 j h' (by omega)]; exact hF.mem _
        · rw [w1 j h h']; exact allF j a (by omega)

/-- C75: the same calls are rejected as in exact arithmetic -/
theorem C75_rejects (rd : K → K) (jk jk' : ℤ → K) (E p C : ℤ) (Ui Uf : K) (wrap : Bool) :
    (∃ e, Fp.iga_KnotVector rd jk E p C Ui Uf wrap = .error e) ↔ (∃ e, iga_KnotVector jk' E p C Ui Uf wrap = .error e) := by
  unfold Fp.iga_KnotVector iga_KnotVector
  split_ifs <;> simp

/-! ## knots inserted by `cad.refine` -/

/-- C75: the knots `cad.refine` inserts in floating point: as many as in exact arithmetic, each in the same element, off by at most
one rounding of its size and four of the length of the element; so they are in the domain. -/
theorem C75_refineVals {F : K → Prop} {δ : K} {rd : K → K} (hF : Rounds F rd) (h0 : 0 ≤ δ) (hδ : δ < 1) (hr : RelErr δ rd)
    (p C : ℤ) {u : List K} (hu : u.Pairwise (· < ·)) (fu : ∀ x ∈ u, F x) (s : List ℤ) (N : Factor)
    (hN : ∀ i, i + 1 < u.length → 1 ≤ N.parts i ∧ growth δ ^ 3 * (N.parts i - 1 : ℤ) ≤ N.parts i) :
    List.Forall₂ (fun x y => ∃ v w, v ∈ u ∧ w ∈ u ∧ v ≤ y ∧ y < w ∧ v ≤ x ∧ x ≤ w ∧ |x - y| ≤ δ * |y| + (growth δ ^ 4 - 1) * (w - v))
      (Fp.refineVals rd p C u s N) (Cad.refineVals p C u s N) := by
  have hg := Fp.one_le_growth h0 hδ
  have hG4 : (1 : K) ≤ growth δ ^ 4 := one_le_pow₀ hg
  set R : K → K → Prop := fun x y =>
    ∃ v w, v ∈ u ∧ w ∈ u ∧ v ≤ y ∧ y < w ∧ v ≤ x ∧ x ≤ w ∧ |x - y| ≤ δ * |y| + (growth δ ^ 4 - 1) * (w - v) with hR
  have elem : ∀ i ∈ List.range (u.length - 1), List.Forall₂ (fun (q q' : K × ℤ) => R q.1 q'.1 ∧ q.2 = q'.2)
      (Fp.elementKnots rd p C u s N i) (Cad.elementKnots p C u s N i) := by
    intro i hi
    have hi : i + 1 < u.length := by have := List.mem_range.mp hi; omega
    obtain ⟨n1, n2⟩ := hN i hi
    have e0 : u.getD i 0 = u[i] := by rw [List.getD_eq_getElem?_getD, List.getElem?_eq_getElem (by omega)]; rfl
    have e1 : u.getD (i + 1) 0 = u[i + 1] := by rw [List.getD_eq_getElem?_getD, List.getElem?_eq_getElem (by omega)]; rfl
    have hlt : u[i] < u[i + 1] := List.pairwise_iff_getElem.mp hu i (i + 1) (by omega) hi (by omega)
    have m0 : u[i] ∈ u := List.getElem_mem _
    have m1 : u[i + 1] ∈ u := List.getElem_mem _
    have nK : (0 : K) < (N.parts i : K) := by exact_mod_cast (by omega : 0 < N.parts i)
    unfold Fp.elementKnots Cad.elementKnots
    dsimp only
    rw [e0, e1, List.forall₂_map_left_iff, List.forall₂_map_right_iff, List.forall₂_same]
    intro k hk
    have hk : (k : ℤ) < N.parts i := by have := List.mem_range.mp hk; omega
    have hkK : (0 : K) ≤ (k : K) := by positivity
    have hdpos : 0 < (u[i + 1] - u[i]) / (N.parts i : K) := div_pos (by linarith) nK
    have t1 : (k : K) * ((u[i + 1] - u[i]) / (N.parts i : K)) < u[i + 1] - u[i] := by
      have : (k : K) < (N.parts i : K) := by exact_mod_cast hk
      calc _ < (N.parts i : K) * ((u[i + 1] - u[i]) / (N.parts i : K)) := mul_lt_mul_of_pos_right this hdpos
        _ = _ := by field_simp
    have t0 : 0 ≤ (k : K) * ((u[i + 1] - u[i]) / (N.parts i : K)) := mul_nonneg hkK hdpos.le
    refine ⟨⟨u[i], u[i + 1], m0, m1, by linarith, by linarith, ?_, ?_, ?_⟩, rfl⟩
    · have := Fp.evenKnot_mono hF.mono (hF.exact 0 hF.zero) hlt.le n1 (show (0 : ℤ) ≤ k by omega)
      rwa [Fp.evenKnot_zero hF (fu _ m0)] at this
    · refine Fp.evenKnot_le h0 hδ hr hF hlt.le (fu _ m1) n1 (by omega) ?_
      refine le_trans (mul_le_mul_of_nonneg_left ?_ (by linarith [one_le_pow₀ (n := 3) hg])) n2
      exact_mod_cast (by omega : (k : ℤ) ≤ N.parts i - 1)
    · have := Fp.evenKnot_err h0 hδ hr hlt.le n1 (show (0 : ℤ) ≤ k by omega)
      push_cast at this
      refine this.trans (add_le_add le_rfl ?_)
      exact mul_le_mul_of_nonneg_left t1.le (by linarith)
  have tail : ∀ {l l' : List (K × ℤ)}, List.Forall₂ (fun (q q' : K × ℤ) => R q.1 q'.1 ∧ q.2 = q'.2) l l' →
      List.Forall₂ (fun (q q' : K × ℤ) => R q.1 q'.1 ∧ q.2 = q'.2) l.tail l'.tail := by
    intro l l' h
    cases h with
    | nil => exact .nil
    | cons _ h => exact h
  have bind : ∀ (l : List ℕ) (f g : ℕ → List (K × ℤ)),
      (∀ i ∈ l, List.Forall₂ (fun (q q' : K × ℤ) => R q.1 q'.1 ∧ q.2 = q'.2) (f i) (g i)) →
      List.Forall₂ (fun (q q' : K × ℤ) => R q.1 q'.1 ∧ q.2 = q'.2) (l.flatMap f) (l.flatMap g) := by
    intro l f g
    induction l with
    | nil => intro _; exact .nil
    | cons i l ih =>
      intro h
      rw [List.flatMap_cons, List.flatMap_cons]
      exact List.rel_append (h i (by simp)) (ih fun j hj => h j (by simp [hj]))
  have rep : ∀ {l l' : List (K × ℤ)}, List.Forall₂ (fun (q q' : K × ℤ) => R q.1 q'.1 ∧ q.2 = q'.2) l l' →
      List.Forall₂ R (l.flatMap fun q => List.replicate q.2.toNat q.1) (l'.flatMap fun q => List.replicate q.2.toNat q.1) := by
    intro l l' h
    induction h with
    | nil => exact .nil
    | @cons q q' l l' hq _ ih =>
      rw [List.flatMap_cons, List.flatMap_cons]
      refine List.rel_append ?_ ih
      rw [hq.2]
      induction q'.2.toNat with
      | zero => exact .nil
      | succ n ih => rw [List.replicate_succ, List.replicate_succ]; exact .cons hq.1 ih
  exact rep (tail (bind _ _ _ elem))

/-! ## concrete cases -/

/-- the roundings of doubles satisfy the conditions with `δ = 2^-53` -/
example := C75_KnotVector (Ex.fl_rounds (t := 53) (by norm_num)) (by positivity) (by norm_num) (Ex.fl_relErr 53)
  (fun j => j) (E := 1000) (p := 3) (C := 1) (by norm_num) (by norm_num) (by norm_num) (by norm_num) (Ui := 1) (Uf := 4) (by norm_num)
  (Ex.fl_rounds (by norm_num)).one (by exact_mod_cast Ex.isFl_int (m := 4) (by norm_num)) (M := 4) (by norm_num)
  (by rw [abs_of_pos] <;> norm_num) (by unfold growth; norm_num)

/-- C75: equality is lost.  `KnotVector(10,1,0,0,1)` contains `0.30000000000000004`, not the double next to 0.3, and its spans
have different lengths. -/
theorem C75_not_equal (jk : ℤ → ℚ) : ∃ U, Fp.iga_KnotVector (Ex.fl 53) jk 10 1 0 0 1 false = .ok U ∧
    U 4 ≠ Ex.fl 53 (3 / 10) ∧ U 4 - U 3 ≠ U 3 - U 2 := by
  obtain ⟨-, g2, -⟩ := Fp.open_val (Ex.fl 53) jk (E := 10) (p := 1) (C := 0) (by norm_num) (by norm_num) (by norm_num) 0 1
  refine ⟨_, by unfold Fp.iga_KnotVector; rw [if_pos (by norm_num)], ?_⟩
  rw [if_neg (by simp), g2 4 (by norm_num) (by norm_num), g2 3 (by norm_num) (by norm_num), g2 2 (by norm_num) (by norm_num),
    show cdiv (4 - 1) (1 - 0) = 3 by decide, show cdiv (3 - 1) (1 - 0) = 2 by decide, show cdiv (2 - 1) (1 - 0) = 1 by decide]
  decide +kernel

example := C75_refineVals (Ex.fl_rounds (t := 53) (by norm_num)) (by positivity) (by norm_num) (Ex.fl_relErr 53) 3 1
  (u := [0, 1, 4]) (by decide +kernel) (by
    intro x hx
    simp only [List.mem_cons, List.not_mem_nil, or_false] at hx
    rcases hx with rfl | rfl | rfl
    · exact (Ex.fl_rounds (by norm_num)).zero
    · exact (Ex.fl_rounds (by norm_num)).one
    · exact_mod_cast Ex.isFl_int (m := 4) (by norm_num)) [4, 1, 4] (.each [3, 5]) (by
    intro i hi
    have hi : i + 1 < 3 := hi
    have : i = 0 ∨ i = 1 := by omega
    rcases this with rfl | rfl <;> decide +kernel)

example : (Fp.refineVals (Ex.fl 53) 2 1 [0, 1, 4] [3, 1, 3] (.all 3)).length = 4 := by decide +kernel

end Igakit
