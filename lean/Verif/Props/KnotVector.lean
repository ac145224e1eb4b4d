import Verif.Proofs.KnotVector
import Verif.Spec.Examples
import Verif.Spec.Curve
import Mathlib.Order.Interval.Finset.Defs
import Mathlib.Data.Int.Interval

/-!
# C25: knot vectors generated by `iga.KnotVector`
-/

set_option linter.unusedSectionVars false

namespace Igakit
open Spec

variable {K : Type*} [Field K] [LinearOrder K] [IsStrictOrderedRing K]

/-- What C25 promises of a knot vector with `n + 1` basis functions of degree `p`, `E` equal spans on
`[Ui, Uf]` and interior multiplicity `q`. -/
structure UniformKnots (n p : ℤ) (U : ℤ → K) (E : ℤ) (q : ℤ) (Ui Uf : K) : Prop where
  valid : ValidKnots n p U
  lo : U p = Ui
  hi : U (n + 1) = Uf
  /-- exactly `E` spans of the domain are nonempty, all of length `(Uf - Ui)/E` -/
  spans : (((Finset.Icc p n).filter (fun k => U k < U (k + 1))).card : ℤ) = E
  length : ∀ k, p ≤ k → k ≤ n → U k < U (k + 1) → U (k + 1) - U k = (Uf - Ui) / (E : K)
  /-- the interior breaks have multiplicity `q` -/
  inner : ∀ i : ℤ, 0 < i → i < E →
    (mult U 0 (n + p + 1) (Ui + (i : K) * ((Uf - Ui) / (E : K))) : ℤ) = q
  /-- there are no other knots inside -/
  only : ∀ j, 0 ≤ j → j ≤ n + p + 1 → Ui < U j → U j < Uf →
    ∃ i : ℤ, 0 < i ∧ i < E ∧ U j = Ui + (i : K) * ((Uf - Ui) / (E : K))

/-- the common part: knots `Ui + g(x) dU` with `g` running through the breaks -/
theorem uniform_of {n p E q : ℤ} {U : ℤ → K} {Ui Uf : K} (hE : 1 ≤ E) (hp : 1 ≤ p) (hq : 0 < q)
    (hn : n = p + (E - 1) * q) (hlt : Ui < Uf) {g : ℤ → ℤ}
    (hU : ∀ x, 0 ≤ x → x ≤ n + p + 1 → U x = Ui + (g x : K) * ((Uf - Ui) / (E : K)))
    (hmono : ∀ x y, 0 ≤ x → x ≤ y → y ≤ n + p + 1 → g x ≤ g y)
    (hg : ∀ x, p ≤ x → x ≤ n + 1 → g x = cdiv (x - p) q) :
    UniformKnots n p U E q Ui Uf := by
  have hEq : 0 ≤ (E - 1) * q := mul_nonneg (by omega) hq.le
  have hEK : (0 : K) < (E : K) := by exact_mod_cast (by omega : 0 < E)
  have hd : 0 < (Uf - Ui) / (E : K) := div_pos (by linarith) hEK
  set dU := (Uf - Ui) / (E : K) with hdU
  have hEd : (E : K) * dU = Uf - Ui := by rw [hdU]; field_simp
  have hlt' : ∀ a b : ℤ, Ui + (a : K) * dU < Ui + (b : K) * dU ↔ a < b := by
    intro a b
    rw [add_lt_add_iff_left, mul_lt_mul_iff_left₀ hd, Int.cast_lt]
  have hle' : ∀ a b : ℤ, Ui + (a : K) * dU ≤ Ui + (b : K) * dU ↔ a ≤ b := by
    intro a b
    rw [add_le_add_iff_left, mul_le_mul_iff_left₀ hd, Int.cast_le]
  have heq' : ∀ a b : ℤ, Ui + (a : K) * dU = Ui + (b : K) * dU ↔ a = b := by
    intro a b
    constructor
    · intro h; exact le_antisymm ((hle' _ _).mp h.le) ((hle' _ _).mp h.ge)
    · rintro rfl; rfl
  have hgp : g p = 0 := by rw [hg p le_rfl (by omega)]; exact cdiv_eq hq (by omega) (by omega)
  have hgn1 : g (n + 1) = E := by
    rw [hg (n + 1) (by omega) le_rfl]; exact cdiv_eq hq (by omega) (by rw [hn]; nlinarith)
  have hgn : g n = E - 1 := by
    rw [hg n (by omega) (by omega)]; exact cdiv_eq hq (by rw [hn]; nlinarith) (by omega)
  have hgp1 : g (p + 1) = 1 := by
    rw [hg (p + 1) (by omega) (by omega)]; exact cdiv_eq hq (by omega) (by omega)
  have hUp : U p = Ui := by rw [hU p (by omega) (by omega), hgp]; simp
  have hUn : U (n + 1) = Uf := by
    rw [hU _ (by omega) (by omega), hgn1, hEd]; ring
  have hstep : ∀ k, p ≤ k → k ≤ n → (U k < U (k + 1) ↔ ∃ i, 0 ≤ i ∧ i < E ∧ k = p + i * q) := by
    intro k h1 h2
    rw [hU k (by omega) (by omega), hU (k + 1) (by omega) (by omega), hlt', hg k h1 (by omega),
      hg (k + 1) (by omega) (by omega)]
    obtain ⟨b1, b2⟩ := cdiv_bounds (k - p) hq
    constructor
    · intro h
      refine ⟨cdiv (k - p) q, ?_, ?_, ?_⟩
      · by_contra hc; nlinarith
      · by_contra hc
        have : (E - 1) * q ≤ (cdiv (k - p) q - 1) * q := by nlinarith
        omega
      · by_contra hc
        have : cdiv (k + 1 - p) q = cdiv (k - p) q := cdiv_eq hq (by omega) (by omega)
        omega
    · rintro ⟨i, hi1, hi2, rfl⟩
      have e1 : cdiv (p + i * q - p) q = i := cdiv_eq hq (by nlinarith) (by omega)
      have e2 : cdiv (p + i * q + 1 - p) q = i + 1 := cdiv_eq hq (by linarith) (by nlinarith)
      rw [e1, e2]; omega
  refine ⟨⟨hp, by omega, ?_, ?_, ?_⟩, hUp, hUn, ?_, ?_, ?_, ?_⟩
  · intro i j h1 h2 h3
    rw [hU i h1 (by omega), hU j (by omega) h3, hle']
    exact hmono i j h1 h2 h3
  · rw [hU p (by omega) (by omega), hU (p + 1) (by omega) (by omega), hlt', hgp, hgp1]; omega
  · rw [hU n (by omega) (by omega), hU (n + 1) (by omega) (by omega), hlt', hgn, hgn1]; omega
  · have : (Finset.Icc p n).filter (fun k => U k < U (k + 1)) =
        (Finset.Ico (0 : ℤ) E).image (fun i => p + i * q) := by
      ext k
      simp only [Finset.mem_filter, Finset.mem_Icc, Finset.mem_image, Finset.mem_Ico]
      constructor
      · rintro ⟨⟨h1, h2⟩, h3⟩
        obtain ⟨i, a, b, c⟩ := (hstep k h1 h2).mp h3
        exact ⟨i, ⟨a, b⟩, c.symm⟩
      · rintro ⟨i, ⟨a, b⟩, rfl⟩
        have h1 : p ≤ p + i * q := by nlinarith
        have h2 : p + i * q ≤ n := by rw [hn]; nlinarith
        exact ⟨⟨h1, h2⟩, (hstep _ h1 h2).mpr ⟨i, a, b, rfl⟩⟩
    rw [this, Finset.card_image_of_injective _ (fun i j h => by
      have h : p + i * q = p + j * q := h
      exact mul_right_cancel₀ hq.ne' (by linarith)), Int.card_Ico]
    omega
  · intro k h1 h2 h3
    obtain ⟨i, hi1, hi2, rfl⟩ := (hstep k h1 h2).mp h3
    have e1 : g (p + i * q) = i := by
      rw [hg _ h1 (by omega)]; exact cdiv_eq hq (by nlinarith) (by omega)
    have e2 : g (p + i * q + 1) = i + 1 := by
      rw [hg _ (by omega) (by omega)]; exact cdiv_eq hq (by linarith) (by nlinarith)
    rw [hU _ (by omega) (by omega), hU _ (by omega) (by omega), e1, e2]
    push_cast; ring
  · intro i hi1 hi2
    have : (Finset.Icc 0 (n + p + 1)).filter (fun x => U x = Ui + (i : K) * dU) =
        Finset.Icc (p + (i - 1) * q + 1) (p + i * q) := by
      have hiq : 0 ≤ (i - 1) * q := mul_nonneg (by omega) hq.le
      have hiq' : i * q ≤ (E - 1) * q := mul_le_mul_of_nonneg_right (by omega) hq.le
      ext x
      simp only [Finset.mem_filter, Finset.mem_Icc]
      constructor
      · rintro ⟨⟨h1, h2⟩, h3⟩
        rw [hU x h1 h2, heq'] at h3
        have hx1 : p ≤ x := by
          by_contra hc
          have := hmono x p h1 (by omega) (by omega)
          omega
        have hx2 : x ≤ n + 1 := by
          by_contra hc
          have := hmono (n + 1) x (by omega) (by omega) h2
          omega
        rw [hg x hx1 hx2] at h3
        obtain ⟨b1, b2⟩ := cdiv_bounds (x - p) hq
        rw [h3] at b1 b2
        omega
      · rintro ⟨h1, h2⟩
        refine ⟨⟨by omega, by omega⟩, ?_⟩
        rw [hU x (by omega) (by omega), heq', hg x (by omega) (by omega)]
        exact cdiv_eq hq (by omega) (by omega)
    unfold mult
    rw [this, Int.card_Icc]
    have : p + i * q + 1 - (p + (i - 1) * q + 1) = q := by ring
    rw [this]
    omega
  · intro j h1 h2 h3 h4
    rw [hU j h1 h2] at h3 h4 ⊢
    have h3' : Ui + ((0 : ℤ) : K) * dU < Ui + (g j : K) * dU := by simpa using h3
    have h4' : Ui + (g j : K) * dU < Ui + ((E : ℤ) : K) * dU := by rw [hEd]; linarith
    exact ⟨g j, (hlt' _ _).mp h3', (hlt' _ _).mp h4', rfl⟩

/-- C25, open: `iga.KnotVector(E,p,C,Ui,Uf)` has `E` equal spans, interior multiplicity `p - C`, and is
clamped at both ends, for every degree, continuity and number of spans. -/
theorem C25_open (jk : ℤ → K) {E p C : ℤ} (hE : 1 ≤ E) (hp : 1 ≤ p) (hC0 : 0 ≤ C) (hC : C < p)
    {Ui Uf : K} (hlt : Ui < Uf) :
    ∃ U, iga_KnotVector jk E p C Ui Uf false = .ok U ∧
      UniformKnots (p + (E - 1) * (p - C)) p U E (p - C) Ui Uf ∧
      (∀ j, 0 ≤ j → j ≤ p → U j = Ui) ∧
      (∀ j, p + (E - 1) * (p - C) + 1 ≤ j → j ≤ p + (E - 1) * (p - C) + p + 1 → U j = Uf) := by
  have hq : 0 < p - C := by omega
  have hEq : 0 ≤ (E - 1) * (p - C) := mul_nonneg (by omega) hq.le
  have hEqq : E * (p - C) = (E - 1) * (p - C) + (p - C) := by ring
  have hEK : (E : K) ≠ 0 := by exact_mod_cast (by omega : E ≠ 0)
  have hm := knotVectorM_eq E p C
  obtain ⟨g1, g2, g3⟩ := knotVector_open jk hE hp hC Ui Uf
  refine ⟨_, ?_, uniform_of (g := fun x => max 0 (min E (cdiv (x - p) (p - C)))) hE hp hq rfl hlt
    ?_ ?_ ?_, g1, ?_⟩
  · unfold iga_KnotVector
    rw [if_pos ⟨hE, hp, hC0, hC⟩]
    rfl
  · intro x h1 h2
    rcases le_or_gt x p with h | h
    · rw [g1 x h1 h, max_eq_left]
      · simp
      · apply le_trans (min_le_right _ _)
        have := cdiv_mono hq (show x - p ≤ 0 by omega)
        rw [cdiv_eq (a := 0) (i := 0) hq (by omega) (by omega)] at this
        exact this
    · rcases le_or_gt x (p + 1 + (E - 1) * (p - C)) with h' | h'
      · rw [g2 x h.le h', min_eq_right, max_eq_right]
        · have := cdiv_mono hq (show 0 ≤ x - p by omega)
          rw [cdiv_eq (a := 0) (i := 0) hq (by omega) (by omega)] at this
          exact this
        · have := cdiv_mono hq (show x - p ≤ E * (p - C) by omega)
          rw [cdiv_eq (a := E * (p - C)) (i := E) hq (by omega) (by omega)] at this
          exact this
      · rw [g3 x h'.le (by omega), min_eq_left, max_eq_right (by omega)]
        · field_simp; ring
        · have := cdiv_mono hq (show (E - 1) * (p - C) + 1 ≤ x - p by omega)
          rw [cdiv_eq (a := (E - 1) * (p - C) + 1) (i := E) hq (by omega) (by omega)] at this
          exact this
  · intro x y _ h _
    have := cdiv_mono hq (show x - p ≤ y - p by omega)
    omega
  · intro x h1 h2
    have a := cdiv_mono hq (show 0 ≤ x - p by omega)
    rw [cdiv_eq (a := 0) (i := 0) hq (by omega) (by omega)] at a
    have b := cdiv_mono hq (show x - p ≤ E * (p - C) by omega)
    rw [cdiv_eq (a := E * (p - C)) (i := E) hq (by omega) (by omega)] at b
    omega
  · intro j h1 h2
    exact g3 j (by omega) (by omega)

/-- C25, wrapped: `iga.KnotVector(E,p,C,Ui,Uf,True)` has the same spans and interior multiplicities, is
periodic with period `Uf - Ui` (`E (p - C)` knots), and its end knots have multiplicity `p - C`. -/
theorem C25_wrapped (jk : ℤ → K) {E p C : ℤ} (hE : 1 ≤ E) (hp : 1 ≤ p) (hC0 : 0 ≤ C) (hC : C < p)
    {Ui Uf : K} (hlt : Ui < Uf) :
    ∃ U, iga_KnotVector jk E p C Ui Uf true = .ok U ∧
      UniformKnots (p + (E - 1) * (p - C)) p U E (p - C) Ui Uf ∧
      (∀ j, 0 ≤ j → j + E * (p - C) ≤ p + (E - 1) * (p - C) + p + 1 →
        U (j + E * (p - C)) = U j + (Uf - Ui)) ∧
      (mult U 0 (p + (E - 1) * (p - C) + p + 1) Ui : ℤ) = p - C ∧
      (mult U 0 (p + (E - 1) * (p - C) + p + 1) Uf : ℤ) = p - C := by
  have hq : 0 < p - C := by omega
  have hEq : 0 ≤ (E - 1) * (p - C) := mul_nonneg (by omega) hq.le
  have hEqq : E * (p - C) = (E - 1) * (p - C) + (p - C) := by ring
  have hEK : (0 : K) < (E : K) := by exact_mod_cast (by omega : 0 < E)
  have hm := knotVectorM_eq E p C
  have g := knotVector_wrap jk hE hp hC0 hC Ui Uf
  have hd : 0 < (Uf - Ui) / (E : K) := div_pos (by linarith) hEK
  have hEd : (E : K) * ((Uf - Ui) / (E : K)) = Uf - Ui := by field_simp
  have hmult : ∀ (U : ℤ → K), (∀ x, 0 ≤ x → x ≤ knotVectorM E p C →
      U x = Ui + (cdiv (x - p) (p - C) : ℤ) * ((Uf - Ui) / (E : K))) → ∀ i : ℤ, 0 ≤ i → i ≤ E →
      (mult U 0 (p + (E - 1) * (p - C) + p + 1) (Ui + (i : K) * ((Uf - Ui) / (E : K))) : ℤ) = p - C := by
    intro U hU i hi1 hi2
    have hiq : -(p - C) ≤ (i - 1) * (p - C) := by nlinarith
    have hiq' : i * (p - C) ≤ E * (p - C) := mul_le_mul_of_nonneg_right (by omega) hq.le
    have : (Finset.Icc 0 (p + (E - 1) * (p - C) + p + 1)).filter
        (fun x => U x = Ui + (i : K) * ((Uf - Ui) / (E : K))) =
        Finset.Icc (p + (i - 1) * (p - C) + 1) (p + i * (p - C)) := by
      ext x
      simp only [Finset.mem_filter, Finset.mem_Icc]
      constructor
      · rintro ⟨⟨h1, h2⟩, h3⟩
        rw [hU x h1 (by omega), add_right_inj, mul_left_inj' hd.ne', Int.cast_inj] at h3
        obtain ⟨b1, b2⟩ := cdiv_bounds (x - p) hq
        rw [h3] at b1 b2
        omega
      · rintro ⟨h1, h2⟩
        refine ⟨⟨by omega, by omega⟩, ?_⟩
        rw [hU x (by omega) (by omega), cdiv_eq (i := i) hq (by omega) (by omega)]
    unfold mult
    rw [this, Int.card_Icc]
    have : p + i * (p - C) + 1 - (p + (i - 1) * (p - C) + 1) = p - C := by ring
    rw [this]
    omega
  refine ⟨_, ?_, uniform_of (g := fun x => cdiv (x - p) (p - C)) hE hp hq rfl hlt
    (fun x h1 h2 => g x h1 (by omega)) ?_ (fun _ _ _ => rfl), ?_, ?_, ?_⟩
  · unfold iga_KnotVector
    rw [if_pos ⟨hE, hp, hC0, hC⟩]
    rfl
  · intro x y _ h _
    exact cdiv_mono hq (by omega)
  · intro j h1 h2
    rw [g j h1 (by omega), g _ (by omega) (by omega),
      show j + E * (p - C) - p = (j - p) + E * (p - C) by ring, cdiv_add_mul _ _ _ hq]
    push_cast
    linear_combination hEd
  · have := hmult _ g 0 le_rfl (by omega)
    simpa using this
  · have := hmult _ g E (by omega) le_rfl
    rw [hEd, add_sub_cancel] at this
    exact this

/-- C25: other arguments are rejected -/
theorem C25_rejects (jk : ℤ → K) {E p C : ℤ} (h : E < 1 ∨ p < 1 ∨ C < 0 ∨ p ≤ C) (Ui Uf : K) (w : Bool) :
    iga_KnotVector jk E p C Ui Uf w = .error .f2py := by
  unfold iga_KnotVector
  rw [if_neg (by omega)]

example := C25_open (fun _ => 77) (E := 3) (p := 3) (C := 1) (by norm_num) (by norm_num) (by norm_num)
  (by norm_num) (Ui := (-1 : ℚ)) (Uf := 5) (by norm_num)
/-- one element and maximal continuity: the wrapped knots extend over several periods -/
example := C25_wrapped (fun _ => 77) (E := 1) (p := 3) (C := 2) (by norm_num) (by norm_num) (by norm_num)
  (by norm_num) (Ui := (-1 : ℚ)) (Uf := 5) (by norm_num)

end Igakit
