import Verif.Props.FloatCtor

/-!
# Property C113: points and fields in floating point
-/

set_option linter.unusedSectionVars false

namespace Igakit
open Spec

variable {K : Type} [Field K] [LinearOrder K] [IsStrictOrderedRing K] {d : ℕ}

/-- an entry which has been rounded at most once, divided by the weight -/
theorem back_near {δ : K} {rd : K → K} (h0 : 0 ≤ δ) (hr : RelErr δ rd) {x y w : K} (h : y = x ∨ y = rd x) :
    |rd (y / w) - x / w| ≤ ((1 + δ) ^ 2 - 1) * |x / w| := by
  have h1 : |y - x| ≤ δ * |x| := by
    rcases h with rfl | rfl
    · rw [sub_self, abs_zero]; positivity
    · exact hr x
  have h2 : |y / w - x / w| ≤ δ * |x / w| := by
    rw [← sub_div, abs_div, abs_div, ← mul_div_assoc]
    exact div_le_div_of_nonneg_right h1 (abs_nonneg w)
  have h3 := hr (y / w)
  have h4 := abs_add_le (y / w - x / w) (x / w)
  rw [sub_add_cancel] at h4
  have h5 := abs_add_le (rd (y / w) - y / w) (y / w - x / w)
  rw [sub_add_sub_cancel] at h5
  have h6 : δ * |y / w| ≤ δ * ((1 + δ) * |x / w|) := mul_le_mul_of_nonneg_left (by linarith) h0
  have : ((1 + δ) ^ 2 - 1) * |x / w| = δ * ((1 + δ) * |x / w|) + δ * |x / w| := by ring
  linarith

/-- an entry which has been rounded at most once, with weight one -/
theorem back_exact {rd : K → K} {x y w : K} (h : y = x ∨ y = rd x) (hw : w = 1) (hx : rd x = x) : rd (y / w) = x / w := by
  rw [hw, div_one, div_one]
  rcases h with rfl | rfl
  · exact hx
  · rw [hx, hx]

/-- C113: what the caller gives comes back: weights exactly, points and fields within two roundings, and representable
points exactly where the weight is one -/
theorem C113_roundtrip {δ : K} {rd : K → K} (h0 : 0 ≤ δ) (hr : RelErr δ rd) {knots : Fin d → Nd K} {C : Nd K} {W F : Option (Nd K)}
    {sh : Fin d → ℤ} {s : ℤ} (h : ShapesFit knots C W F sh s) {control : CtrlArg K} {weights : Option (Nd K)}
    (hp : PassedAs C W control weights) :
    ∃ R, Fp.ctor rd knots control F weights = .ok R ∧ (∀ idx, R.weights idx = givenWeight C W s idx) ∧
      (∀ idx, givenWeight C W s idx ≠ 0 → ∀ c,
        |R.pointsF rd idx c - givenPoint C s idx c| ≤ ((1 + δ) ^ 2 - 1) * |givenPoint C s idx c| ∧
        (givenWeight C W s idx = 1 → rd (givenPoint C s idx c) = givenPoint C s idx c → R.pointsF rd idx c = givenPoint C s idx c)) ∧
      (F = none → R.fieldsF rd = none) ∧
      (∀ f, F = some f → f.shape = List.ofFn sh → ∃ D, R.fieldsF rd = some (1, D) ∧ ∀ idx, givenWeight C W s idx ≠ 0 →
        |D idx 0 - f.get (List.ofFn idx)| ≤ ((1 + δ) ^ 2 - 1) * |f.get (List.ofFn idx)|) ∧
      ∀ f, F = some f → ∀ nf : ℕ, f.shape = List.ofFn sh ++ [(nf : ℤ)] → 0 < nf → ∃ D, R.fieldsF rd = some (nf, D) ∧
        ∀ idx (c : ℕ), c < nf → givenWeight C W s idx ≠ 0 →
          |D idx c - f.get (List.ofFn idx ++ [(c : ℤ)])| ≤ ((1 + δ) ^ 2 - 1) * |f.get (List.ofFn idx ++ [(c : ℤ)])| := by
  obtain ⟨N, n1, n2, n3, n4, n5⟩ := C23_constructor h hp
  have hrun := C112_ctor rd knots hp F
  rw [n1] at hrun
  generalize hq : Fp.ctor rd knots control F weights = q at hrun
  obtain ⟨hR⟩ | _ := hrun
  rename_i R
  have hw : ∀ idx, R.weights idx = N.weights idx := hR.weight
  have hf : ∀ n D, N.fields = some (n, D) → ∃ D', R.fieldsF rd = some (n, D') ∧ ∀ idx c,
      |D' idx c - D idx c| ≤ ((1 + δ) ^ 2 - 1) * |D idx c| := by
    intro n D e
    unfold Nrb.fields at e
    split_ifs at e with hnc
    obtain ⟨rfl, rfl⟩ := Prod.mk.inj (Option.some.inj e)
    refine ⟨fun idx c => rd (R.P idx (4 + c) / R.weights idx), ?_, fun idx c => ?_⟩
    · unfold Nrb.fieldsF
      rw [hR.nc, if_neg hnc]
    · beta_reduce
      rw [hw]
      exact back_near h0 hr (hR.entry idx (4 + c))
  refine ⟨R, rfl, fun idx => (hw idx).trans (n4 idx).1, fun idx hne c => ⟨?_, fun h1 hx => ?_⟩, ?_, ?_, ?_⟩
  · rw [← (n4 idx).2 hne c]
    unfold Nrb.pointsF Nrb.points
    rw [hw]
    exact back_near h0 hr (hR.entry idx c)
  · have e1 : N.weights idx = 1 := (n4 idx).1.trans h1
    have e2 := (n4 idx).2 hne c
    unfold Nrb.points at e2
    rw [e1, div_one] at e2
    unfold Nrb.pointsF
    rw [hw, back_exact (hR.entry idx c) e1 (by rw [e2]; exact hx), e1, div_one, e2]
  · rintro rfl
    have e : N.fields = none := n5
    unfold Nrb.fields at e
    unfold Nrb.fieldsF
    rw [hR.nc]
    split_ifs at e with hnc
    rw [if_pos hnc]
  · rintro f rfl hs
    obtain ⟨D, d1, d2⟩ := n5.1 hs
    obtain ⟨D', e1, e2⟩ := hf 1 D d1
    refine ⟨D', e1, fun idx hne => ?_⟩
    rw [← d2 idx (by rw [(n4 idx).1]; exact hne)]
    exact e2 idx 0
  · rintro f rfl nf hs hnf
    obtain ⟨D, d1, d2⟩ := (n5.2 nf hs).2 hnf
    obtain ⟨D', e1, e2⟩ := hf nf D d1
    refine ⟨D', e1, fun idx c hc hne => ?_⟩
    rw [← d2 idx c hc (by rw [(n4 idx).1]; exact hne)]
    exact e2 idx c

namespace Ex

example := C113_roundtrip (by positivity) (fl_relErr 53) fits (Or.inr ⟨rfl, rfl⟩)

/-- a segment: knots `[0,0,1,1]`, points (x, 0) twice, weights 3 -/
def segW3 (x : ℚ) : Res (Nrb ℚ 1) :=
  Fp.ctor (fl 53) (fun _ => ⟨[4], fun i => vec [0, 0, 1, 1] (i.headD 0)⟩)
    (.arr ⟨[2, 2], fun i => if i.getLastD 0 = 0 then x else 0⟩) none (some ⟨[2], fun _ => 3⟩)

/-- C113: not exactly in general: the double nearest to 1/10, given with weight 3, comes back as the next double -/
theorem C113_not_exact : let x : ℚ := 3602879701896397 / 2 ^ 55
    fl 53 x = x ∧ ∃ R, segW3 x = .ok R ∧ R.pointsF (fl 53) ![0] 0 = x + 1 / 2 ^ 56 := by
  intro x
  refine ⟨by decide +kernel, _, rfl, ?_⟩
  decide +kernel

end Ex
end Igakit
