import Verif.Proofs.FloatEnds
import Verif.Props.Float
import Verif.Props.FloatPlace
import Verif.Proofs.FloatSterbenz

/-!
# Property C109: clamped ends in floating point
-/

set_option linter.unusedSectionVars false

namespace Igakit
open Spec

variable {K : Type} [Field K] [LinearOrder K] [IsStrictOrderedRing K] {d : ℕ}

/-- the length `l` times its reciprocal, computed in floating point, is one -/
def Spec.Recip (rd : K → K) (l : K) : Prop := rd (rd l * rd (1 / rd l)) = 1

/-- `u` is an end of axis `a` which is clamped, and control point `j` is the one at this end; the element there has a reciprocal -/
def Spec.AtEnd (rd : K → K) (N : Nrb K d) (a : Fin d) (u : K) (j : ℤ) : Prop :=
  (u = N.lo a ∧ ClampedL (N.degree a) (N.U a) ∧ Recip rd (N.U a (N.degree a + 1) - N.lo a) ∧ j = 0) ∨
  (u = N.hi a ∧ ClampedR (N.n a) (N.degree a) (N.U a) ∧ Recip rd (N.hi a - N.U a (N.n a)) ∧ j = N.n a)

theorem rd_ne {δ : K} {rd : K → K} (hδ : δ < 1) (hr : RelErr δ rd) {x : K} (hx : x ≠ 0) : rd x ≠ 0 := by
  intro h
  have := hr x
  rw [h, zero_sub, abs_neg] at this
  have p := abs_pos.2 hx
  nlinarith

/-- at a clamped end the basis functions pick the first or the last control point -/
theorem atEnd_picks {δ : K} {rd : K → K} (hδ : δ < 1) (hr : RelErr δ rd) (hone : rd 1 = 1) (hid : ∀ x, rd (rd x) = rd x) (jk : ℤ → Fp K)
    {N : Nrb K d} (hv : N.Valid) {a : Fin d} {u : K} {j : ℤ} (h : AtEnd rd N a u j) :
    Fp.Picks rd jk (N.n a) (N.degree a) (N.U a) u j := by
  have hz : rd 0 = 0 := rd_zero hr
  have hva := hv a
  have hp := hva.one_le
  have hle := hva.le
  obtain ⟨p, hpp⟩ := Int.eq_ofNat_of_zero_le (by omega : 0 ≤ N.degree a)
  have elo : N.lo a = N.U a (N.degree a) := rfl
  have ehi : N.hi a = N.U a (N.n a + 1) := Nrb.hi_eq N a
  rw [hpp] at hva elo hp hle
  rcases h with ⟨rfl, hc, hx, rfl⟩ | ⟨rfl, hc, hx, rfl⟩
  · rw [hpp] at hc hx ⊢
    have hlt : N.lo a < N.U a (p + 1) := elo ▸ hva.first
    have hs : findSpan (N.n a) p (N.lo a) (N.U a) = p := findSpan_eq hva le_rfl hle elo.ge hlt
    constructor
    · rw [hs]; omega
    · rw [hs]; omega
    · rw [hs, show (0 : ℤ) - p + p = 0 by ring]
      refine Fp.basisFuns_left hz hone (fun x => rd_ne hδ hr) hid jk (fun i i1 i2 => ?_) (fun i i1 i2 => ?_) hx
      · rw [elo]
        exact hc _ (by omega) (by omega)
      · exact ((hlt.trans_le (hva.sorted _ _ (by omega) (by omega) (by omega)))).ne'
  · rw [hpp] at hc ⊢
    have hlt : N.U a (N.n a) < N.hi a := ehi ▸ hva.last
    have hs : findSpan (N.n a) p (N.hi a) (N.U a) = N.n a := findSpan_ge ehi.ge
    constructor
    · rw [hs]; omega
    · rw [hs]
    · rw [hs, show N.n a - N.n a + (p : ℤ) = p by ring]
      refine Fp.basisFuns_right hz hone (fun x => rd_ne hδ hr) hid jk (fun i i1 i2 => ?_) (fun i i1 i2 => ?_) hx
      · exact (lt_of_le_of_lt (hva.sorted _ _ (by omega) (by omega) (by omega)) hlt).ne
      · rw [ehi]
        exact hc _ (by omega) (by omega)

/-- C109: at a corner of the domain with clamped knots, where every element has a reciprocal, the call gives the quotient of the
control point there and its weight, rounded once.  With weight one this is the control point -/
theorem C109_corner {δ : K} {rd : K → K} (hδ : δ < 1) (hr : RelErr δ rd) (hone : rd 1 = 1) (hid : ∀ x, rd (rd x) = rd x)
    (jk : ℤ → Fp K) (je : ℤ → ℕ → Fp K) {N : Nrb K d} (hd : d ≤ 3) (hv : N.Valid) {r : Fin d → ℤ} {X : Fin d → ℤ → K}
    (hn : ∀ a, 0 ≤ r a) (hx : ∀ a i, 0 ≤ i → i ≤ r a → N.lo a ≤ X a i ∧ X a i ≤ N.hi a) :
    ∃ C, N.callF rd jk je r X = .ok C ∧ ∀ g : Fin d → ℤ, (∀ a, 0 ≤ g a ∧ g a ≤ r a) → ∀ idx : Fin d → ℤ,
      (∀ a, AtEnd rd N a (X a (g a)) (idx a)) → N.P idx 3 ≠ 0 → rd (N.P idx 3) = N.P idx 3 → ∀ c : ℕ,
      (rd (N.P idx c) = N.P idx c → (C g).1 c = some (rd (N.P idx c / N.P idx 3))) ∧
      (rd (N.P idx (4 + c)) = N.P idx (4 + c) → (C g).2 c = some (rd (N.P idx (4 + c) / N.P idx 3))) := by
  have hz : rd 0 = 0 := rd_zero hr
  have key : ∃ CF, Nrb.evaluateF rd jk je N r X = .ok CF ∧ ∀ g : Fin d → ℤ, (∀ a, 0 ≤ g a ∧ g a ≤ r a) → ∀ idx : Fin d → ℤ,
      (∀ a, AtEnd rd N a (X a (g a)) (idx a)) → ∀ c : ℕ, rd (N.P idx c) = N.P idx c → CF g c = some (N.P idx c) := by
    have pk := fun (g idx : Fin d → ℤ) (h : ∀ a, AtEnd rd N a (X a (g a)) (idx a)) a => atEnd_picks hδ hr hone hid jk hv (h a)
    match d, hd, N, r, X, pk with
    | 0, _, N, _, _, _ =>
      refine ⟨_, rfl, fun g _ idx _ c _ => ?_⟩
      rw [Subsingleton.elim idx ![]]
    | 1, _, N, r, X, pk =>
      refine ⟨_, rfl, fun g hg idx h c hc => ?_⟩
      have e : idx = ![idx 0] := by funext a; fin_cases a; rfl
      rw [e] at hc ⊢
      exact Fp.evaluate1_pick hz hone jk je (P := fun j => N.P ![j]) (hg 0) (pk g idx h 0) hc
    | 2, _, N, r, X, pk =>
      refine ⟨_, rfl, fun g hg idx h c hc => ?_⟩
      have e : idx = ![idx 0, idx 1] := by funext a; fin_cases a <;> rfl
      rw [e] at hc ⊢
      exact Fp.evaluate2_pick hz hone jk (fun _ => je) (P := fun j k => N.P ![j, k]) (hg 0) (hg 1) (pk g idx h 0) (pk g idx h 1) hc
    | 3, _, N, r, X, pk =>
      refine ⟨_, rfl, fun g hg idx h c hc => ?_⟩
      have e : idx = ![idx 0, idx 1, idx 2] := by funext a; fin_cases a <;> rfl
      rw [e] at hc ⊢
      exact Fp.evaluate3_pick hz hone jk (fun _ _ => je) (P := fun j k l => N.P ![j, k, l]) (hg 0) (hg 1) (hg 2) (pk g idx h 0)
        (pk g idx h 1) (pk g idx h 2) hc
  obtain ⟨CF, h1, h2⟩ := key
  have dv : ∀ g idx c, (∀ a, 0 ≤ g a ∧ g a ≤ r a) → (∀ a, AtEnd rd N a (X a (g a)) (idx a)) → N.P idx 3 ≠ 0 →
      rd (N.P idx 3) = N.P idx 3 → rd (N.P idx c) = N.P idx c →
      Fp.div rd (CF g c) (CF g 3) = some (rd (N.P idx c / N.P idx 3)) := by
    intro g idx c hg h w hw hc
    rw [h2 g hg idx h c hc, h2 g hg idx h 3 hw]
    exact if_neg w
  unfold Nrb.callF
  rw [callArg_ok hn hx, h1]
  exact ⟨_, rfl, fun g hg idx h w hw c => ⟨dv g idx c hg h w hw, dv g idx (4 + c) hg h w hw⟩⟩

/-- C109: with weight one the control point itself is returned -/
theorem C109_unit {δ : K} {rd : K → K} (hδ : δ < 1) (hr : RelErr δ rd) (hone : rd 1 = 1) (hid : ∀ x, rd (rd x) = rd x)
    (jk : ℤ → Fp K) (je : ℤ → ℕ → Fp K) {N : Nrb K d} (hd : d ≤ 3) (hv : N.Valid) {r : Fin d → ℤ} {X : Fin d → ℤ → K}
    (hn : ∀ a, 0 ≤ r a) (hx : ∀ a i, 0 ≤ i → i ≤ r a → N.lo a ≤ X a i ∧ X a i ≤ N.hi a) :
    ∃ C, N.callF rd jk je r X = .ok C ∧ ∀ g : Fin d → ℤ, (∀ a, 0 ≤ g a ∧ g a ≤ r a) → ∀ idx : Fin d → ℤ,
      (∀ a, AtEnd rd N a (X a (g a)) (idx a)) → N.P idx 3 = 1 → ∀ c : ℕ,
      (rd (N.P idx c) = N.P idx c → (C g).1 c = some (N.P idx c)) ∧
      (rd (N.P idx (4 + c)) = N.P idx (4 + c) → (C g).2 c = some (N.P idx (4 + c))) := by
  obtain ⟨C, h1, h2⟩ := C109_corner hδ hr hone hid jk je hd hv hn hx
  refine ⟨C, h1, fun g hg idx h w c => ?_⟩
  have := h2 g hg idx h (by rw [w]; exact one_ne_zero) (by rw [w, hone]) c
  rw [w, div_one, div_one] at this
  exact ⟨fun hc => by rw [this.1 hc, hc], fun hc => by rw [this.2 hc, hc]⟩

/-- C109: elements whose length is a power of two have a reciprocal, in every precision -/
theorem C109_power {t : ℕ} (ht : 1 ≤ t) (e : ℤ) : Recip (Ex.fl t) (2 ^ e) := by
  unfold Recip
  rw [Ex.fl_pow ht, one_div, ← zpow_neg, Ex.fl_pow ht, ← zpow_add₀ (by norm_num), add_neg_cancel, zpow_zero, Ex.fl_one ht]

namespace Ex

/-- a segment over `[0, 49]` whose first control point has weight 3 -/
def seg49 : Nrb ℚ 1 where
  shape _ := 2
  nc := 4
  len _ := 4
  U _ := vec [0, 0, 49, 49]
  P idx c := if idx 0 = 0 then (if c = 0 then 1 else if c = 3 then 3 else 0) else (if c = 3 then 1 else 0)

/-- a reciprocal is needed: at the start of `seg49`, whose control point is (1/3, 0, 0), doubles do not give the rounded third -/
theorem C109_needed (jk : ℤ → Fp ℚ) (je : ℤ → ℕ → Fp ℚ) : ¬ Recip (fl 53) 49 ∧
    ∃ C, seg49.callF (fl 53) jk je (fun _ => 0) (fun _ _ => 0) = .ok C ∧ (C ![0]).1 0 ≠ some (fl 53 (1 / 3)) := by
  refine ⟨by unfold Recip; decide +kernel, ?_⟩
  obtain ⟨N, n1, n2, n3⟩ := C71_not_exact jk
  have hs : findSpan 1 1 (0 : ℚ) (vec [0, 0, 49, 49]) = 1 := by decide +kernel
  unfold Fp.EvalBasisFuns at n1
  rw [if_pos (by norm_num), if_neg (by norm_num), show (3 : ℤ) - (1 + 1) = 1 by norm_num, hs] at n1
  obtain rfl := Except.ok.inj n1
  have ev : ∀ c, Fp.evaluate1 (fl 53) jk je 1 1 (vec [0, 0, 49, 49]) (fun j => seg49.P ![j]) 0 (fun _ => 0) 0 c =
      Fp.accum (fl 53) (some 0) (seg49.P ![1]) (Fp.accum (fl 53) (some (1 - 1 / 2 ^ 53)) (seg49.P ![0]) (fun _ => some 0)) c := by
    intro c
    unfold Fp.evaluate1
    simp only
    rw [Igakit.forUp_fill (fun i => forUp 0 (1 : ℤ) (fun j C => Fp.accum (fl 53) (Fp.basisFuns (fl 53) jk
      (findSpan 1 1 (0 : ℚ) (vec [0, 0, 49, 49])) 0 1 (vec [0, 0, 49, 49]) j)
      (seg49.P ![findSpan 1 1 (0 : ℚ) (vec [0, 0, 49, 49]) - 1 + j]) C) (fun _ => some 0)), if_pos ⟨le_rfl, le_rfl⟩, hs]
    show Fp.accum (fl 53) (Fp.basisFuns (fl 53) jk 1 0 1 (vec [0, 0, 49, 49]) 1) (seg49.P ![1]) (Fp.accum (fl 53)
      (Fp.basisFuns (fl 53) jk 1 0 1 (vec [0, 0, 49, 49]) 0) (seg49.P ![0]) (fun _ => some 0)) c = _
    rw [n2, n3]
  refine ⟨_, by
    unfold Nrb.callF
    rw [callArg_ok (fun _ => le_rfl) (fun a i _ _ => by
      show vec [(0 : ℚ), 0, 49, 49] 1 ≤ 0 ∧ (0 : ℚ) ≤ vec [(0 : ℚ), 0, 49, 49] 2
      decide +kernel)]
    rfl, ?_⟩
  show Fp.div (fl 53) (Fp.evaluate1 (fl 53) jk je 1 1 (vec [0, 0, 49, 49]) (fun j => seg49.P ![j]) 0 (fun _ => 0) 0 0)
    (Fp.evaluate1 (fl 53) jk je 1 1 (vec [0, 0, 49, 49]) (fun j => seg49.P ![j]) 0 (fun _ => 0) 0 3) ≠ _
  rw [ev, ev]
  decide +kernel

/-- a patch with weights one over `[0, 2] × [0, 1]` with a knot at 1: elements of length 1 -/
def tile : Nrb ℚ 2 where
  shape := ![4, 2]
  nc := 4
  len := ![7, 4]
  U := ![vec [0, 0, 0, 1, 2, 2, 2], vec [0, 0, 1, 1]]
  P idx c := if c = 0 then 1 / 4 + idx 0 else if c = 1 then idx 1 else if c = 3 then 1 else 0

theorem tile_valid : tile.Valid := by
  intro a
  fin_cases a
  · show ValidKnots 3 2 (vec [(0 : ℚ), 0, 0, 1, 2, 2, 2])
    refine ⟨by norm_num, by norm_num, ?_, by decide +kernel, by decide +kernel⟩
    apply sortedOn_of_steps
    intro i h1 h2
    have : i = 0 ∨ i = 1 ∨ i = 2 ∨ i = 3 ∨ i = 4 ∨ i = 5 := by omega
    rcases this with rfl | rfl | rfl | rfl | rfl | rfl <;> decide +kernel
  · show ValidKnots 1 1 (vec [(0 : ℚ), 0, 1, 1])
    refine ⟨by norm_num, by norm_num, ?_, by decide +kernel, by decide +kernel⟩
    apply sortedOn_of_steps
    intro i h1 h2
    have : i = 0 ∨ i = 1 ∨ i = 2 := by omega
    rcases this with rfl | rfl | rfl <;> decide +kernel

/-- the corner (2, 0) of `tile` with doubles: exactly the control point (13/4, 0, 0) -/
example (jk : ℤ → Fp ℚ) (je : ℤ → ℕ → Fp ℚ) : ∃ C, tile.callF (fl 53) jk je (fun _ => 0) ![fun _ => 2, fun _ => 0] = .ok C ∧
    (C ![0, 0]).1 0 = some (13 / 4) := by
  obtain ⟨C, c1, c2⟩ := C109_unit (N := tile) (by norm_num : (2 : ℚ) ^ (-(53 : ℕ) : ℤ) < 1) (fl_relErr 53) (fl_one (by norm_num))
    (fun x => fl_exact (by norm_num) (fl_mem 53 x)) jk je (by norm_num) tile_valid (r := fun _ => 0)
    (X := ![fun _ => 2, fun _ => 0]) (fun _ => le_rfl) (fun a i _ _ => by
      fin_cases a
      · show vec [(0 : ℚ), 0, 0, 1, 2, 2, 2] 2 ≤ 2 ∧ (2 : ℚ) ≤ vec [(0 : ℚ), 0, 0, 1, 2, 2, 2] 4
        decide +kernel
      · show vec [(0 : ℚ), 0, 1, 1] 1 ≤ 0 ∧ (0 : ℚ) ≤ vec [(0 : ℚ), 0, 1, 1] 2
        decide +kernel)
  refine ⟨C, c1, ?_⟩
  have := (c2 ![0, 0] (fun a => by fin_cases a <;> exact ⟨le_rfl, le_rfl⟩) ![3, 0] (fun a => by
    fin_cases a
    · refine Or.inr ⟨by decide +kernel, ?_, ?_, by decide +kernel⟩
      · intro j a b
        have a' : 4 ≤ j := a
        have b' : j ≤ 6 := b
        have : j = 4 ∨ j = 5 ∨ j = 6 := by omega
        rcases this with rfl | rfl | rfl <;> decide +kernel
      · unfold Recip
        decide +kernel
    · refine Or.inl ⟨by decide +kernel, ?_, ?_, by decide +kernel⟩
      · intro j a b
        have b' : j ≤ 1 := b
        have : j = 0 ∨ j = 1 := by omega
        rcases this with rfl | rfl <;> decide +kernel
      · unfold Recip
        decide +kernel) (by decide +kernel) 0).1 (by decide +kernel)
  rw [this]
  decide +kernel

end Ex
end Igakit
