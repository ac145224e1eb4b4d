import Verif.Model.BSpline
import Verif.Spec.Knots

set_option linter.unusedSectionVars false

namespace Igakit
open Spec

variable {K : Type*} [Field K] [LinearOrder K]

theorem findSpanLoop_spec (fuel : ℕ) (n p : ℤ) (uu : K) (U : ℤ → K) (h0 : 0 ≤ p) (hpn : p ≤ n)
    (h1 : U p < uu) (h2 : uu < U (n + 1)) (hf : (n + 1 - p).toNat ≤ fuel) :
    ∃ s, findSpanLoop fuel n p uu U = some s ∧ p ≤ s.span ∧ s.span ≤ n ∧
      U s.span ≤ uu ∧ uu < U (s.span + 1) := by
  have key := whileFuel_total (c := findSpanCond uu U) (b := findSpanBody uu U)
    (fun s => p ≤ s.low ∧ s.low < s.high ∧ s.high ≤ n + 1 ∧ U s.low ≤ uu ∧ uu < U s.high ∧
      s.span = (s.low + s.high) / 2) (fun s => (s.high - s.low).toNat)
    (by
      rintro ⟨low, high, span⟩ ⟨a1, a2, a3, a4, a5, a6⟩ hc
      simp only at a1 a2 a3 a4 a5 a6
      simp only [findSpanCond, Bool.or_eq_true, decide_eq_true_eq] at hc
      unfold findSpanBody
      by_cases hlt : uu < U span
      · have hne : span ≠ low := by
          rintro rfl; exact absurd hlt (not_lt.mpr a4)
        rw [if_pos hlt]
        dsimp only
        refine ⟨⟨a1, by omega, by omega, a4, hlt, ?_⟩, by omega⟩
        rw [Int.tdiv_eq_ediv_of_nonneg (by omega)]
      · rw [if_neg hlt]
        dsimp only
        have hge : uu ≥ U (span + 1) := by
          rcases hc with hc | hc
          · exact absurd hc hlt
          · exact hc
        have hne : span + 1 ≠ high := by
          intro he; rw [he] at hge; exact absurd a5 (not_lt.mpr hge)
        refine ⟨⟨by omega, by omega, by omega, not_lt.mp hlt, a5, ?_⟩, by omega⟩
        rw [Int.tdiv_eq_ediv_of_nonneg (by omega)])
    fuel { low := p, high := n + 1, span := (p + (n + 1)).tdiv 2 }
    (by
      refine ⟨le_refl _, by simp only; omega, le_refl _, le_of_lt h1, h2, ?_⟩
      rw [Int.tdiv_eq_ediv_of_nonneg (by omega)])
    (by simpa using hf)
  obtain ⟨s, hs, ⟨a1, a2, a3, a4, a5, a6⟩, hc⟩ := key
  simp only [findSpanCond, Bool.or_eq_false_iff, decide_eq_false_iff_not, not_lt, ge_iff_le,
    not_le] at hc
  exact ⟨s, hs, by omega, by omega, hc.1, hc.2⟩

theorem findSpan_ge {n p : ℤ} {uu : K} {U : ℤ → K} (h : U (n + 1) ≤ uu) :
    findSpan n p uu U = n := by
  unfold findSpan; rw [if_pos h]

theorem findSpan_le {n p : ℤ} {uu : K} {U : ℤ → K} (h : uu < U (n + 1)) (h' : uu ≤ U p) :
    findSpan n p uu U = p := by
  unfold findSpan; rw [if_neg (not_le.mpr h), if_pos h']

theorem findSpan_mid {n p : ℤ} {uu : K} {U : ℤ → K} (h0 : 0 ≤ p) (hpn : p ≤ n)
    (h1 : U p < uu) (h2 : uu < U (n + 1)) :
    p ≤ findSpan n p uu U ∧ findSpan n p uu U ≤ n ∧
      U (findSpan n p uu U) ≤ uu ∧ uu < U (findSpan n p uu U + 1) := by
  obtain ⟨s, hs, h⟩ := findSpanLoop_spec (n + 1 - p).toNat n p uu U h0 hpn h1 h2 (le_refl _)
  have e : findSpan n p uu U = s.span := by
    unfold findSpan
    rw [if_neg (not_le.mpr h2), if_neg (not_le.mpr h1), hs]
  rw [e]; exact h

/-- On a sorted array the bracketing index is unique. -/
theorem span_unique {U : ℤ → K} {lo hi : ℤ} (hs : SortedOn U lo hi) {u : K} {i j : ℤ}
    (hi1 : lo ≤ i) (hi2 : i + 1 ≤ hi) (hj1 : lo ≤ j) (hj2 : j + 1 ≤ hi)
    (a1 : U i ≤ u) (a2 : u < U (i + 1)) (b1 : U j ≤ u) (b2 : u < U (j + 1)) : i = j := by
  rcases lt_trichotomy i j with h | h | h
  · have := hs (i + 1) j (by omega) (by omega) (by omega)
    exact absurd (lt_of_lt_of_le a2 (le_trans this b1)) (lt_irrefl _)
  · exact h
  · have := hs (j + 1) i (by omega) (by omega) (by omega)
    exact absurd (lt_of_lt_of_le b2 (le_trans this a1)) (lt_irrefl _)

theorem findSpan_eq {n p : ℤ} {U : ℤ → K} (hv : ValidKnots n p U) {u : K} {k : ℤ}
    (hk1 : p ≤ k) (hk2 : k ≤ n) (h1 : U k ≤ u) (h2 : u < U (k + 1)) :
    findSpan n p u U = k := by
  have := hv.one_le
  have hlt : u < U (n + 1) :=
    lt_of_lt_of_le h2 (hv.sorted _ _ (by omega) (by omega) (by omega))
  have hpu : U p ≤ u := le_trans (hv.sorted _ _ (by omega) (by omega) (by omega)) h1
  rcases hpu.eq_or_lt with h | h
  · rw [findSpan_le hlt h.ge]
    refine (span_unique hv.sorted (by omega) (by omega) (by omega) (by omega) h1 h2 h.le ?_).symm
    rw [← h]; exact hv.first
  · obtain ⟨b1, b2, b3, b4⟩ := findSpan_mid (by omega) hv.le h hlt
    exact (span_unique hv.sorted (by omega) (by omega) (by omega) (by omega) h1 h2 b3 b4).symm

theorem findSpan_range {n p : ℤ} {U : ℤ → K} (u : K) (h0 : 0 ≤ p) (hpn : p ≤ n) :
    p ≤ findSpan n p u U ∧ findSpan n p u U ≤ n := by
  by_cases h : U (n + 1) ≤ u
  · rw [findSpan_ge h]; omega
  · by_cases h' : u ≤ U p
    · rw [findSpan_le (not_le.mp h) h']; omega
    · have := findSpan_mid h0 hpn (not_le.mp h') (not_le.mp h); omega

theorem findSpan_inSpan {n p : ℤ} {U : ℤ → K} (hv : ValidKnots n p U) {u : K}
    (h1 : U p ≤ u) (h2 : u ≤ U (n + 1)) : InSpan U (findSpan n p u U) u := by
  have := hv.one_le
  have := hv.le
  by_cases h : U (n + 1) ≤ u
  · rw [findSpan_ge h]
    exact ⟨le_trans hv.last.le h, h2, hv.last⟩
  · have hlt := not_le.mp h
    rcases h1.eq_or_lt with h' | h'
    · rw [findSpan_le hlt h'.ge]
      exact ⟨h1, h' ▸ hv.first.le, hv.first⟩
    · obtain ⟨b1, b2, b3, b4⟩ := findSpan_mid (by omega) hv.le h' hlt
      exact ⟨b3, b4.le, lt_of_le_of_lt b3 b4⟩

end Igakit
