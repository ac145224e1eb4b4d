import Verif.Proofs.CurveSpec
import Verif.Proofs.Eval

/-! # The curve on a span is the diagonal of a form, for any sorted knot vector -/

set_option linter.unusedSectionVars false

namespace Igakit
open Spec

variable {K : Type*} [Field K] [LinearOrder K] [IsStrictOrderedRing K]
variable {E : Type*} [AddCommGroup E] [Module K E]

/-- `k` is the span of the domain that determines the curve at `u` -/
structure SpanOf (n : ℤ) (p : ℕ) (U : ℤ → K) (k : ℤ) (u : K) : Prop where
  lo : (p : ℤ) ≤ k
  hi : k ≤ n
  mem : (U k ≤ u ∧ u < U (k + 1)) ∨ (U k < u ∧ u = U (k + 1) ∧ u = U (n + 1))

namespace SpanOf
variable {n : ℤ} {p : ℕ} {U : ℤ → K} {k : ℤ} {u : K}

theorem ne (h : SpanOf n p U k u) : U k < U (k + 1) := by
  rcases h.mem with ⟨a, b⟩ | ⟨a, b, _⟩
  · exact lt_of_le_of_lt a b
  · exact b ▸ a

theorem left (h : SpanOf n p U k u) : U k ≤ u := by
  rcases h.mem with ⟨a, b⟩ | ⟨a, b, _⟩
  · exact a
  · exact a.le

theorem right (h : SpanOf n p U k u) : u ≤ U (k + 1) := by
  rcases h.mem with ⟨a, b⟩ | ⟨a, b, _⟩
  · exact b.le
  · exact b.le

theorem win (h : SpanOf n p U k u) (hs : SortedOn U 0 (n + p + 1)) : Win U k p :=
  Win.of_sorted hs h.ne (by have := h.lo; omega) (by have := h.hi; omega)

theorem basis (h : SpanOf n p U k u) (hs : SortedOn U 0 (n + p + 1)) {i : ℤ} (hi1 : 0 ≤ i) (hi2 : i ≤ n) :
    bsplineD n U p i u = piece U k p i u := by
  have h1 := h.lo
  have h2 := h.hi
  unfold bsplineD
  rcases h.mem with ⟨a, b⟩ | ⟨a, b, c⟩
  · rw [if_pos (lt_of_lt_of_le b (hs _ _ (by omega) (by omega) (by omega)))]
    exact bspline_eq_piece hs (by omega) (by omega) a b p i hi1 (by omega)
  · rw [if_neg (not_lt.mpr c.ge)]
    exact bsplineL_eq_piece hs (by omega) (by omega) a b.le p i hi1 (by omega)

theorem curve_sum (h : SpanOf n p U k u) (hs : SortedOn U 0 (n + p + 1)) (P : ℤ → E) :
    curve n p U P u = ∑ r ∈ Finset.range (p + 1), piece U k p (k - p + r) u • P (k - p + r) := by
  have h1 := h.lo
  have h2 := h.hi
  unfold curve
  rw [sum_window _ h1 h2 (fun i a b c => by
    rw [h.basis hs a b]
    rcases c with c | c
    · rw [piece_zero_of_lt _ _ _ _ _ (by omega), zero_smul]
    · rw [piece_zero_of_gt _ _ _ _ _ c, zero_smul])]
  apply Finset.sum_congr rfl
  intro r hr
  have := Finset.mem_range.mp hr
  rw [h.basis hs (by omega) (by omega)]

theorem curve_form (h : SpanOf n p U k u) (hs : SortedOn U 0 (n + p + 1)) {P : ℤ → E}
    {f : Multiset K → E} (hf : IsForm p f) (hr : Rep p U P (k - p) k f) :
    curve n p U P u = f (Multiset.replicate p u) := by
  rw [h.curve_sum hs, sum_piece_form hf hr (h.win hs)]

theorem of_findSpan (hv : ValidKnots n p U) (h1 : U p ≤ u) (h2 : u ≤ U (n + 1)) :
    SpanOf n p U (findSpan n p u U) u := by
  have hle := hv.le
  have h1le := hv.one_le
  by_cases h : u < U (n + 1)
  · rcases h1.eq_or_lt with h' | h'
    · rw [findSpan_le h h'.ge]
      exact ⟨le_rfl, hle, Or.inl ⟨h1, h' ▸ hv.first⟩⟩
    · obtain ⟨b1, b2, b3, b4⟩ := findSpan_mid (by omega) hv.le h' h
      exact ⟨b1, b2, Or.inl ⟨b3, b4⟩⟩
  · rw [findSpan_ge (not_lt.mp h)]
    have e := le_antisymm h2 (not_lt.mp h)
    exact ⟨hle, le_rfl, Or.inr ⟨e ▸ hv.last, e, e⟩⟩

/-- every parameter of a nonempty domain has a span -/
theorem exists' (_hs : SortedOn U 0 (n + p + 1)) (hlt : U p < U (n + 1)) (hpn : (p : ℤ) ≤ n)
    (h1 : U p ≤ u) (h2 : u ≤ U (n + 1)) : ∃ k, SpanOf n p U k u := by
  rcases h2.eq_or_lt with e | h2
  · -- largest k with U k < u
    have key : ∀ c : ℕ, (p : ℤ) + c ≤ n + 1 → ¬ (U (p + c) < u) → ∃ k, (p : ℤ) ≤ k ∧ k ≤ n ∧ U k < u ∧ ¬ U (k + 1) < u ∧ k + 1 ≤ p + c := by
      intro c
      induction c with
      | zero => intro _ h; exact absurd (e ▸ hlt) (by simpa using h)
      | succ c ih =>
        intro hc h
        by_cases hh : U (p + c) < u
        · refine ⟨p + c, by omega, by push_cast at hc; omega, hh, ?_, by push_cast; omega⟩
          rw [add_assoc]; exact_mod_cast h
        · obtain ⟨k, a, b, c', d, f⟩ := ih (by push_cast at hc; omega) hh
          exact ⟨k, a, b, c', d, by push_cast; omega⟩
    obtain ⟨k, a, b, c, d, _⟩ := key (n + 1 - p).toNat (by omega) (by
      rw [show (p : ℤ) + ((n + 1 - p).toNat : ℤ) = n + 1 by omega]; exact not_lt.mpr e.le)
    refine ⟨k, a, b, Or.inr ⟨c, le_antisymm (not_lt.mp d) ?_, e⟩⟩
    rw [e]; exact _hs _ _ (by omega) (by omega) (by omega)
  · have key : ∀ c : ℕ, (p : ℤ) + c ≤ n + 1 → u < U (p + c) → ∃ k, (p : ℤ) ≤ k ∧ k ≤ n ∧ U k ≤ u ∧ u < U (k + 1) ∧ k + 1 ≤ p + c := by
      intro c
      induction c with
      | zero => intro _ h; exact absurd h1 (not_le.mpr (by simpa using h))
      | succ c ih =>
        intro hc h
        by_cases hh : u < U (p + c)
        · obtain ⟨k, a, b, c', d, f⟩ := ih (by push_cast at hc; omega) hh
          exact ⟨k, a, b, c', d, by push_cast; omega⟩
        · refine ⟨p + c, by omega, by push_cast at hc; omega, not_lt.mp hh, ?_, by push_cast; omega⟩
          rw [add_assoc]; exact_mod_cast h
    obtain ⟨k, a, b, c, d, _⟩ := key (n + 1 - p).toNat (by omega) (by
      rw [show (p : ℤ) + ((n + 1 - p).toNat : ℤ) = n + 1 by omega]; exact h2)
    exact ⟨k, a, b, Or.inl ⟨c, d⟩⟩

end SpanOf

/-- two curves agree at `u` if the form of one span represents the other -/
theorem curve_transfer {n n' : ℤ} {p : ℕ} {U V : ℤ → K} {P Q : ℤ → E} {u v : K} {k k' : ℤ}
    (h : SpanOf n p U k u) (hs : SortedOn U 0 (n + p + 1)) (h' : SpanOf n' p V k' v)
    (hs' : SortedOn V 0 (n' + p + 1)) (huv : u = v)
    (hr : ∀ f : Multiset K → E, IsForm p f → Rep p U P (k - p) k f → Rep p V Q (k' - p) k' f) :
    curve n' p V Q v = curve n p U P u := by
  obtain ⟨f, hf, hrep⟩ := exists_form P (h.win hs)
  rw [h.curve_form hs hf hrep, h'.curve_form hs' hf (hr f hf hrep), huv]


/-- the form of the span to the left of `u` also gives the curve at `u` when the multiplicity of `u`
is at most the degree -/
theorem curve_form_left {n : ℤ} {p : ℕ} {U : ℤ → K} {P : ℤ → E} {u : K} {k : ℤ}
    (hs : SortedOn U 0 (n + p + 1)) (hm : u < U (n + 1) → mult U 0 (n + p + 1) u ≤ p)
    (h1 : (p : ℤ) ≤ k) (h2 : k ≤ n) (hl : U k < u) (hr : u ≤ U (k + 1)) {f : Multiset K → E}
    (hf : IsForm p f) (hrep : Rep p U P (k - p) k f) :
    curve n p U P u = f (Multiset.replicate p u) := by
  rcases hr.eq_or_lt with e | hr
  · have hU : u ≤ U (n + 1) := e.le.trans (hs _ _ (by omega) (by omega) (by omega))
    rcases hU.eq_or_lt with e' | hU
    · exact SpanOf.curve_form ⟨h1, h2, Or.inr ⟨hl, e, e'⟩⟩ hs hf hrep
    · have hp0 : U p ≤ u := (hs _ _ (by omega) (by omega) (by omega)).trans hl.le
      obtain ⟨k', hk'⟩ := SpanOf.exists' (n := n) (p := p) hs (lt_of_le_of_lt hp0 hU) (by omega) hp0 hU.le
      have hh : U k' ≤ u ∧ u < U (k' + 1) := by
        rcases hk'.mem with h | h
        · exact h
        · exact absurd h.2.2 hU.ne
      have hlo := hk'.lo
      have hhi := hk'.hi
      have hkk : k < k' := by
        by_contra hc
        have := hs (k' + 1) (k + 1) (by omega) (by omega) (by omega)
        rw [← e] at this
        exact absurd hh.2 (not_lt.mpr this)
      have hall : ∀ j, k < j → j ≤ k' → U j = u := by
        intro j a b
        apply le_antisymm
        · exact (hs j k' (by omega) b (by omega)).trans hh.1
        · rw [e]; exact hs (k + 1) j (by omega) (by omega) (by omega)
      have hsub : Finset.Icc (k + 1) k' ⊆ (Finset.Icc 0 (n + p + 1)).filter (fun i => U i = u) := by
        intro x hx
        simp only [Finset.mem_filter, Finset.mem_Icc] at hx ⊢
        exact ⟨by omega, hall x (by omega) hx.2⟩
      have hc := Finset.card_le_card hsub
      rw [Int.card_Icc] at hc
      have hm := hm hU
      unfold mult at hm
      have hw : Win U k p := Win.of_sorted hs (e ▸ hl) (by omega) (by omega)
      obtain ⟨g, hg, hgrep⟩ := exists_form P (hk'.win hs)
      rw [hk'.curve_form hs hg hgrep]
      exact (form_agree_knot hf hg hkk.le (by omega) hw (hk'.win hs) hrep hgrep hall).symm
  · exact SpanOf.curve_form ⟨h1, h2, Or.inl ⟨hl.le, hr⟩⟩ hs hf hrep

end Igakit
