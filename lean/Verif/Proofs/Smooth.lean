import Verif.Proofs.CurveForm
import Mathlib.Analysis.Calculus.ContDiff.Basic
import Mathlib.Analysis.Calculus.ContDiff.Operations
import Mathlib.Analysis.Calculus.IteratedDeriv.Defs
import Mathlib.Analysis.Calculus.Deriv.Pow

/-! # Smoothness of splines -/

set_option linter.unusedSectionVars false

namespace Igakit
open Spec Set Filter Topology

/-! ## truncated powers -/

theorem truncPow_hasDeriv (r : ℕ) (x : ℝ) :
    HasDerivAt (fun x : ℝ => if x < 0 then 0 else x ^ (r + 2)) ((r + 2 : ℕ) * (if x < 0 then 0 else x ^ (r + 1))) x := by
  rcases lt_trichotomy x 0 with h | h | h
  · rw [if_pos h, mul_zero]
    refine (hasDerivAt_const x (0 : ℝ)).congr_of_eventuallyEq ?_
    filter_upwards [Iio_mem_nhds h] with y hy
    exact if_pos hy
  · subst h
    rw [if_neg (lt_irrefl _), zero_pow (by omega), mul_zero]
    rw [hasDerivAt_iff_isLittleO]
    simp only [lt_irrefl, if_false, sub_zero, smul_zero, zero_pow (show r + 2 ≠ 0 by omega)]
    have h1 : (fun x : ℝ => x ^ (r + 2)) =o[𝓝 0] fun x => x := by
      have := Asymptotics.isLittleO_pow_id (𝕜 := ℝ) (n := r + 2) (by omega)
      simpa using this
    refine Asymptotics.IsBigO.trans_isLittleO ?_ h1
    refine Asymptotics.isBigO_of_le _ (fun x => ?_)
    split
    · simp
    · exact le_rfl
  · rw [if_neg (not_lt.2 h.le)]
    have := hasDerivAt_pow (r + 2) x
    rw [show r + 2 - 1 = r + 1 by omega] at this
    refine this.congr_of_eventuallyEq ?_
    filter_upwards [Ioi_mem_nhds h] with y hy
    exact if_neg (not_lt.2 (le_of_lt hy))

theorem truncPow_contDiff (r : ℕ) : ContDiff ℝ r (fun x : ℝ => if x < 0 then 0 else x ^ (r + 1)) := by
  induction r with
  | zero =>
    rw [Nat.cast_zero, contDiff_zero]
    simp only [zero_add, pow_one]
    have : (fun x : ℝ => if x < 0 then 0 else x) = fun x => max x 0 := by
      funext x
      split
      · rename_i h; rw [max_eq_right h.le]
      · rename_i h; rw [max_eq_left (not_lt.1 h)]
    rw [this]
    exact continuous_id.max continuous_const
  | succ r ih =>
    rw [Nat.cast_succ, contDiff_succ_iff_deriv]
    have hd : deriv (fun x : ℝ => if x < 0 then 0 else x ^ (r + 1 + 1)) =
        fun x => ((r + 2 : ℕ) : ℝ) * (if x < 0 then 0 else x ^ (r + 1)) :=
      funext fun x => (truncPow_hasDeriv r x).deriv
    refine ⟨fun x => (truncPow_hasDeriv r x).differentiableAt, fun h => by simp at h, ?_⟩
    rw [hd]
    exact contDiff_const.mul ih

/-! ## gluing two smooth pieces -/

theorem glue_contDiffAt {r : ℕ} {f A q : ℝ → ℝ} {u0 : ℝ} (hA : ContDiffAt ℝ r A u0) (hq : ContDiffAt ℝ r q u0)
    (hf : ∀ᶠ u in 𝓝 u0, f u = A u + (if u < u0 then 0 else (u - u0) ^ (r + 1) * q u)) : ContDiffAt ℝ r f u0 := by
  have h1 : ContDiffAt ℝ r (fun u => A u + (if u - u0 < 0 then 0 else (u - u0) ^ (r + 1)) * q u) u0 := by
    refine hA.add (ContDiffAt.mul ?_ hq)
    have := (truncPow_contDiff r).contDiffAt (x := u0 - u0)
    exact ContDiffAt.comp (f := fun u => u - u0) u0 this (contDiffAt_id.sub contDiffAt_const)
  refine h1.congr_of_eventuallyEq ?_
  filter_upwards [hf] with u hu
  rw [hu]
  congr 1
  by_cases h : u < u0
  · rw [if_pos h, if_pos (sub_neg.2 h), zero_mul]
  · rw [if_neg h, if_neg (fun h' => h (sub_neg.1 h'))]

/-! ## forms on the diagonal -/

theorem form_power {p m : ℕ} {h : Multiset ℝ → ℝ} (hf : IsForm p h) {u0 : ℝ}
    (hz : ∀ s : Multiset ℝ, s.card + m = p → h (s + Multiset.replicate m u0) = 0) (n : WithTop ℕ∞) :
    ∀ c b e : ℕ, c + b + e = p → ∃ q : ℝ → ℝ, ContDiff ℝ n q ∧ ∀ u : ℝ,
      h (Multiset.replicate c u + (Multiset.replicate b u0 + Multiset.replicate e (u0 + 1))) =
        (u - u0) ^ (c + b + 1 - m) * q u := by
  intro c
  induction c with
  | zero =>
    intro b e hp
    by_cases hb : m ≤ b
    · refine ⟨fun _ => 0, contDiff_const, fun u => ?_⟩
      have e1 : Multiset.replicate b u0 = Multiset.replicate (b - m) u0 + Multiset.replicate m u0 := by
        rw [← Multiset.replicate_add]; congr 1; omega
      rw [Multiset.replicate_zero, zero_add, e1, add_right_comm, hz, mul_zero]
      simp; omega
    · refine ⟨fun _ => h (Multiset.replicate b u0 + Multiset.replicate e (u0 + 1)), contDiff_const, fun u => ?_⟩
      rw [Multiset.replicate_zero, zero_add, show 0 + b + 1 - m = 0 by omega, pow_zero, one_mul]
  | succ c ih =>
    intro b e hp
    obtain ⟨q1, s1, h1⟩ := ih (b + 1) e (by omega)
    obtain ⟨q2, s2, h2⟩ := ih b (e + 1) (by omega)
    refine ⟨fun u => (1 - (u - u0)) * q1 u + (u - u0) ^ (1 + (c + b + 1 - m) - (c + 1 + b + 1 - m)) * q2 u, ?_, fun u => ?_⟩
    · refine ContDiff.add (ContDiff.mul ?_ s1) (ContDiff.mul ?_ s2)
      · exact contDiff_const.sub (contDiff_id.sub contDiff_const)
      · exact (contDiff_id.sub contDiff_const).pow _
    · have key := hf (Multiset.replicate c u + (Multiset.replicate b u0 + Multiset.replicate e (u0 + 1)))
        (by simp; omega) (u - u0) u0 (u0 + 1)
      rw [show (1 - (u - u0)) * u0 + (u - u0) * (u0 + 1) = u by ring] at key
      have e1 : Multiset.replicate (c + 1) u + (Multiset.replicate b u0 + Multiset.replicate e (u0 + 1)) =
          u ::ₘ (Multiset.replicate c u + (Multiset.replicate b u0 + Multiset.replicate e (u0 + 1))) := by
        rw [Multiset.replicate_succ, Multiset.cons_add]
      have e2 : u0 ::ₘ (Multiset.replicate c u + (Multiset.replicate b u0 + Multiset.replicate e (u0 + 1))) =
          Multiset.replicate c u + (Multiset.replicate (b + 1) u0 + Multiset.replicate e (u0 + 1)) := by
        rw [Multiset.replicate_succ, Multiset.cons_add, Multiset.add_cons]
      have e3 : (u0 + 1) ::ₘ (Multiset.replicate c u + (Multiset.replicate b u0 + Multiset.replicate e (u0 + 1))) =
          Multiset.replicate c u + (Multiset.replicate b u0 + Multiset.replicate (e + 1) (u0 + 1)) := by
        rw [Multiset.replicate_succ, Multiset.add_cons, Multiset.add_cons]
      rw [e1, key, e2, e3, h1 u, h2 u, smul_eq_mul, smul_eq_mul, show c + (b + 1) + 1 - m = c + 1 + b + 1 - m by omega]
      have e4 : (u - u0) * ((u - u0) ^ (c + b + 1 - m) * q2 u) =
          (u - u0) ^ (c + 1 + b + 1 - m) * ((u - u0) ^ (1 + (c + b + 1 - m) - (c + 1 + b + 1 - m)) * q2 u) := by
        rw [← mul_assoc, ← mul_assoc, ← pow_succ', ← pow_add]
        congr 2
        omega
      rw [e4]
      ring

theorem form_smooth {p : ℕ} {h : Multiset ℝ → ℝ} (hf : IsForm p h) (n : WithTop ℕ∞) :
    ContDiff ℝ n (fun u => h (Multiset.replicate p u)) := by
  obtain ⟨q, hq, e⟩ := form_power (m := p + 1) (u0 := 0) hf (fun s hs => absurd hs (by omega)) n p 0 0 (by omega)
  have : (fun u => h (Multiset.replicate p u)) = q := by
    funext u
    have := e u
    simpa using this
  rw [this]
  exact hq

theorem IsForm.sub' {p : ℕ} {f g : Multiset ℝ → ℝ} (hf : IsForm p f) (hg : IsForm p g) :
    IsForm p (fun s => f s - g s) := by
  intro m hm a s t
  have h1 := hf m hm a s t
  have h2 := hg m hm a s t
  dsimp only
  rw [h1, h2]
  simp only [smul_eq_mul]
  ring

/-! ## curves -/

/-- the last knot below `u0` -/
theorem exists_below {U : ℤ → ℝ} {lo k : ℤ} {u0 : ℝ} (hlo : lo ≤ k) (h1 : U lo < u0) (h2 : u0 ≤ U k) :
    ∃ k', lo ≤ k' ∧ k' < k ∧ U k' < u0 ∧ u0 ≤ U (k' + 1) := by
  have key : ∀ c : ℕ, u0 ≤ U (lo + c) → ∃ k', lo ≤ k' ∧ k' < lo + c ∧ U k' < u0 ∧ u0 ≤ U (k' + 1) := by
    intro c
    induction c with
    | zero => intro h; exact absurd h1 (not_lt.2 (by simpa using h))
    | succ c ih =>
      intro h
      by_cases hc : u0 ≤ U (lo + c)
      · obtain ⟨k', a, b, c', d⟩ := ih hc
        exact ⟨k', a, by push_cast; omega, c', d⟩
      · refine ⟨lo + c, by omega, by push_cast; omega, not_le.1 hc, ?_⟩
        rw [add_assoc]; exact_mod_cast h
  obtain ⟨k', a, b, c, e⟩ := key (k - lo).toNat (by rw [show lo + ((k - lo).toNat : ℤ) = k by omega]; exact h2)
  exact ⟨k', a, by omega, c, e⟩

theorem curve_smooth {n : ℤ} {p : ℕ} {U : ℤ → ℝ} (hv : ValidKnots n p U) (P : ℤ → ℝ) {u0 : ℝ} {r : ℕ}
    (h1 : U p ≤ u0) (h2 : u0 ≤ U (n + 1))
    (hm : U p < u0 → u0 < U (n + 1) → mult U 0 (n + p + 1) u0 = 0 ∨ mult U 0 (n + p + 1) u0 + r ≤ p) :
    ContDiffWithinAt ℝ r (curve n p U P) (Icc (U p) (U (n + 1))) u0 := by
  have hs := hv.sorted
  have hle := hv.le
  obtain ⟨k, hk⟩ := SpanOf.exists' (n := n) (p := p) hs
    (lt_of_lt_of_le hv.first (hs _ _ (by omega) (by omega) (by omega))) (by omega) h1 h2
  obtain ⟨f, hf, hrep⟩ := exists_form P (hk.win hs)
  have hlo := hk.lo
  have hhi := hk.hi
  -- all parameters near `u0` in the domain lie in the span `k`
  have easy : (∀ᶠ u in 𝓝[Icc (U p) (U (n + 1))] u0, SpanOf n p U k u) →
      ContDiffWithinAt ℝ r (curve n p U P) (Icc (U p) (U (n + 1))) u0 := by
    intro h
    refine (form_smooth hf r).contDiffAt.contDiffWithinAt.congr_of_eventuallyEq ?_ (hk.curve_form hs hf hrep)
    filter_upwards [h] with u hu
    exact hu.curve_form hs hf hrep
  rcases hk.mem with ⟨ha, hb⟩ | ⟨ha, hb, hc⟩
  · rcases ha.eq_or_lt with he | ha
    · rcases h1.eq_or_lt with h1' | h1'
      · apply easy
        filter_upwards [self_mem_nhdsWithin, nhdsWithin_le_nhds (Iio_mem_nhds hb)] with u hu hu'
        exact ⟨hlo, hhi, Or.inl ⟨by rw [he, ← h1']; exact hu.1, hu'⟩⟩
      · -- an interior knot
        have h2' : u0 < U (n + 1) := lt_of_lt_of_le hb (hs _ _ (by omega) (by omega) (by omega))
        have hm := hm h1' h2'
        obtain ⟨k', a1, a2, a3, a4⟩ := exists_below (U := U) (lo := p) (k := k) (by omega) h1' he.ge
        have hall : ∀ j, k' < j → j ≤ k → U j = u0 := by
          intro j b1 b2
          apply le_antisymm
          · rw [← he]; exact hs j k (by omega) b2 (by omega)
          · exact a4.trans (hs (k' + 1) j (by omega) (by omega) (by omega))
        have hsub : Finset.Icc (k' + 1) k ⊆ (Finset.Icc 0 (n + p + 1)).filter (fun i => U i = u0) := by
          intro x hx
          simp only [Finset.mem_filter, Finset.mem_Icc] at hx ⊢
          exact ⟨by omega, hall x (by omega) hx.2⟩
        have hc := Finset.card_le_card hsub
        rw [Int.card_Icc] at hc
        unfold mult at hm
        have hne : U k' < U (k' + 1) := by rw [hall (k' + 1) (by omega) (by omega)]; exact a3
        have hw : Win U k' p := Win.of_sorted hs hne (by omega) (by omega)
        obtain ⟨g, hg, hgrep⟩ := exists_form P hw
        have hkn : kn U k' (k - k').toNat = Multiset.replicate (k - k').toNat u0 :=
          kn_const (fun l b1 b2 => hall _ (by omega) (by omega))
        obtain ⟨q, hq, hqe⟩ := form_power (m := (k - k').toNat) (u0 := u0) (hf.sub' hg) (fun s hs' => by
          have := form_agree hg hf a2.le (by omega) hw (hk.win hs) hgrep hrep hs'
          rw [hkn] at this
          rw [this, sub_self]) r p 0 0 (by omega)
        have hkey : ∀ u, f (Multiset.replicate p u) = g (Multiset.replicate p u) +
            (u - u0) ^ (r + 1) * ((u - u0) ^ (p - (k - k').toNat - r) * q u) := by
          intro u
          have := hqe u
          simp only [Multiset.replicate_zero, add_zero] at this
          rw [← mul_assoc, ← pow_add, show r + 1 + (p - (k - k').toNat - r) = p + 1 - (k - k').toNat by omega, ← this]
          ring
        apply ContDiffAt.contDiffWithinAt
        refine glue_contDiffAt (form_smooth hg r).contDiffAt
          (q := fun u => (u - u0) ^ (p - (k - k').toNat - r) * q u)
          (((contDiff_id.sub contDiff_const).pow _).mul hq).contDiffAt ?_
        filter_upwards [Ioi_mem_nhds a3, Iio_mem_nhds hb] with u hu1 hu2
        by_cases hu : u < u0
        · rw [if_pos hu, add_zero]
          refine SpanOf.curve_form ⟨a1, by omega, Or.inl ⟨le_of_lt hu1, ?_⟩⟩ hs hg hgrep
          rw [hall (k' + 1) (by omega) (by omega)]
          exact hu
        · rw [if_neg hu, ← hkey]
          exact SpanOf.curve_form ⟨hlo, hhi, Or.inl ⟨by rw [he]; exact not_lt.1 hu, hu2⟩⟩ hs hf hrep
    · apply easy
      filter_upwards [nhdsWithin_le_nhds (Ioi_mem_nhds ha), nhdsWithin_le_nhds (Iio_mem_nhds hb)] with u hu hu'
      exact ⟨hlo, hhi, Or.inl ⟨le_of_lt hu, hu'⟩⟩
  · apply easy
    filter_upwards [self_mem_nhdsWithin, nhdsWithin_le_nhds (Ioi_mem_nhds ha)] with u hu hu'
    refine ⟨hlo, hhi, ?_⟩
    rcases hu.2.eq_or_lt with h | h
    · exact Or.inr ⟨hu', by rw [h, ← hc, hb], h⟩
    · exact Or.inl ⟨le_of_lt hu', by rw [← hb, hc]; exact h⟩

theorem bsplineD_smooth {n : ℤ} {p : ℕ} {U : ℤ → ℝ} (hv : ValidKnots n p U) {i : ℤ} (hi : i ∈ Finset.Icc 0 n) {u0 : ℝ}
    {r : ℕ} (h1 : U p ≤ u0) (h2 : u0 ≤ U (n + 1))
    (hm : U p < u0 → u0 < U (n + 1) → mult U 0 (n + p + 1) u0 = 0 ∨ mult U 0 (n + p + 1) u0 + r ≤ p) :
    ContDiffWithinAt ℝ r (bsplineD n U p i) (Icc (U p) (U (n + 1))) u0 := by
  have e : bsplineD n U p i = curve n p U (fun j => if j = i then (1 : ℝ) else 0) := by
    funext u
    unfold curve
    rw [Finset.sum_eq_single i]
    · simp
    · intro j _ hj; dsimp only; rw [if_neg hj, smul_zero]
    · intro h; exact absurd hi h
  rw [e]
  exact curve_smooth hv _ h1 h2 hm

end Igakit
