import Verif.Proofs.FindSpan
import Verif.Spec.Cox
import Mathlib.Tactic.Ring
import Mathlib.Tactic.FieldSimp
import Mathlib.Tactic.Linarith
import Mathlib.Tactic.Positivity
import Mathlib.Algebra.BigOperators.Intervals

set_option linter.unusedSectionVars false

namespace Igakit
open Spec

variable {K : Type*} [Field K] [LinearOrder K]

theorem piece_zero_of_gt (U : ℤ → K) (k : ℤ) (u : K) :
    ∀ (p : ℕ) (i : ℤ), k < i → piece U k p i u = 0 := by
  intro p
  induction p with
  | zero => intro i h; simp [piece, coxDB]; omega
  | succ p ih =>
    intro i h
    have h1 := ih i h
    have h2 := ih (i + 1) (by omega)
    unfold piece at *
    rw [coxDB, h1, h2]; ring

theorem piece_zero_of_lt (U : ℤ → K) (k : ℤ) (u : K) :
    ∀ (p : ℕ) (i : ℤ), i + p < k → piece U k p i u = 0 := by
  intro p
  induction p with
  | zero => intro i h; simp [piece, coxDB]; intro; simp at h; omega
  | succ p ih =>
    intro i h
    push_cast at h
    have h1 := ih i (by omega)
    have h2 := ih (i + 1) (by omega)
    unfold piece at *
    rw [coxDB, h1, h2]; ring

theorem piece_succ (U : ℤ → K) (k : ℤ) (u : K) (p : ℕ) (i : ℤ) :
    piece U k (p + 1) i u =
      (u - U i) / (U (i + p + 1) - U i) * piece U k p i u +
      (U (i + p + 2) - u) / (U (i + p + 2) - U (i + 1)) * piece U k p (i + 1) u := rfl

/-- closed form of the inner loop of `BasisFuns` -/
theorem basisInner_spec (left right : ℤ → K) (j : ℤ) (hj : 1 ≤ j) (N : ℤ → K) :
    let g : ℤ → K := fun r => N r / (right (r + 1) + left (j - r))
    (∀ r, 0 ≤ r → r < j → (basisInner left right j N).1 r =
      (if r = 0 then 0 else left (j - (r - 1)) * g (r - 1)) + right (r + 1) * g r) ∧
    (∀ r, j ≤ r → (basisInner left right j N).1 r = N r) ∧
    (basisInner left right j N).2 = left 1 * g (j - 1) := by
  intro g
  have := forUp_inv (f := fun r (s : (ℤ → K) × K) =>
    let temp := s.1 r / (right (r + 1) + left (j - r))
    (upd s.1 r (s.2 + right (r + 1) * temp), left (j - r) * temp))
    (fun i s => (∀ r, 0 ≤ r → r < i → s.1 r =
        (if r = 0 then 0 else left (j - (r - 1)) * g (r - 1)) + right (r + 1) * g r) ∧
      (∀ r, i ≤ r → s.1 r = N r) ∧
      s.2 = if i = 0 then 0 else left (j - (i - 1)) * g (i - 1))
    (lo := 0) (hi := j - 1) (s := (N, 0)) (by omega)
    (by
      refine ⟨fun r a b => by omega, fun r _ => rfl, by simp⟩)
    (by
      rintro i ⟨M, sv⟩ h1 h2 ⟨a, b, c⟩
      simp only at a b c
      have hM : M i = N i := b i (le_refl _)
      refine ⟨?_, ?_, ?_⟩
      · intro r hr1 hr2
        by_cases hri : r = i
        · subst hri
          simp only [upd_same, hM, c]
          rfl
        · simp only [upd_ne _ _ hri]
          exact a r hr1 (by omega)
      · intro r hr
        simp only
        rw [upd_ne _ _ (by omega)]
        exact b r (by omega)
      · have h3 : ¬ (i + 1 = 0) := by omega
        have e : i + 1 - 1 = i := by ring
        simp only [h3, if_false, e, hM]
        rfl)
  have e : j - 1 + 1 = j := by ring
  rw [e] at this
  obtain ⟨a, b, c⟩ := this
  refine ⟨a, b, ?_⟩
  rw [show (basisInner left right j N).2 = _ from c, if_neg (by omega)]
  congr 2; ring

/-- `BasisFuns` computes the polynomial pieces of the B-splines on span `k` -/
theorem basisFuns_piece (jk : ℤ → K) (k : ℤ) (u : K) (p : ℕ) (U : ℤ → K) :
    ∀ r : ℤ, 0 ≤ r → r ≤ p → basisFuns jk k u p U r = piece U k p (k - p + r) u := by
  have := forUp_inv (f := basisOuter k u U)
    (fun j s => (∀ r, 0 ≤ r → r ≤ j - 1 → s.N r = piece U k (j - 1).toNat (k - (j - 1) + r) u) ∧
      (∀ l, 1 ≤ l → l ≤ j - 1 → s.left l = u - U (k + 1 - l) ∧ s.right l = U (k + l) - u))
    (lo := 1) (hi := p) (s := { N := upd jk 0 1, left := jk, right := jk }) (by omega)
    (by
      refine ⟨fun r a b => ?_, fun l a b => by omega⟩
      have : r = 0 := by omega
      subst this
      simp [piece, coxDB])
    (by
      rintro j ⟨N, left, right⟩ h1 h2 ⟨a, b⟩
      simp only at a b
      have e : j + 1 - 1 = j := by ring
      rw [e]
      have hlr : ∀ l, 1 ≤ l → l ≤ j → upd left j (u - U (k + 1 - j)) l = u - U (k + 1 - l) ∧
          upd right j (U (k + j) - u) l = U (k + l) - u := by
        intro l x1 x2
        by_cases hl : l = j
        · subst hl; simp
        · rw [upd_ne _ _ hl, upd_ne _ _ hl]; exact b l x1 (by omega)
      refine ⟨?_, hlr⟩
      obtain ⟨i1, i2, i3⟩ := basisInner_spec (upd left j (u - U (k + 1 - j)))
        (upd right j (U (k + j) - u)) j h1 N
      beta_reduce at i1 i3
      simp only [basisOuter]
      obtain ⟨q, hq⟩ : ∃ q : ℕ, (q : ℤ) = j - 1 := ⟨(j - 1).toNat, by omega⟩
      have hq1 : (j - 1).toNat = q := by omega
      have hq2 : j.toNat = q + 1 := by omega
      rw [hq1] at a
      rw [hq2]
      -- value of the shared quotient
      have hg : ∀ r, 0 ≤ r → r ≤ j - 1 →
          N r / (upd right j (U (k + j) - u) (r + 1) + upd left j (u - U (k + 1 - j)) (j - r)) =
          piece U k q (k - j + r + 1) u / (U (k + r + 1) - U (k - j + r + 1)) := by
        intro r x1 x2
        rw [a r x1 x2, (hlr (r + 1) (by omega) (by omega)).2, (hlr (j - r) (by omega) (by omega)).1]
        have e1 : k + 1 - (j - r) = k - j + r + 1 := by ring
        have e2 : k - (j - 1) + r = k - j + r + 1 := by ring
        have e3 : k + (r + 1) = k + r + 1 := by ring
        rw [e1, e2, e3]; congr 1; ring
      intro r x1 x2
      rw [piece_succ]
      have d1 : k - j + r + q + 1 = k + r := by omega
      have d2 : k - j + r + q + 2 = k + r + 1 := by omega
      rw [d1, d2]
      by_cases hrj : r = j
      · subst hrj
        rw [upd_same, i3, hg (r - 1) (by omega) (by omega), (hlr 1 (by omega) (by omega)).1]
        have z : piece U k q (k - r + r + 1) u = 0 := piece_zero_of_gt _ _ _ _ _ (by omega)
        have e1 : k + 1 - 1 = k := by ring
        have e2 : k - r + (r - 1) + 1 = k := by ring
        have e3 : k - r + r = k := by ring
        have e4 : k + (r - 1) + 1 = k + r := by ring
        rw [z, e1, e2, e3, e4]; ring
      · rw [upd_ne _ _ hrj, i1 r x1 (by omega), hg r x1 (by omega),
          (hlr (r + 1) (by omega) (by omega)).2]
        have e3 : k + (r + 1) = k + r + 1 := by ring
        rw [e3]
        by_cases hr0 : r = 0
        · subst hr0
          have z : piece U k q (k - j + 0) u = 0 := piece_zero_of_lt _ _ _ _ _ (by omega)
          rw [z, if_pos rfl]; ring
        · rw [if_neg hr0, hg (r - 1) (by omega) (by omega), (hlr (j - (r - 1)) (by omega) (by omega)).1]
          have e1 : k + 1 - (j - (r - 1)) = k - j + r := by ring
          have e2 : k - j + (r - 1) + 1 = k - j + r := by ring
          have e4 : k + (r - 1) + 1 = k + r := by ring
          rw [e1, e2, e4]; ring)
  intro r h1 h2
  have h := this.1 r h1 (by omega)
  have e : ((p : ℤ) + 1 - 1) = p := by ring
  rw [e, Int.toNat_natCast] at h
  exact h

/-- a `do` loop that accumulates is a finite sum -/
theorem forUp_sum {M : Type*} [AddCommMonoid M] (g : ℤ → M) (p : ℕ) (c : M) :
    forUp 0 (p : ℤ) (fun j C => C + g j) c = c + ∑ j ∈ Finset.range (p + 1), g j := by
  have := forUp_inv (f := fun j C => C + g j)
    (fun i C => C = c + ∑ j ∈ Finset.range i.toNat, g j) (lo := 0) (hi := (p : ℤ)) (s := c)
    (by omega) (by simp)
    (by
      rintro i C h1 h2 rfl
      have e : (i + 1).toNat = i.toNat + 1 := by omega
      have e' : ((i.toNat : ℕ) : ℤ) = i := by omega
      rw [e, Finset.sum_range_succ, e', add_assoc])
  have e : ((p : ℤ) + 1).toNat = p + 1 := by omega
  rw [e] at this
  exact this

theorem coxDB_congr_chi {U : ℤ → K} {χ χ' : ℤ → K} {u : K} :
    ∀ (p : ℕ) (i : ℤ), (∀ j, i ≤ j → j ≤ i + p → χ j = χ' j) →
      coxDB U χ u p i = coxDB U χ' u p i := by
  intro p
  induction p with
  | zero => intro i h; exact h i (le_refl _) (by simp)
  | succ p ih =>
    intro i h
    rw [coxDB, coxDB, ih i (fun j a b => h j a (by push_cast; omega)),
      ih (i + 1) (fun j a b => h j (by omega) (by push_cast; omega))]

theorem bspline_eq_piece {U : ℤ → K} {lo hi k : ℤ} {u : K} (hs : SortedOn U lo hi)
    (hk1 : lo ≤ k) (hk2 : k + 1 ≤ hi) (h1 : U k ≤ u) (h2 : u < U (k + 1))
    (p : ℕ) (i : ℤ) (hi1 : lo ≤ i) (hi2 : i + p + 1 ≤ hi) :
    bspline U p i u = piece U k p i u := by
  apply coxDB_congr_chi
  intro j a b
  by_cases hjk : j = k
  · subst hjk; simp [h1, h2]
  · rw [if_neg hjk, if_neg]
    rintro ⟨x, y⟩
    exact hjk (span_unique hs (by omega) (by omega) hk1 hk2 x y h1 h2)

theorem bsplineL_eq_piece {U : ℤ → K} {lo hi k : ℤ} {u : K} (hs : SortedOn U lo hi)
    (hk1 : lo ≤ k) (hk2 : k + 1 ≤ hi) (h1 : U k < u) (h2 : u ≤ U (k + 1))
    (p : ℕ) (i : ℤ) (hi1 : lo ≤ i) (hi2 : i + p + 1 ≤ hi) :
    bsplineL U p i u = piece U k p i u := by
  apply coxDB_congr_chi
  intro j a b
  by_cases hjk : j = k
  · subst hjk; simp [h1, h2]
  · rw [if_neg hjk, if_neg]
    rintro ⟨x, y⟩
    rcases lt_or_gt_of_ne hjk with h | h
    · have := hs (j + 1) k (by omega) (by omega) (by omega)
      exact absurd (lt_of_le_of_lt (le_trans y this) h1) (lt_irrefl _)
    · have := hs (k + 1) j (by omega) (by omega) (by omega)
      exact absurd (lt_of_le_of_lt (le_trans h2 this) x) (lt_irrefl _)

/-- The domain basis equals the piece of the span found by `FindSpan`. -/
theorem bsplineD_eq_piece {n : ℤ} {p : ℕ} {U : ℤ → K} (hv : ValidKnots n p U) {u : K}
    (h1 : U p ≤ u) (h2 : u ≤ U (n + 1)) (i : ℤ) (hi1 : 0 ≤ i) (hi2 : i ≤ n) :
    bsplineD n U p i u = piece U (findSpan n p u U) p i u := by
  have hle := hv.le
  have h1le := hv.one_le
  unfold bsplineD
  by_cases h : u < U (n + 1)
  · rw [if_pos h]
    rcases h1.eq_or_lt with h' | h'
    · rw [findSpan_le h h'.ge]
      exact bspline_eq_piece hv.sorted (by omega) (by omega) h1 (h' ▸ hv.first) p i hi1 (by omega)
    · obtain ⟨b1, b2, b3, b4⟩ := findSpan_mid (by omega) hv.le h' h
      exact bspline_eq_piece hv.sorted (by omega) (by omega) b3 b4 p i hi1 (by omega)
  · rw [if_neg h, findSpan_ge (not_lt.mp h)]
    exact bsplineL_eq_piece hv.sorted (by omega) (by omega)
      (lt_of_lt_of_le hv.last (not_lt.mp h)) h2 p i hi1 (by omega)

end Igakit
