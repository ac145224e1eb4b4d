import Verif.Proofs.Variation
import Verif.Proofs.Support
import Mathlib.LinearAlgebra.Matrix.Determinant.Basic
import Mathlib.Data.Fintype.Card

/-! # Total positivity of collocation matrices of B-splines -/

set_option linter.unusedSectionVars false

namespace Igakit
open Spec

variable {K : Type*} [Field K] [LinearOrder K] [IsStrictOrderedRing K]

/-! ## determinants -/

/-- all minors of the columns `0..N` at the points `x` are nonnegative, and positive if the diagonal is -/
def TPos {m : ℕ} (N : ℤ) (B : ℤ → K → K) (x : Fin m → K) : Prop :=
  ∀ i : Fin m → ℤ, StrictMono i → (∀ l, 0 ≤ i l ∧ i l ≤ N) →
    0 ≤ (Matrix.of fun j l => B (i l) (x j)).det ∧
    ((∀ l, 0 < B (i l) (x l)) → 0 < (Matrix.of fun j l => B (i l) (x j)).det)

/-- a determinant whose columns are sums of two columns -/
theorem det_split {m : ℕ} (a b : Fin m → K) (A C : Fin m → Fin m → K) :
    (Matrix.of fun j l => a l * A j l + b l * C j l).det =
      ∑ s : Finset (Fin m), (∏ l, if l ∈ s then a l else b l) *
        (Matrix.of fun j l => if l ∈ s then A j l else C j l).det := by
  rw [← Matrix.det_transpose]
  have e : (Matrix.of fun j l => a l * A j l + b l * C j l).transpose =
      (fun l => a l • (fun j => A j l)) + (fun l => b l • (fun j => C j l)) := by
    funext l j; simp [Matrix.transpose]
  rw [e]
  change Matrix.detRowAlternating.toMultilinearMap _ = _
  rw [MultilinearMap.map_add_univ]
  refine Finset.sum_congr rfl (fun s _ => ?_)
  have e2 : s.piecewise (fun l => a l • (fun j => A j l)) (fun l => b l • (fun j => C j l)) =
      fun l => (if l ∈ s then a l else b l) • (fun j => if l ∈ s then A j l else C j l) := by
    funext l
    by_cases h : l ∈ s <;> simp [h]
  rw [e2, MultilinearMap.map_smul_univ, ← Matrix.det_transpose (Matrix.of _)]
  rfl

theorem TPos.step {m : ℕ} {N : ℤ} {B B' : ℤ → K → K} {x : Fin m → K} (hx : StrictMono x) {a b : ℤ → K} {z : K}
    (h : TPos (N + 1) B' x)
    (hB : ∀ i j, 0 ≤ i → i ≤ N → B i (x j) = a i * B' i (x j) + b (i + 1) * B' (i + 1) (x j))
    (ha : ∀ i, 0 ≤ i → i ≤ N → 0 ≤ a i ∧ 0 ≤ b (i + 1))
    (hB' : ∀ i j, 0 ≤ i → i ≤ N + 1 → 0 ≤ B' i (x j))
    (hS : ∀ i j, 0 ≤ i → i ≤ N → x j < z → 0 < B i (x j) → 0 < a i * B' i (x j))
    (hR : ∀ i j, 0 ≤ i → i ≤ N → z < x j → 0 < B i (x j) → 0 < b (i + 1) * B' (i + 1) (x j)) : TPos N B x := by
  intro i hi hr
  classical
  have e : (Matrix.of fun j l => B (i l) (x j)) =
      Matrix.of fun j l => a (i l) * B' (i l) (x j) + b (i l + 1) * B' (i l + 1) (x j) := by
    funext j l
    exact hB _ j (hr l).1 (hr l).2
  rw [e, det_split]
  -- the columns of a term
  have e2 : ∀ s : Finset (Fin m), (Matrix.of fun j l => if l ∈ s then B' (i l) (x j) else B' (i l + 1) (x j)) =
      Matrix.of fun j l => B' (if l ∈ s then i l else i l + 1) (x j) := by
    intro s
    funext j l
    by_cases h : l ∈ s <;> simp [h]
  have hmono : ∀ s : Finset (Fin m), Monotone (fun l => if l ∈ s then i l else i l + 1) := by
    intro s l l' hl
    rcases hl.eq_or_lt with h | h
    · rw [h]
    · have := hi h
      dsimp only
      split_ifs <;> omega
  have hrange : ∀ (s : Finset (Fin m)) l, 0 ≤ (if l ∈ s then i l else i l + 1) ∧ (if l ∈ s then i l else i l + 1) ≤ N + 1 := by
    intro s l
    have := hr l
    split_ifs <;> omega
  have hterm : ∀ s : Finset (Fin m), 0 ≤ (∏ l, if l ∈ s then a (i l) else b (i l + 1)) *
        (Matrix.of fun j l => if l ∈ s then B' (i l) (x j) else B' (i l + 1) (x j)).det := by
    intro s
    refine mul_nonneg (Finset.prod_nonneg (fun l _ => ?_)) ?_
    · have := ha (i l) (hr l).1 (hr l).2
      split_ifs
      · exact this.1
      · exact this.2
    · rw [e2]
      by_cases hinj : Function.Injective (fun l => if l ∈ s then i l else i l + 1)
      · exact (h _ ((hmono s).strictMono_of_injective hinj) (hrange s)).1
      · obtain ⟨l, l', h1, h2⟩ : ∃ l l', (if l ∈ s then i l else i l + 1) = (if l' ∈ s then i l' else i l' + 1) ∧ l ≠ l' := by
          simp only [Function.Injective] at hinj
          push Not at hinj
          exact hinj
        refine le_of_eq (Matrix.det_zero_of_column_eq h2 (fun j => ?_)).symm
        simp only [Matrix.of_apply, h1]
  refine ⟨Finset.sum_nonneg (fun s _ => hterm s), fun hd => ?_⟩
  -- the term that is positive
  let s : Finset (Fin m) := Finset.univ.filter (fun l => x l < z ∨ (x l = z ∧ 0 < a (i l) * B' (i l) (x l)))
  have hs : ∀ l, (l ∈ s → x l ≤ z ∧ 0 < a (i l) * B' (i l) (x l)) ∧
      (l ∉ s → z ≤ x l ∧ 0 < b (i l + 1) * B' (i l + 1) (x l)) := by
    intro l
    have h0 := hd l
    obtain ⟨r0, r1⟩ := hr l
    constructor
    · intro hl
      rcases (Finset.mem_filter.1 hl).2 with h1 | ⟨h1, h2⟩
      · exact ⟨h1.le, hS _ l r0 r1 h1 h0⟩
      · exact ⟨h1.le, h2⟩
    · intro hl
      have hl' : ¬ (x l < z ∨ (x l = z ∧ 0 < a (i l) * B' (i l) (x l))) := fun h =>
        hl (Finset.mem_filter.2 ⟨Finset.mem_univ _, h⟩)
      push Not at hl'
      refine ⟨hl'.1, ?_⟩
      rcases hl'.1.eq_or_lt with h1 | h1
      · have h2 := hl'.2 h1.symm
        rw [hB _ l r0 r1] at h0
        linarith
      · exact hR _ l r0 r1 h1 h0
  refine Finset.sum_pos' (fun s _ => hterm s) ⟨s, Finset.mem_univ _, ?_⟩
  have hpos : ∀ c d : K, 0 ≤ c → 0 < c * d → 0 < c ∧ 0 < d := fun c d hc hcd =>
    ⟨lt_of_le_of_ne hc (fun e => by rw [← e, zero_mul] at hcd; exact lt_irrefl _ hcd), pos_of_mul_pos_right hcd hc⟩
  refine mul_pos (Finset.prod_pos (fun l _ => ?_)) ?_
  · have := ha (i l) (hr l).1 (hr l).2
    split_ifs with hl
    · exact (hpos _ _ this.1 ((hs l).1 hl).2).1
    · exact (hpos _ _ this.2 ((hs l).2 hl).2).1
  · rw [e2]
    refine (h _ ?_ (hrange s)).2 (fun l => ?_)
    · intro l l' hl
      have h1 := hi hl
      have h2 := hx hl
      dsimp only
      by_cases c : l ∈ s <;> by_cases c' : l' ∈ s
      · rw [if_pos c, if_pos c']; exact h1
      · rw [if_pos c, if_neg c']; omega
      · exfalso
        exact absurd (lt_of_le_of_lt ((hs l).2 c).1 h2) (not_lt.2 ((hs l').1 c').1)
      · rw [if_neg c, if_neg c']; omega
    · have := ha (i l) (hr l).1 (hr l).2
      by_cases hl : l ∈ s
      · rw [if_pos hl]
        exact (hpos _ _ this.1 ((hs l).1 hl).2).2
      · rw [if_neg hl]
        exact (hpos _ _ this.2 ((hs l).2 hl).2).2

/-- the start of the induction: at every point one function is `1` and the others vanish -/
theorem TPos.base {m : ℕ} {N : ℤ} {B : ℤ → K → K} {x : Fin m → K} {y : Fin m → ℤ} (hy : StrictMono y)
    (hB : ∀ i j, 0 ≤ i → i ≤ N → B i (x j) = if i = y j then 1 else 0) : TPos N B x := by
  intro i hi hr
  have e : (Matrix.of fun j l => B (i l) (x j)) = Matrix.of fun j l => if i l = y j then (1 : K) else 0 := by
    funext j l
    exact hB _ j (hr l).1 (hr l).2
  by_cases hiy : i = y
  · have : (Matrix.of fun j l => B (i l) (x j)) = 1 := by
      rw [e]
      funext j l
      rw [hiy, Matrix.of_apply, Matrix.one_apply]
      by_cases hjl : j = l
      · rw [hjl, if_pos rfl, if_pos rfl]
      · rw [if_neg hjl, if_neg (fun h => hjl (hy.injective h).symm)]
    rw [this, Matrix.det_one]
    exact ⟨zero_le_one, fun _ => zero_lt_one⟩
  · have : ∃ j, ∀ l, i l ≠ y j := by
      by_contra hc
      push Not at hc
      refine hiy ?_
      have hsub : Set.range y ⊆ Set.range i := by
        rintro _ ⟨j, rfl⟩
        obtain ⟨l, hl⟩ := hc j
        exact ⟨l, hl⟩
      have heq : Set.range y = Set.range i := by
        classical
        have h1 : Finset.univ.image y = Finset.univ.image i := by
          refine Finset.eq_of_subset_of_card_le ?_ ?_
          · intro z hz
            obtain ⟨j, -, rfl⟩ := Finset.mem_image.1 hz
            obtain ⟨l, hl⟩ := hc j
            exact Finset.mem_image.2 ⟨l, Finset.mem_univ _, hl⟩
          · rw [Finset.card_image_of_injective _ hy.injective, Finset.card_image_of_injective _ hi.injective]
        have := congrArg (fun s : Finset ℤ => (s : Set ℤ)) h1
        simpa using this
      exact ((StrictMono.range_inj hy hi).1 heq).symm
    obtain ⟨j, hj⟩ := this
    have hz : (Matrix.of fun j l => B (i l) (x j)).det = 0 := by
      rw [e]
      exact Matrix.det_eq_zero_of_row_eq_zero j (fun l => if_neg (hj l))
    refine ⟨hz.ge, fun hd => ?_⟩
    have := hd j
    rw [hB _ _ (hr j).1 (hr j).2, if_neg (hj j)] at this
    exact absurd this (lt_irrefl _)

end Igakit
