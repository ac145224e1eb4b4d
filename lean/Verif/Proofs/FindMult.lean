import Verif.Proofs.FindSpan
import Mathlib.Algebra.Order.BigOperators.Group.Finset
import Mathlib.Algebra.Order.Ring.Abs
import Mathlib.Order.Interval.Finset.Basic
import Mathlib.Data.Finset.Card
import Mathlib.Data.Finset.Max
import Mathlib.Tactic.Linarith

set_option linter.unusedSectionVars false

namespace Igakit
open Spec

variable {K : Type*} [Field K] [LinearOrder K] [IsStrictOrderedRing K]

theorem Icc_insert_right {lo j : ℤ} (h : lo ≤ j) :
    Finset.Icc lo j = insert j (Finset.Icc lo (j - 1)) := by
  ext x; simp only [Finset.mem_Icc, Finset.mem_insert]; omega

theorem forUp_count (c : ℤ → Prop) [DecidablePred c] (lo hi : ℤ) :
    forUp lo hi (fun j m => if c j then m + 1 else m) (0 : ℤ)
      = (((Finset.Icc lo hi).filter c).card : ℤ) := by
  by_cases h : lo ≤ hi + 1
  · have := forUp_inv (f := fun j m => if c j then m + 1 else m)
      (fun i (m : ℤ) => m = (((Finset.Icc lo (i - 1)).filter c).card : ℤ)) (s := 0) h
      (by simp)
      (by
        rintro i m h1 h2 rfl
        have e : i + 1 - 1 = i := by ring
        rw [e, Icc_insert_right h1, Finset.filter_insert]
        by_cases hc : c i
        · simp only [hc, if_true]
          rw [Finset.card_insert_of_notMem (by simp)]
          push_cast; ring
        · simp only [hc, if_false])
    simpa using this
  · rw [forUp_empty (by omega), Finset.Icc_eq_empty (by omega)]; simp

theorem findMult_nonneg (eps : K) (i : ℤ) (u : K) (p : ℤ) (U : ℤ → K) : 0 ≤ findMult eps i u p U := by
  unfold findMult
  rw [forUp_count (fun j => |u - U (i + j)| < eps)]
  omega

theorem findMult_window {eps : K} (heps : 0 < eps) {i p : ℤ} {u : K} {U : ℤ → K}
    (hs : SepFrom eps u U (i - p) (i + p + 1)) :
    findMult eps i u p U = mult U (i - p) (i + p + 1) u := by
  unfold findMult mult
  rw [forUp_count (fun j => |u - U (i + j)| < eps)]
  congr 1
  refine Finset.card_bij (fun j _ => i + j) ?_ ?_ ?_
  · intro j hj
    simp only [Finset.mem_filter, Finset.mem_Icc] at hj ⊢
    refine ⟨by omega, ?_⟩
    rcases hs (i + j) (by omega) (by omega) with h | h
    · exact h
    · exact absurd hj.2 (not_lt.mpr h)
  · intro a _ b _ h; omega
  · intro b hb
    simp only [Finset.mem_filter, Finset.mem_Icc] at hb
    refine ⟨b - i, ?_, by ring⟩
    simp only [Finset.mem_filter, Finset.mem_Icc]
    refine ⟨by omega, ?_⟩
    have e : i + (b - i) = b := by ring
    rw [e, hb.2, sub_self, abs_zero]; exact heps

/-- In a sorted array, the positions holding `u` below a strict upper bracket `k` form a block
ending at `k`. -/
theorem block_left {U : ℤ → K} {lo hi k : ℤ} {u : K} (hs : SortedOn U lo hi)
    (h1 : U k ≤ u) (h2 : u < U (k + 1)) (hk1 : lo ≤ k) (hk2 : k + 1 ≤ hi) :
    ∀ j, lo ≤ j → j ≤ hi → (U j = u ↔ k - (mult U lo hi u : ℤ) < j ∧ j ≤ k) := by
  set S := (Finset.Icc lo hi).filter (fun i => U i = u) with hS
  have hup : ∀ j, lo ≤ j → j ≤ hi → U j = u → j ≤ k := by
    intro j a b e
    by_contra hc
    have := hs (k + 1) j (by omega) (by omega) b
    rw [e] at this
    exact absurd h2 (not_lt.mpr this)
  have hmid : ∀ j j', lo ≤ j → j ≤ j' → j' ≤ k → U j = u → U j' = u := by
    intro j j' a b c e
    apply le_antisymm
    · exact le_trans (hs j' k (by omega) c (by omega)) h1
    · rw [← e]; exact hs j j' a b (by omega)
  have hcard : mult U lo hi u = S.card := rfl
  rcases S.eq_empty_or_nonempty with he | hne
  · have h0 : mult U lo hi u = 0 := by rw [hcard, he]; rfl
    intro j a b
    rw [h0]
    constructor
    · intro e
      have : j ∈ S := by rw [hS]; simp [a, b, e]
      rw [he] at this; simp at this
    · intro h; omega
  · set a := S.min' hne with ha
    have ham : a ∈ S := Finset.min'_mem _ _
    have ham' : lo ≤ a ∧ a ≤ hi ∧ U a = u := by
      have := ham; rw [hS] at this; simpa [and_assoc] using this
    have hak : a ≤ k := hup a ham'.1 ham'.2.1 ham'.2.2
    have hSe : S = Finset.Icc a k := by
      ext j
      rw [hS]
      simp only [Finset.mem_filter, Finset.mem_Icc]
      constructor
      · rintro ⟨⟨x1, x2⟩, x3⟩
        refine ⟨?_, hup j x1 x2 x3⟩
        apply Finset.min'_le
        rw [hS]; simp [x1, x2, x3]
      · rintro ⟨x1, x2⟩
        exact ⟨⟨by omega, by omega⟩, hmid a j ham'.1 x1 x2 ham'.2.2⟩
    have hm : (mult U lo hi u : ℤ) = k + 1 - a := by
      rw [hcard, hSe, Int.card_Icc]; omega
    intro j x1 x2
    rw [hm]
    constructor
    · intro e
      have : j ∈ S := by rw [hS]; simp [x1, x2, e]
      rw [hSe, Finset.mem_Icc] at this
      omega
    · intro h
      exact hmid a j ham'.1 (by omega) h.2 ham'.2.2

/-- Mirror image of `block_left`: strict lower bracket. -/
theorem block_right {U : ℤ → K} {lo hi k : ℤ} {u : K} (hs : SortedOn U lo hi)
    (h1 : U k < u) (h2 : u ≤ U (k + 1)) (hk1 : lo ≤ k) (hk2 : k + 1 ≤ hi) :
    ∀ j, lo ≤ j → j ≤ hi → (U j = u ↔ k < j ∧ j ≤ k + (mult U lo hi u : ℤ)) := by
  have hs' : SortedOn (fun i => - U (-i)) (-hi) (-lo) := by
    intro i j a b c
    simp only [neg_le_neg_iff]
    exact hs (-j) (-i) (by omega) (by omega) (by omega)
  have hm : mult (fun i => - U (-i)) (-hi) (-lo) (-u) = mult U lo hi u := by
    unfold mult
    refine Finset.card_bij (fun j _ => -j) ?_ ?_ ?_
    · intro j hj
      simp only [Finset.mem_filter, Finset.mem_Icc, neg_inj] at hj ⊢
      exact ⟨by omega, hj.2⟩
    · intro a _ b _ h; omega
    · intro b hb
      simp only [Finset.mem_filter, Finset.mem_Icc, neg_inj] at hb ⊢
      exact ⟨-b, ⟨by omega, by simpa using hb.2⟩, by ring⟩
  have e1 : -(-(k + 1)) = k + 1 := by ring
  have e2 : -(-(k + 1) + 1) = k := by ring
  have key := block_left (k := -(k + 1)) (u := -u) hs' (by simpa [e1] using h2)
    (by simp only [e2]; exact neg_lt_neg h1) (by omega) (by omega)
  intro j a b
  have := key (-j) (by omega) (by omega)
  rw [hm] at this
  simp only [neg_neg, neg_inj] at this
  rw [this]
  omega

theorem mult_window_eq {U : ℤ → K} {lo hi lo' hi' : ℤ} {u : K}
    (h : ∀ j, U j = u → lo ≤ j → j ≤ hi → lo' ≤ j ∧ j ≤ hi')
    (h' : ∀ j, U j = u → lo' ≤ j → j ≤ hi' → lo ≤ j ∧ j ≤ hi) :
    mult U lo hi u = mult U lo' hi' u := by
  unfold mult
  congr 1
  ext j
  simp only [Finset.mem_filter, Finset.mem_Icc]
  constructor
  · rintro ⟨⟨a, b⟩, c⟩; exact ⟨h j c a b, c⟩
  · rintro ⟨⟨a, b⟩, c⟩; exact ⟨h' j c a b, c⟩

/-- multiplicity found at an interior parameter -/
theorem findMult_mid {eps : K} (heps : 0 < eps) {n p k : ℤ} {U : ℤ → K} {u : K}
    (hv : ValidKnots n p U) (hk1 : p ≤ k) (hk2 : k ≤ n) (h1 : U k ≤ u) (h2 : u < U (k + 1))
    (hsep : SepFrom eps u U 0 (n + p + 1)) (hm : mult U 0 (n + p + 1) u ≤ p + 1) :
    findMult eps k u p U = mult U 0 (n + p + 1) u := by
  have := hv.one_le
  rw [findMult_window heps (fun j a b => hsep j (by omega) (by omega))]
  congr 1
  have hb := block_left hv.sorted h1 h2 (by omega) (by omega)
  apply mult_window_eq
  · intro j e a b; omega
  · intro j e a b
    have := (hb j a b).1 e
    omega

theorem findMult_first {eps : K} (heps : 0 < eps) {n p : ℤ} {U : ℤ → K}
    (hv : ValidKnots n p U)
    (hsep : SepFrom eps (U p) U 0 (n + p + 1)) :
    findMult eps p (U p) p U = mult U 0 (n + p + 1) (U p) := by
  have := hv.one_le
  have := hv.le
  rw [findMult_window heps (fun j a b => hsep j (by omega) (by omega))]
  congr 1
  have hb := block_left hv.sorted (le_refl (U p)) hv.first (by omega) (by omega)
  apply mult_window_eq
  · intro j e a b; omega
  · intro j e a b
    have := (hb j a b).1 e
    omega

theorem findMult_last {eps : K} (heps : 0 < eps) {n p : ℤ} {U : ℤ → K}
    (hv : ValidKnots n p U)
    (hsep : SepFrom eps (U (n + 1)) U 0 (n + p + 1)) :
    findMult eps n (U (n + 1)) p U = mult U 0 (n + p + 1) (U (n + 1)) := by
  have := hv.one_le
  have := hv.le
  rw [findMult_window heps (fun j a b => hsep j (by omega) (by omega))]
  congr 1
  have hb := block_right hv.sorted hv.last (le_refl (U (n + 1))) (by omega) (by omega)
  apply mult_window_eq
  · intro j e a b; omega
  · intro j e a b
    have := (hb j a b).1 e
    omega

end Igakit
