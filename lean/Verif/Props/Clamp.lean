import Verif.Proofs.CurveSpec
import Verif.Proofs.ClampUnclamp
import Verif.Model.BSp
import Verif.Spec.Examples

/-!
# Properties C13-C15 at the level of `bsp.Clamp` and `bsp.Unclamp`
(the NURBS level versions are in `Verif.Props.Nurbs`)
-/

set_option linter.unusedSectionVars false

namespace Igakit
open Spec

variable {K : Type*} [Field K] [LinearOrder K] [IsStrictOrderedRing K]
variable {E : Type*} [AddCommGroup E] [Module K E]

/-- C13: `bsp.Clamp` clamps the requested sides, keeps all other knots, keeps the curve, for all
parameters of the domain; the result does not depend on the initial contents of work arrays. -/
theorem C13_Clamp {eps : K} (heps : 0 < eps) (je : ℤ → E) {n : ℤ} {p : ℕ} {U : ℤ → K}
    (hv : ValidKnots n p U) (hsep : SepEnds eps n p U) (P : ℤ → E) (l r : Bool) :
    ∃ V Q, BSp.Clamp eps je n p U P l r = .ok (V, Q) ∧ ValidKnots n p V ∧
      (l = true → ClampedL p V) ∧ (r = true → ClampedR n p V) ∧
      (∀ j, (l = false ∨ (p : ℤ) ≤ j) → (r = false ∨ j ≤ n + 1) → V j = U j) ∧
      ∀ u : K, U p ≤ u → u ≤ U (n + 1) → curve n p V Q u = curve n p U P u := by
  have hp := hv.one_le
  have hle := hv.le
  refine ⟨(clampKnot eps je n p U P l r).1, (clampKnot eps je n p U P l r).2, ?_,
    clampKnot_valid je hv P l r, ?_, ?_, ?_, ?_⟩
  · unfold BSp.Clamp; rw [if_pos (by omega)]
  · intro hl j a b
    rw [clampKnot_knots eps je hle, clampKnot_knots eps je hle, if_neg (c := _ ∧ _ ∧ (p : ℤ) ≤ p - 1)
      (by omega), if_neg (c := _ ∧ n + 2 ≤ (p : ℤ) ∧ _) (by omega)]
    by_cases h : j = p
    · subst h; rw [if_neg (by omega), if_neg (by omega)]
    · rw [if_pos ⟨hl, by omega⟩]
  · intro hr j a b
    rw [clampKnot_knots eps je hle, clampKnot_knots eps je hle, if_neg (by omega),
      if_neg (c := _ ∧ _ ∧ n + 1 ≤ (p : ℤ) - 1) (by omega),
      if_neg (c := _ ∧ n + 2 ≤ n + 1 ∧ _) (by omega)]
    by_cases h : j = n + 1
    · subst h; rw [if_neg (by omega)]
    · rw [if_pos ⟨hr, by omega⟩]
  · intro j a b
    rw [clampKnot_knots eps je hle, if_neg, if_neg]
    · rintro ⟨h1, h2, h3⟩
      rcases b with b | b
      · rw [h1] at b; exact absurd b (by decide)
      · omega
    · rintro ⟨h1, h2, h3⟩
      rcases a with a | a
      · rw [h1] at a; exact absurd a (by decide)
      · omega
  · intro u h1 h2
    have := clampKnot_curve heps je U U hv P hsep.1 hsep.2 l r h1 h2
    rwa [curvePoint_eq_curve _ hv h1 h2, curvePoint_eq_curve _ (clampKnot_valid je hv P l r)] at this
    · rwa [clampKnot_knots eps je hle, if_neg (by omega), if_neg (by omega)]
    · rwa [clampKnot_knots eps je hle, if_neg (by omega), if_neg (by omega)]

example := C13_Clamp (eps := 1 / 1000) (by norm_num) (fun _ => (9 : ℚ)) Ex.W_valid
  ⟨Ex.W_sep _ (by decide +kernel), Ex.W_sep _ (by decide +kernel)⟩ (vec [0, 1, 4]) true true
example : (BSp.Clamp (1 / 1000) (fun _ => 9) 2 2 Ex.W (vec [0, 1, 4] : ℤ → ℚ) true true).map
    (fun VQ => ([0, 1, 2, 3, 4, 5].map VQ.1, [0, 1, 2].map VQ.2)) =
    .ok ([0, 0, 0, 1, 1, 1], [1 / 2, 1, 5 / 2]) := by decide +kernel

/-- C14: `bsp.Unclamp` with continuity `0 ≤ C < p` keeps the curve on the domain, the knot vector
stays nondecreasing, the rewritten end knots are translates by one period `U[n+1]-U[p]` of the
knots at the other end of the *new* vector, all other knots in the interior are kept. -/
theorem C14_Unclamp {eps : K} (heps : 0 < eps) (je : ℤ → E) {n : ℤ} {p : ℕ} {U : ℤ → K}
    (hv : ValidKnots n p U) (hsep : SepEnds eps n p U) (P : ℤ → E) {C : ℤ} (hC0 : 0 ≤ C)
    (hCp : C < p) (l r : Bool) :
    ∃ V Q, BSp.Unclamp eps je n p U P C l r = .ok (V, Q) ∧ ValidKnots n p V ∧
      (∀ j, 0 ≤ j → j ≤ n + p + 1 → (l = false ∨ (p : ℤ) ≤ j) → (r = false ∨ j ≤ n + 1) → V j = U j) ∧
      (l = true → (∀ j, C < j → j ≤ p → V j = V p) ∧
        ∀ i, 0 ≤ i → i ≤ C → V (C - i) = V (n - i) - (V (n + 1) - V p)) ∧
      (r = true → (∀ j, n + 1 ≤ j → j < n + p + 1 - C → V j = V (n + 1)) ∧
        ∀ i, 0 ≤ i → i ≤ C → V (n + p + 1 - C + i) = V (p + 1 + i) + (V (n + 1) - V p)) ∧
      ∀ u : K, U p ≤ u → u ≤ U (n + 1) → curve n p V Q u = curve n p U P u := by
  have hp := hv.one_le
  have hle := hv.le
  obtain ⟨V, Q, h0, hvV, hcL, hcR, hsame, hcur⟩ := C13_Clamp heps je hv hsep P l r
  have hE : clampKnot eps je n p U P l r = (V, Q) := by
    unfold BSp.Clamp at h0
    rw [if_pos (by omega)] at h0
    exact Except.ok.inj h0
  have hl : l = true → ∀ j : ℤ, 1 ≤ j → j ≤ p → V j = V p := fun h j a b =>
    hcL h j (by omega) b
  have hr : r = true → ∀ j : ℤ, n + 1 ≤ j → j ≤ n + p → V j = V (n + 1) := fun h j a b =>
    hcR h j a (by omega)
  obtain ⟨k1, k2, k3⟩ := unclampKnot_knots hC0 hCp hle V Q l r
  have hmid : ∀ j, (p : ℤ) ≤ j → j ≤ n + 1 → V j = U j := fun j a b => hsame j (by omega) (by omega)
  have e1 : (unclampKnot n p V Q C l r).1 p = V p :=
    k1 p (by omega) (by omega) (by omega) (by omega)
  have e2 : (unclampKnot n p V Q C l r).1 (n + 1) = V (n + 1) :=
    k1 _ (by omega) (by omega) (by omega) (by omega)
  refine ⟨(unclampKnot n p V Q C l r).1, (unclampKnot n p V Q C l r).2, ?_,
    unclampKnot_valid hC0 hCp hvV Q l r hl hr, ?_, ?_, ?_, ?_⟩
  · unfold BSp.Unclamp; rw [if_pos (by omega), hE]
  · intro j j0 j1 a b
    have a' : l = false ∨ C < j := a.imp id (fun h => by omega)
    have b' : r = false ∨ j < n + p + 1 - C := b.imp id (fun h => by omega)
    rw [k1 j a' b' j0 j1]
    exact hsame j a b
  · intro h
    refine ⟨fun j a b => ?_, fun i a b => ?_⟩
    · rw [e1, k1 j (by omega) (by omega) (by omega) (by omega)]
      exact hcL h j (by omega) b
    · rw [k2 h i a b, e1, e2]; ring
  · intro h
    refine ⟨fun j a b => ?_, fun i a b => ?_⟩
    · rw [e2, k1 j (by omega) (by omega) (by omega) (by omega)]
      exact hcR h j a (by omega)
    · rw [k3 h i a b, e1, e2, show (p : ℤ) + i + 1 = p + 1 + i by ring]; ring
  · intro u h1 h2
    have a1 : V p ≤ u := by rw [hmid _ (le_refl _) (by omega)]; exact h1
    have a2 : u ≤ V (n + 1) := by rw [hmid _ (by omega) (le_refl _)]; exact h2
    have := unclampKnot_curve U U hC0 hCp hvV Q l r hl hr a1 a2
    rw [curvePoint_eq_curve _ hvV a1 a2, curvePoint_eq_curve _
      (unclampKnot_valid hC0 hCp hvV Q l r hl hr) (by rw [e1]; exact a1) (by rw [e2]; exact a2)]
      at this
    rw [this, hcur u h1 h2]

example := C14_Unclamp (eps := 1 / 1000) (by norm_num) (fun _ => (9 : ℚ)) Ex.U_valid
  ⟨Ex.U_sep _ (by decide +kernel), Ex.U_sep _ (by decide +kernel)⟩ (vec [0, 1, 4, 2, 5, 3])
  (C := 1) (by decide) (by decide) true true
example : (BSp.Unclamp (1 / 1000) (fun _ => 9) 5 2 Ex.U (vec [0, 1, 4, 2, 5, 3] : ℤ → ℚ) 1 true true).map
    (fun VQ => ([0, 1, 2, 3, 4, 5, 6, 7, 8].map VQ.1, [0, 1, 2, 3, 4, 5].map VQ.2)) =
    .ok ([-1, -1, 0, 1, 2, 2, 3, 4, 5], [-1, 1, 4, 2, 5, 1]) := by decide +kernel

/-- C15: clamping after unclamping a clamped object gives back the knots and control points. -/
theorem C15_clamp_unclamp {eps : K} (heps : 0 < eps) (je je' : ℤ → E) {n : ℤ} {p : ℕ} {U : ℤ → K}
    (hv : ValidKnots n p U) (hsep : SepEnds eps n p U) (hcL : ClampedL p U) (hcR : ClampedR n p U)
    (P : ℤ → E) {C : ℤ} (hC0 : 0 ≤ C) (hCp : C < p) (l r : Bool) :
    ∃ V Q V' Q', BSp.Unclamp eps je n p U P C l r = .ok (V, Q) ∧
      BSp.Clamp eps je' n p V Q l r = .ok (V', Q') ∧
      (∀ j, 0 ≤ j → j ≤ n + p + 1 → V' j = U j) ∧ (∀ i, 0 ≤ i → i ≤ n → Q' i = P i) := by
  have hp := hv.one_le
  have hle := hv.le
  -- clamping a clamped vector changes nothing
  have hm1 : (p : ℤ) ≤ mult U 0 (n + p + 1) (U p) := by
    have hsub : Finset.Icc (0 : ℤ) p ⊆ (Finset.Icc 0 (n + p + 1)).filter (fun i => U i = U p) := by
      intro x hx
      simp only [Finset.mem_filter, Finset.mem_Icc] at hx ⊢
      exact ⟨by omega, hcL x hx.1 hx.2⟩
    have := Finset.card_le_card hsub
    rw [Int.card_Icc] at this
    unfold mult; omega
  have hm2 : (p : ℤ) ≤ mult U 0 (n + p + 1) (U (n + 1)) := by
    have hsub : Finset.Icc (n + 1) (n + p + 1) ⊆
        (Finset.Icc 0 (n + p + 1)).filter (fun i => U i = U (n + 1)) := by
      intro x hx
      simp only [Finset.mem_filter, Finset.mem_Icc] at hx ⊢
      exact ⟨by omega, hcR x hx.1 hx.2⟩
    have := Finset.card_le_card hsub
    rw [Int.card_Icc] at this
    unfold mult; omega
  have hCL : ∀ (P : ℤ → E), clampLeft eps je n p U P = (U, P) := by
    intro P
    refine Prod.ext_iff.mpr ⟨?_, ?_⟩
    · funext j
      rw [clampLeft_knots]
      split_ifs with h
      · exact (hcL j h.1 (by omega)).symm
      · rfl
    · have e2 : (clampLeft eps je n p U P).2 = if findMult eps p (U p) p U < p then
        kntIns je n p U P (U p) p (p - findMult eps p (U p) p U) else P := rfl
      rw [e2, findMult_first heps hv hsep.1, if_neg (by omega)]
  have hCR : ∀ (P : ℤ → E), clampRight eps je n p U P = (U, P) := by
    intro P
    refine Prod.ext_iff.mpr ⟨?_, ?_⟩
    · funext j
      rw [clampRight_knots]
      split_ifs with h
      · exact (hcR j (by omega) (by omega)).symm
      · rfl
    · have e2 : (clampRight eps je n p U P).2 = if findMult eps n (U (n + 1)) p U < p then
        kntIns je n p U P (U (n + 1)) (n + findMult eps n (U (n + 1)) p U)
          (p - findMult eps n (U (n + 1)) p U) else P := rfl
      rw [e2, findMult_last heps hv hsep.2, if_neg (by omega)]
  have hC0' : clampKnot eps je n p U P l r = (U, P) := by
    unfold clampKnot
    cases l <;> cases r <;> simp [hCL, hCR]
  have hl : l = true → ∀ j : ℤ, 1 ≤ j → j ≤ p → U j = U p := fun _ j a b => hcL j (by omega) b
  have hr : r = true → ∀ j : ℤ, n + 1 ≤ j → j ≤ n + p → U j = U (n + 1) := fun _ j a b =>
    hcR j a (by omega)
  have hvV := unclampKnot_valid hC0 hCp hv P l r hl hr
  obtain ⟨k1, k2, k3⟩ := unclampKnot_knots hC0 hCp hle U P l r
  have hform := fun (f : Multiset K → E) (k : ℤ) (hf : IsForm p f) (a : (p : ℤ) ≤ k) (b : k ≤ n)
    (hrep : Rep p U P (k - p) k f) => unclampKnot_form hC0 hCp hv P l r hl hr hf a b hrep
  have hfar : ∀ i, (p : ℤ) ≤ i → i ≤ n - p → (unclampKnot n p U P C l r).2 i = P i := by
    intro i a b
    unfold unclampKnot
    cases l <;> cases r <;> simp only [if_true, if_false, Bool.false_eq_true]
    · exact unclampRight_far n p C hC0 hCp U P b
    · exact unclampLeft_far n p C hC0 hCp U P a
    · rw [unclampRight_far n p C hC0 hCp _ _ b, unclampLeft_far n p C hC0 hCp U P a]
  refine ⟨(unclampKnot n p U P C l r).1, (unclampKnot n p U P C l r).2, 
    (clampKnot eps je' n p (unclampKnot n p U P C l r).1 (unclampKnot n p U P C l r).2 l r).1,
    (clampKnot eps je' n p (unclampKnot n p U P C l r).1 (unclampKnot n p U P C l r).2 l r).2,
    ?_, ?_, ?_⟩
  · unfold BSp.Unclamp; rw [if_pos (by omega), hC0']
  · unfold BSp.Clamp; rw [if_pos (by omega)]
  set V := (unclampKnot n p U P C l r).1 with hV
  set Q := (unclampKnot n p U P C l r).2 with hQ
  clear_value V Q
  have e1 : V p = U p := k1 p (by omega) (by omega) (by omega) (by omega)
  have e2 : V (n + 1) = U (n + 1) := k1 _ (by omega) (by omega) (by omega) (by omega)
  have en : V n = U n := k1 _ (by omega) (by omega) (by omega) (by omega)
  have ep : V (p + 1) = U (p + 1) := k1 _ (by omega) (by omega) (by omega) (by omega)
  -- gaps at the ends
  have g1 : eps ≤ U (n + 1) - U n := by
    rcases hsep.2 n (by omega) (by omega) with h | h
    · exact absurd h (ne_of_lt hv.last)
    · rwa [abs_of_pos (sub_pos.mpr hv.last)] at h
  have g2 : eps ≤ U (p + 1) - U p := by
    rcases hsep.1 (p + 1) (by omega) (by omega) with h | h
    · exact absurd h (ne_of_gt hv.first)
    · rwa [abs_sub_comm, abs_of_pos (sub_pos.mpr hv.first)] at h
  -- positions of the rewritten knots
  have lowk : l = true → ∀ j, 0 ≤ j → j ≤ C → V j ≤ U p - eps := by
    intro h j a b
    have hs := hvV.sorted j C a b (by omega)
    have := k2 h 0 (le_refl _) hC0
    rw [sub_zero, sub_zero, en] at this
    linarith
  have highk : r = true → ∀ j, n + p + 1 - C ≤ j → j ≤ n + p + 1 → U (n + 1) + eps ≤ V j := by
    intro h j a b
    have hs := hvV.sorted (n + p + 1 - C) j (by omega) a (by omega)
    have := k3 h 0 (le_refl _) hC0
    rw [add_zero, add_zero, ep] at this
    linarith
  have hab : U p < U (n + 1) :=
    lt_of_le_of_lt (hv.sorted p n (by omega) (by omega) (by omega)) hv.last
  have hsepV : SepEnds eps n p V := by
    constructor
    · intro j a b
      rw [e1]
      by_cases hj1 : l = true ∧ j ≤ C
      · right
        have := lowk hj1.1 j a hj1.2
        rw [abs_of_nonneg (by linarith)]; linarith
      · by_cases hj2 : r = true ∧ n + p + 1 - C ≤ j
        · right
          have := highk hj2.1 j hj2.2 b
          rw [abs_sub_comm, abs_of_nonneg (by linarith)]; linarith
        · rw [k1 j (by by_cases hb : l = true; (right; by_contra hc; exact hj1 ⟨hb, by omega⟩); (left; simpa using hb)) (by by_cases hb : r = true; (right; by_contra hc; exact hj2 ⟨hb, by omega⟩); (left; simpa using hb)) a b]
          exact hsep.1 j a b
    · intro j a b
      rw [e2]
      by_cases hj1 : l = true ∧ j ≤ C
      · right
        have := lowk hj1.1 j a hj1.2
        rw [abs_of_nonneg (by linarith)]; linarith
      · by_cases hj2 : r = true ∧ n + p + 1 - C ≤ j
        · right
          have := highk hj2.1 j hj2.2 b
          rw [abs_sub_comm, abs_of_nonneg (by linarith)]; linarith
        · rw [k1 j (by by_cases hb : l = true; (right; by_contra hc; exact hj1 ⟨hb, by omega⟩); (left; simpa using hb)) (by by_cases hb : r = true; (right; by_contra hc; exact hj2 ⟨hb, by omega⟩); (left; simpa using hb)) a b]
          exact hsep.2 j a b
  have hknots : ∀ j, 0 ≤ j → j ≤ n + p + 1 → (clampKnot eps je' n p V Q l r).1 j = U j := by
    intro j a b
    rw [clampKnot_knots eps je' hle, e1, e2]
    by_cases h1 : l = true ∧ 0 ≤ j ∧ j ≤ (p : ℤ) - 1
    · rw [if_pos h1, hcL j a (by omega)]
    · rw [if_neg h1]
      by_cases h2 : r = true ∧ n + 2 ≤ j ∧ j ≤ n + p + 1
      · rw [if_pos h2, hcR j (by omega) b]
      · rw [if_neg h2]
        refine k1 j ?_ ?_ a b
        · by_cases hb : l = true
          · right; by_contra hc; exact h1 ⟨hb, a, by omega⟩
          · left; simpa using hb
        · by_cases hb : r = true
          · right; by_contra hc; exact h2 ⟨hb, by omega, b⟩
          · left; simpa using hb
  refine ⟨hknots, ?_⟩
  -- control points: compare through the form of the first or last span
  have hcmp : ∀ k : ℤ, (p : ℤ) ≤ k → k ≤ n → U k < U (k + 1) → ∀ i, k - p ≤ i → i ≤ k →
      (clampKnot eps je' n p V Q l r).2 i = P i := by
    intro k a b hne i c d
    obtain ⟨f, hf, hrep⟩ := exists_form P (win_of_valid hv a b hne)
    have h1 := hform f k hf a b hrep
    have h2 := clampKnot_form heps je' hvV Q l r (fun _ => hsepV.1) (fun _ => hsepV.2) hf a b h1
    rw [h2 i c d, hrep i c d]
    congr 1
    apply kn_congr
    intro x y z
    exact hknots _ (by omega) (by omega)
  intro i a b
  by_cases h1 : i ≤ p
  · exact hcmp p (le_refl _) hle hv.first i (by omega) h1
  · by_cases h2 : n - p ≤ i
    · exact hcmp n hle (le_refl _) hv.last i h2 b
    · have hmn := one_le_mult (U := V) (lo := 0) (hi := n + p + 1) (i := n + 1) (by omega) (by omega)
      have hmn' : ∀ W : ℤ → K, (W = V ∨ W = (clampLeft eps je' n p V Q).1) →
          findMult eps n (W (n + 1)) p W ≠ 0 := by
        intro W hW
        have hvW : ValidKnots n p W := by
          rcases hW with rfl | rfl
          · exact hvV
          · exact clampLeft_valid je' hvV Q
        have hsW : SepFrom eps (W (n + 1)) W 0 (n + p + 1) := by
          rcases hW with rfl | rfl
          · exact hsepV.2
          · rw [clampLeft_knots, if_neg (by omega)]; exact clampLeft_sep je' hvV Q hsepV.2
        rw [findMult_last heps hvW hsW]
        have := one_le_mult (U := W) (lo := 0) (hi := n + p + 1) (i := n + 1) (by omega) (by omega)
        omega
      rw [← hfar i (by omega) (by omega)]
      unfold clampKnot
      cases l <;> cases r <;> simp only [if_true, if_false, Bool.false_eq_true]
      · exact clampRight_far eps je' hle _ _ (hmn' _ (Or.inl rfl)) (by omega)
      · exact clampLeft_far eps je' _ _ (by omega)
      · rw [clampRight_far eps je' hle _ _ (hmn' _ (Or.inr rfl)) (by omega),
          clampLeft_far eps je' _ _ (by omega)]

example := C15_clamp_unclamp (eps := 1 / 1000) (by norm_num) (fun _ => (9 : ℚ)) (fun _ => 8) Ex.U_valid
  ⟨Ex.U_sep _ (by decide +kernel), Ex.U_sep _ (by decide +kernel)⟩
  (fun j h1 h2 => by
    have h2 : j ≤ 2 := by simpa using h2
    interval_cases j <;> decide +kernel)
  (fun j h1 h2 => by
    have h2 : j ≤ 8 := by simpa using h2
    have h1 : 6 ≤ j := by simpa using h1
    interval_cases j <;> decide +kernel)
  (vec [0, 1, 4, 2, 5, 3]) (C := 1) (by decide) (by decide) true true

end Igakit
