import Verif.Proofs.Unclamp

set_option linter.unusedSectionVars false

namespace Igakit
open Spec

variable {K : Type*} [Field K] [LinearOrder K] [IsStrictOrderedRing K]
variable {E : Type*} [AddCommGroup E] [Module K E]

theorem clampLeft_far (eps : K) (je : ℤ → E) {n : ℤ} {p : ℕ} (U : ℤ → K) (P : ℤ → E)
    {i : ℤ} (hi : (p : ℤ) ≤ i) : (clampLeft eps je n p U P).2 i = P i := by
  have e2 : (clampLeft eps je n p U P).2 = if findMult eps p (U p) p U < p then
      kntIns je n p U P (U p) p (p - findMult eps p (U p) p U) else P := rfl
  have h0 : 0 ≤ findMult eps p (U p) p U := by unfold findMult; rw [forUp_count]; positivity
  rw [e2]
  split_ifs with h
  · rw [kntIns_left _ _ _ _ _ _ _ (by omega), if_neg (by omega)]
  · rfl

theorem clampRight_far (eps : K) (je : ℤ → E) {n : ℤ} {p : ℕ} (hn : (p : ℤ) ≤ n) (U : ℤ → K)
    (P : ℤ → E) (hs : findMult eps n (U (n + 1)) p U ≠ 0) {i : ℤ} (hi : i ≤ n - p) :
    (clampRight eps je n p U P).2 i = P i := by
  have e2 : (clampRight eps je n p U P).2 = if findMult eps n (U (n + 1)) p U < p then
      kntIns je n p U P (U (n + 1)) (n + findMult eps n (U (n + 1)) p U)
        (p - findMult eps n (U (n + 1)) p U) else P := rfl
  have h0 : 0 ≤ findMult eps n (U (n + 1)) p U := by unfold findMult; rw [forUp_count]; positivity
  rw [e2]
  split_ifs with h
  · rw [kntIns_right _ _ _ _ _ _ _ _ (by omega) (by omega), if_neg (by omega)]
  · rfl

theorem unclampLeft_far (n : ℤ) (p : ℕ) (C : ℤ) (hC0 : 0 ≤ C) (hCp : C < p) (U : ℤ → K) (P : ℤ → E)
    {i : ℤ} (hi : (p : ℤ) ≤ i) : (unclampLeft n p U P C).2 i = P i := by
  unfold unclampLeft
  dsimp only
  refine forUp_inv (I := fun (_ : ℤ) (Q : ℤ → E) => Q i = P i) (by omega) rfl ?_
  intro a Q h1 h2 hQ
  refine forDown_inv (I := fun (_ : ℤ) (Q : ℤ → E) => Q i = P i) (by omega) hQ ?_
  intro j R h3 h4 hR
  rw [upd_ne _ _ (by omega)]; exact hR

theorem unclampRight_far (n : ℤ) (p : ℕ) (C : ℤ) (hC0 : 0 ≤ C) (hCp : C < p) (U : ℤ → K)
    (P : ℤ → E) {i : ℤ} (hi : i ≤ n - p) : (unclampRight n p U P C).2 i = P i := by
  unfold unclampRight
  dsimp only
  refine forUp_inv (I := fun (_ : ℤ) (Q : ℤ → E) => Q i = P i) (by omega) rfl ?_
  intro a Q h1 h2 hQ
  refine forDown_inv (I := fun (_ : ℤ) (Q : ℤ → E) => Q i = P i) (by omega) hQ ?_
  intro j R h3 h4 hR
  rw [upd_ne _ _ (by omega)]; exact hR

/-- the knots of `unclampKnot`, both sides -/
theorem unclampKnot_knots {n p C : ℤ} (hC0 : 0 ≤ C) (hCp : C < p) (hpn : p ≤ n) (U : ℤ → K)
    (P : ℤ → E) (l r : Bool) :
    (∀ j, (l = false ∨ C < j) → (r = false ∨ j < n + p + 1 - C) → 0 ≤ j → j ≤ n + p + 1 →
      (unclampKnot n p U P C l r).1 j = U j) ∧
    (l = true → ∀ i, 0 ≤ i → i ≤ C → (unclampKnot n p U P C l r).1 (C - i) =
      U p - U (n + 1) + (unclampKnot n p U P C l r).1 (n - i)) ∧
    (r = true → ∀ i, 0 ≤ i → i ≤ C → (unclampKnot n p U P C l r).1 (n + p + 1 - C + i) =
      U (n + 1) - U p + (unclampKnot n p U P C l r).1 (p + i + 1)) := by
  unfold unclampKnot
  cases l <;> cases r <;> simp only [if_true, if_false, Bool.false_eq_true, IsEmpty.forall_iff,
    and_true, true_or, forall_const, reduceCtorEq, false_or, true_and]
  · intros; trivial
  · obtain ⟨k1, k2⟩ := unclampRight_knots hC0 hCp hpn U P
    exact ⟨fun j a b c => k1 j (by omega), k2⟩
  · obtain ⟨k1, k2⟩ := unclampLeft_knots hC0 hCp hpn U P
    exact ⟨fun j a b c => k1 j (by omega), k2⟩
  · obtain ⟨k1, k2⟩ := unclampLeft_knots hC0 hCp hpn U P
    obtain ⟨k3, k4⟩ := unclampRight_knots hC0 hCp hpn (unclampLeft n p U P C).1
      (unclampLeft n p U P C).2
    refine ⟨fun j a b c d => ?_, fun i a b => ?_, fun i a b => ?_⟩
    · rw [k3 j (by omega), k1 j (by omega)]
    · rw [k3 _ (by omega), k2 i a b, k3 _ (by omega)]
    · rw [k4 i a b, k1 _ (by omega), k1 _ (by omega)]

theorem unclampKnot_valid {n : ℤ} {p : ℕ} {C : ℤ} (hC0 : 0 ≤ C) (hCp : C < p) {U : ℤ → K}
    (hv : ValidKnots n p U) (P : ℤ → E) (l r : Bool)
    (hl : l = true → ∀ j : ℤ, 1 ≤ j → j ≤ p → U j = U p)
    (hr : r = true → ∀ j : ℤ, n + 1 ≤ j → j ≤ n + p → U j = U (n + 1)) :
    ValidKnots n p (unclampKnot n p U P C l r).1 := by
  have hp := hv.one_le
  have hle := hv.le
  unfold unclampKnot
  have hL := fun h => unclampLeft_valid hC0 hCp hv (hl h (C + 1) (by omega) (by omega)) P
  cases l <;> cases r <;> simp only [if_true, if_false, Bool.false_eq_true]
  · exact hv
  · exact unclampRight_valid hC0 hCp hv (hr rfl _ (by omega) (by omega)) P
  · exact hL rfl
  · obtain ⟨k1, -⟩ := unclampLeft_knots hC0 hCp hle U P
    refine unclampRight_valid hC0 hCp (hL rfl) ?_ _
    rw [k1 _ (by omega), k1 _ (by omega)]
    exact hr rfl _ (by omega) (by omega)

theorem unclampKnot_form {n : ℤ} {p : ℕ} {C : ℤ} (hC0 : 0 ≤ C) (hCp : C < p) {U : ℤ → K}
    (hv : ValidKnots n p U) (P : ℤ → E) (l r : Bool)
    (hl : l = true → ∀ j : ℤ, 1 ≤ j → j ≤ p → U j = U p)
    (hr : r = true → ∀ j : ℤ, n + 1 ≤ j → j ≤ n + p → U j = U (n + 1))
    {f : Multiset K → E} (hf : IsForm p f) {k : ℤ} (hk1 : (p : ℤ) ≤ k) (hk2 : k ≤ n)
    (hrep : Rep p U P (k - p) k f) :
    Rep p (unclampKnot n p U P C l r).1 (unclampKnot n p U P C l r).2 (k - p) k f := by
  have hp := hv.one_le
  have hle := hv.le
  unfold unclampKnot
  have hL : l = true → Rep p (unclampLeft n p U P C).1 (unclampLeft n p U P C).2 (k - p) k f :=
    fun h i a b => unclampLeft_form hC0 hCp hv (hl h) P hf hrep (by omega) (by omega) a b
  have hR : r = true → Rep p (unclampRight n p U P C).1 (unclampRight n p U P C).2 (k - p) k f :=
    fun h i a b => unclampRight_form hC0 hCp hv (hr h) P hf hrep (by omega) (by omega) a b
  cases l <;> cases r <;> simp only [if_true, if_false, Bool.false_eq_true]
  · exact hrep
  · exact hR rfl
  · exact hL rfl
  · intro i a b
    obtain ⟨k1, -⟩ := unclampLeft_knots hC0 hCp hle U P
    refine unclampRight_form hC0 hCp
      (unclampLeft_valid hC0 hCp hv (hl rfl (C + 1) (by omega) (by omega)) P) ?_ _ hf (hL rfl)
      (by omega) (by omega) a b
    intro j x y
    rw [k1 _ (by omega), k1 _ (by omega)]
    exact hr rfl j x y

theorem clampKnot_form {eps : K} (heps : 0 < eps) (je : ℤ → E) {n : ℤ} {p : ℕ} {U : ℤ → K}
    (hv : ValidKnots n p U) (P : ℤ → E) (l r : Bool)
    (hsep1 : l = true → SepFrom eps (U p) U 0 (n + p + 1))
    (hsep2 : r = true → SepFrom eps (U (n + 1)) U 0 (n + p + 1))
    {f : Multiset K → E} (hf : IsForm p f) {k : ℤ} (hk1 : (p : ℤ) ≤ k) (hk2 : k ≤ n)
    (hrep : Rep p U P (k - p) k f) :
    Rep p (clampKnot eps je n p U P l r).1 (clampKnot eps je n p U P l r).2 (k - p) k f := by
  have hp := hv.one_le
  have hle := hv.le
  have hL : l = true → Rep p (clampLeft eps je n p U P).1 (clampLeft eps je n p U P).2 (k - p) k f :=
    fun h i a b => clampLeft_form heps je hv P (hsep1 h) hf hrep (by omega) a b (by omega)
  have hR : r = true →
      Rep p (clampRight eps je n p U P).1 (clampRight eps je n p U P).2 (k - p) k f :=
    fun h i a b => clampRight_form heps je hv P (hsep2 h) hf hrep (by omega) a b (by omega)
  unfold clampKnot
  cases l <;> cases r <;> simp only [if_true, if_false, Bool.false_eq_true]
  · exact hrep
  · exact hR rfl
  · exact hL rfl
  · intro i a b
    refine clampRight_form heps je (clampLeft_valid je hv P) _ ?_ hf (hL rfl) (by omega) a b
      (by omega)
    rw [clampLeft_knots, if_neg (by omega)]
    exact clampLeft_sep je hv P (hsep2 rfl)

/-- an operation that keeps the knots of the domain and maps every representing form to itself
keeps the curve -/
theorem curvePoint_of_rep (jk jk' : ℤ → K) {n : ℤ} {p : ℕ} {U V : ℤ → K} (hv : ValidKnots n p U)
    (hv' : ValidKnots n p V) (P Q : ℤ → E) (h : ∀ i : ℤ, p ≤ i → i ≤ n + 1 → V i = U i)
    (hrep : ∀ (f : Multiset K → E) (k : ℤ), IsForm p f → (p : ℤ) ≤ k → k ≤ n →
      Rep p U P (k - p) k f → Rep p V Q (k - p) k f)
    {u : K} (h1 : U p ≤ u) (h2 : u ≤ U (n + 1)) :
    curvePoint jk' n p V Q u = curvePoint jk n p U P u := by
  have hp := hv.one_le
  have hle := hv.le
  apply curvePoint_transfer jk jk' hv hv' P _ h1 h2
    (by rw [h _ (le_refl _) (by omega)]; exact h1) (by rw [h _ (by omega) (le_refl _)]; exact h2)
  intro f hf hr
  have hrg := findSpan_range (U := U) u (by omega : (0 : ℤ) ≤ p) hle
  rw [findSpan_congr (by omega) hle (fun i j a b c => hv.sorted i j (by omega) b (by omega)) h u]
  exact hrep f _ hf hrg.1 hrg.2 hr

theorem unclampKnot_curve (jk jk' : ℤ → K) {n : ℤ} {p : ℕ} {C : ℤ} (hC0 : 0 ≤ C) (hCp : C < p)
    {U : ℤ → K} (hv : ValidKnots n p U) (P : ℤ → E) (l r : Bool)
    (hl : l = true → ∀ j : ℤ, 1 ≤ j → j ≤ p → U j = U p)
    (hr : r = true → ∀ j : ℤ, n + 1 ≤ j → j ≤ n + p → U j = U (n + 1))
    {u : K} (h1 : U p ≤ u) (h2 : u ≤ U (n + 1)) :
    curvePoint jk' n p (unclampKnot n p U P C l r).1 (unclampKnot n p U P C l r).2 u =
      curvePoint jk n p U P u := by
  have hp := hv.one_le
  have hle := hv.le
  refine curvePoint_of_rep jk jk' hv (unclampKnot_valid hC0 hCp hv P l r hl hr) P _ ?_ ?_ h1 h2
  · intro i a b
    exact (unclampKnot_knots hC0 hCp hle U P l r).1 i (by omega) (by omega) (by omega) (by omega)
  · intro f k hf a b hrep
    exact unclampKnot_form hC0 hCp hv P l r hl hr hf a b hrep

end Igakit
