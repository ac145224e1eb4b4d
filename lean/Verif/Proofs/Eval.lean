import Verif.Proofs.Curve
import Verif.Model.BSp

set_option linter.unusedSectionVars false

namespace Igakit
open Spec BSp

variable {K : Type*} [Field K] [LinearOrder K] [IsStrictOrderedRing K]
variable {E : Type*} [AddCommGroup E] [Module K E]

theorem piece_nonneg {U : ℤ → K} {k : ℤ} {u : K} (h1 : U k ≤ u) (h2 : u ≤ U (k + 1)) (p : ℕ)
    (hs : SortedOn U (k - p) (k + p + 1)) : ∀ (q : ℕ), q ≤ p → ∀ i, 0 ≤ piece U k q i u := by
  intro q
  induction q with
  | zero =>
    intro _ i
    simp only [piece, coxDB]
    split_ifs <;> norm_num
  | succ q ih =>
    intro hq i
    rw [piece_succ]
    apply add_nonneg
    · by_cases hi : i ≤ k ∧ k ≤ i + q
      · apply mul_nonneg _ (ih (by omega) i)
        apply div_nonneg
        · exact sub_nonneg.mpr (le_trans (hs i k (by omega) hi.1 (by omega)) h1)
        · exact sub_nonneg.mpr (hs i _ (by omega) (by omega) (by omega))
      · have : piece U k q i u = 0 := by
          by_cases h : k < i
          · exact piece_zero_of_gt _ _ _ _ _ h
          · exact piece_zero_of_lt _ _ _ _ _ (by omega)
        rw [this, mul_zero]
    · by_cases hi : i + 1 ≤ k ∧ k ≤ i + 1 + q
      · apply mul_nonneg _ (ih (by omega) (i + 1))
        apply div_nonneg
        · exact sub_nonneg.mpr (le_trans h2 (hs (k + 1) _ (by omega) (by omega) (by omega)))
        · exact sub_nonneg.mpr (hs (i + 1) _ (by omega) (by omega) (by omega))
      · have : piece U k q (i + 1) u = 0 := by
          by_cases h : k < i + 1
          · exact piece_zero_of_gt _ _ _ _ _ h
          · exact piece_zero_of_lt _ _ _ _ _ (by omega)
        rw [this, mul_zero]

theorem piece_sum_one {U : ℤ → K} {k : ℤ} {p : ℕ} (hw : Win U k p) (u : K) :
    ∑ r ∈ Finset.range (p + 1), piece U k p (k - p + r) u = 1 := by
  have hf : IsForm p (fun _ : Multiset K => (1 : K)) := by
    intro m _ a s t; simp
  have := sum_piece_form hf (P := fun _ => (1 : K)) (k := k) (U := U) (fun i _ _ => rfl) hw u
  simpa using this

/-- sum over all control points reduces to the window of the span -/
theorem sum_window {M : Type*} [AddCommMonoid M] (g : ℤ → M) {n k : ℤ} {p : ℕ} (hk1 : (p : ℤ) ≤ k)
    (hk2 : k ≤ n) (hz : ∀ i, 0 ≤ i → i ≤ n → (i < k - p ∨ k < i) → g i = 0) :
    ∑ i ∈ Finset.Icc 0 n, g i = ∑ r ∈ Finset.range (p + 1), g (k - p + r) := by
  have hsub : Finset.Icc (k - p) k ⊆ Finset.Icc 0 n := by
    intro x; simp only [Finset.mem_Icc]; omega
  rw [← Finset.sum_subset hsub (by
    intro x hx hx'
    simp only [Finset.mem_Icc] at hx hx'
    exact hz x hx.1 hx.2 (by omega))]
  symm
  refine Finset.sum_bij (fun r _ => k - p + (r : ℤ)) ?_ ?_ ?_ ?_
  · intro r hr
    have := Finset.mem_range.mp hr
    simp only [Finset.mem_Icc]; omega
  · intro a _ b _ h; omega
  · intro b hb
    simp only [Finset.mem_Icc] at hb
    exact ⟨(b - (k - p)).toNat, Finset.mem_range.mpr (by omega), by omega⟩
  · intro r hr; rfl

theorem bsplineD_zero_outside {n : ℤ} {p : ℕ} {U : ℤ → K} (hv : ValidKnots n p U) {u : K}
    (h1 : U p ≤ u) (h2 : u ≤ U (n + 1)) (i : ℤ) (hi1 : 0 ≤ i) (hi2 : i ≤ n)
    (ho : i < findSpan n p u U - p ∨ findSpan n p u U < i) : bsplineD n U p i u = 0 := by
  rw [bsplineD_eq_piece hv h1 h2 i hi1 hi2]
  rcases ho with h | h
  · exact piece_zero_of_lt _ _ _ _ _ (by omega)
  · exact piece_zero_of_gt _ _ _ _ _ h

/-- the sum over the window equals the sum over all control points -/
theorem sum_bsplineD {M : Type*} [AddCommGroup M] [Module K M] {n : ℤ} {p : ℕ} {U : ℤ → K}
    (hv : ValidKnots n p U) {u : K} (h1 : U p ≤ u) (h2 : u ≤ U (n + 1)) (P : ℤ → M) :
    ∑ i ∈ Finset.Icc 0 n, bsplineD n U p i u • P i =
      ∑ r ∈ Finset.range (p + 1), piece U (findSpan n p u U) p (findSpan n p u U - p + r) u •
        P (findSpan n p u U - p + r) := by
  have hrg := findSpan_range (U := U) u (by omega : (0 : ℤ) ≤ p) hv.le
  rw [sum_window _ hrg.1 hrg.2 (fun i a b c => by
    rw [bsplineD_zero_outside hv h1 h2 i a b c, zero_smul])]
  apply Finset.sum_congr rfl
  intro r hr
  have := Finset.mem_range.mp hr
  rw [bsplineD_eq_piece hv h1 h2 _ (by omega) (by omega)]

theorem curvePoint_eq_bsplineD (jk : ℤ → K) {n : ℤ} {p : ℕ} {U : ℤ → K} (hv : ValidKnots n p U)
    {u : K} (h1 : U p ≤ u) (h2 : u ≤ U (n + 1)) (P : ℤ → E) :
    curvePoint jk n p U P u = ∑ i ∈ Finset.Icc 0 n, bsplineD n U p i u • P i := by
  rw [curvePoint_eq_sum, sum_bsplineD hv h1 h2]

/-- a loop that only writes position `i` in pass `i` -/
theorem forUp_fill {α : Type*} (g : ℤ → α) (lo hi : ℤ) (C : ℤ → α) (j : ℤ) :
    forUp lo hi (fun i C => upd C i (g i)) C j = if lo ≤ j ∧ j ≤ hi then g j else C j := by
  by_cases h : lo ≤ hi + 1
  · have := forUp_inv (f := fun i (C : ℤ → α) => upd C i (g i))
      (fun i C' => ∀ j, C' j = if lo ≤ j ∧ j < i then g j else C j) (lo := lo) (hi := hi) (s := C) h
      (by intro j; rw [if_neg (by omega)])
      (by
        intro i C' h1 h2 ih j
        by_cases hj : j = i
        · subst hj; rw [upd_same, if_pos (by omega)]
        · rw [upd_ne _ _ hj, ih j]
          by_cases hc : lo ≤ j ∧ j < i
          · rw [if_pos hc, if_pos (by omega)]
          · rw [if_neg hc, if_neg (by omega)])
    rw [this j]
    by_cases hc : lo ≤ j ∧ j ≤ hi
    · rw [if_pos hc, if_pos (by omega)]
    · rw [if_neg hc, if_neg (by omega)]
  · rw [forUp_empty (by omega), if_neg (by omega)]

theorem evaluate1_eq (jk : ℤ → K) (je : ℤ → E) (n p : ℤ) (U : ℤ → K) (Pw : ℤ → E) (r : ℤ)
    (X : ℤ → K) (i : ℤ) (h1 : 0 ≤ i) (h2 : i ≤ r) :
    evaluate1 jk je n p U Pw r X i = curvePoint jk n p U Pw (X i) := by
  unfold evaluate1
  simp only
  rw [forUp_fill (fun i => forUp 0 p (fun j C => C +
    basisFuns jk (findSpan n p (X i) U) (X i) p U j • Pw (findSpan n p (X i) U - p + j)) 0),
    if_pos ⟨h1, h2⟩]
  rfl

theorem axisTables_spec (jk : ℤ → K) (n p : ℤ) (U : ℤ → K) (r : ℤ) (X : ℤ → K) (i : ℤ)
    (h1 : 0 ≤ i) (h2 : i ≤ r) :
    (axisTables jk n p U r X).1 i = findSpan n p (X i) U ∧
    (axisTables jk n p U r X).2 i = basisFuns jk (findSpan n p (X i) U) (X i) p U := by
  have := forUp_inv (f := fun ix (t : (ℤ → ℤ) × (ℤ → ℤ → K)) =>
    let span := upd t.1 ix (findSpan n p (X ix) U)
    (span, upd t.2 ix (basisFuns jk (span ix) (X ix) p U)))
    (fun i t => ∀ j, 0 ≤ j → j < i → t.1 j = findSpan n p (X j) U ∧
      t.2 j = basisFuns jk (findSpan n p (X j) U) (X j) p U) (lo := 0) (hi := r)
    (s := (fun _ => 0, fun _ => jk)) (by omega) (by intro j a b; omega)
    (by
      intro i t _ _ ih j a b
      by_cases hj : j = i
      · subst hj; simp
      · simp only [upd_ne _ _ hj]; exact ih j a (by omega))
  exact this i h1 (by omega)

theorem forUp_congr {σ : Type*} {f g : ℤ → σ → σ} {lo hi : ℤ} {s : σ}
    (h : ∀ i s, lo ≤ i → i ≤ hi → f i s = g i s) : forUp lo hi f s = forUp lo hi g s := by
  by_cases hle : lo ≤ hi + 1
  · unfold forUp
    have : ∀ (n : ℕ) (i : ℤ) (s : σ), lo ≤ i → i + n ≤ hi + 1 → iterUp f n i s = iterUp g n i s := by
      intro n
      induction n with
      | zero => intros; rfl
      | succ n ih =>
        intro i s a b
        push_cast at b
        rw [iterUp, iterUp, h i s a (by omega), ih (i + 1) _ (by omega) (by omega)]
    exact this _ _ _ (le_refl _) (by omega)
  · rw [forUp_empty (by omega), forUp_empty (by omega)]

theorem forUp_fill2 {α : Type*} (g : ℤ → ℤ → α) (rx ry : ℤ) (C : ℤ → ℤ → α) (i j : ℤ)
    (hi : 0 ≤ i ∧ i ≤ rx) (hj : 0 ≤ j ∧ j ≤ ry) :
    forUp 0 rx (fun ix C => forUp 0 ry (fun iy C => upd2 C ix iy (g ix iy)) C) C i j = g i j := by
  have inner : ∀ (ix : ℤ) (C : ℤ → ℤ → α) (i j : ℤ),
      forUp 0 ry (fun iy C => upd2 C ix iy (g ix iy)) C i j =
        if i = ix ∧ 0 ≤ j ∧ j ≤ ry then g i j else C i j := by
    intro ix C i j
    by_cases h : (0 : ℤ) ≤ ry + 1
    · have := forUp_inv (f := fun iy (C : ℤ → ℤ → α) => upd2 C ix iy (g ix iy))
        (fun m C' => ∀ i j, C' i j = if i = ix ∧ 0 ≤ j ∧ j < m then g i j else C i j)
        (lo := 0) (hi := ry) (s := C) h
        (by intro i j; rw [if_neg (by omega)])
        (by
          intro m C' h1 h2 ih i j
          unfold upd2
          by_cases hi : i = ix
          · subst hi
            rw [upd_same]
            by_cases hj : j = m
            · subst hj; rw [upd_same, if_pos (by omega)]
            · rw [upd_ne _ _ hj, ih i j]
              by_cases hc : 0 ≤ j ∧ j < m
              · rw [if_pos (by omega), if_pos (by omega)]
              · rw [if_neg (by omega), if_neg (by omega)]
          · rw [upd_ne _ _ hi, ih i j, if_neg (by omega), if_neg (by omega)])
      rw [this i j]
      by_cases hc : i = ix ∧ 0 ≤ j ∧ j ≤ ry
      · rw [if_pos hc, if_pos (by omega)]
      · rw [if_neg hc, if_neg (by omega)]
    · rw [forUp_empty (by omega), if_neg (by omega)]
  have := forUp_inv (f := fun ix (C : ℤ → ℤ → α) => forUp 0 ry (fun iy C => upd2 C ix iy (g ix iy)) C)
    (fun m C' => ∀ i j, 0 ≤ i → i < m → 0 ≤ j → j ≤ ry → C' i j = g i j)
    (lo := 0) (hi := rx) (s := C) (by omega) (by intro i j _ _; omega)
    (by
      intro m C' h1 h2 ih i j a b c d
      rw [inner]
      by_cases hi : i = m
      · rw [if_pos (by omega)]
      · rw [if_neg (by omega)]; exact ih i j a (by omega) c d)
  exact this i j hi.1 (by omega) hj.1 hj.2

theorem forUp_fill3 {α : Type*} (g : ℤ → ℤ → ℤ → α) (rx ry rz : ℤ) (C : ℤ → ℤ → ℤ → α) (i j k : ℤ)
    (hi : 0 ≤ i ∧ i ≤ rx) (hj : 0 ≤ j ∧ j ≤ ry) (hk : 0 ≤ k ∧ k ≤ rz) :
    forUp 0 rx (fun ix C => forUp 0 ry (fun iy C => forUp 0 rz (fun iz C =>
      upd3 C ix iy iz (g ix iy iz)) C) C) C i j k = g i j k := by
  -- one x-slab of the triple loop is a double loop on that slab
  have hz : ∀ (ix iy : ℤ) (C : ℤ → ℤ → ℤ → α),
      forUp 0 rz (fun iz C => upd3 C ix iy iz (g ix iy iz)) C =
        upd C ix (forUp 0 rz (fun iz D => upd2 D iy iz (g ix iy iz)) (C ix)) := by
    intro ix iy C
    by_cases h : (0 : ℤ) ≤ rz + 1
    · have e : rz = rz + 1 - 1 := by ring
      have := forUp_inv (f := fun iz (C : ℤ → ℤ → ℤ → α) => upd3 C ix iy iz (g ix iy iz))
        (fun m C' => C' = upd C ix
          (forUp 0 (m - 1) (fun iz D => upd2 D iy iz (g ix iy iz)) (C ix)))
        (lo := 0) (hi := rz) (s := C) h
        (by
          rw [forUp_empty (by omega)]
          funext x; by_cases hx : x = ix
          · subst hx; simp
          · rw [upd_ne _ _ hx])
        (by
          rintro m C' h1 h2 rfl
          unfold upd3
          have e2 : m + 1 - 1 = m := by ring
          rw [e2, forUp_last h1]
          funext x; by_cases hx : x = ix
          · subst hx; simp
          · rw [upd_ne _ _ hx, upd_ne _ _ hx, upd_ne _ _ hx])
      rw [← e] at this
      exact this
    · rw [forUp_empty (by omega), forUp_empty (by omega)]
      funext x; by_cases hx : x = ix
      · subst hx; simp
      · rw [upd_ne _ _ hx]
  have hy : ∀ (ix : ℤ) (C : ℤ → ℤ → ℤ → α),
      forUp 0 ry (fun iy C => forUp 0 rz (fun iz C => upd3 C ix iy iz (g ix iy iz)) C) C =
        upd C ix (forUp 0 ry (fun iy D => forUp 0 rz (fun iz D => upd2 D iy iz (g ix iy iz)) D)
          (C ix)) := by
    intro ix C
    have e : ry = ry + 1 - 1 := by ring
    have := forUp_inv (f := fun iy (C : ℤ → ℤ → ℤ → α) =>
        forUp 0 rz (fun iz C => upd3 C ix iy iz (g ix iy iz)) C)
      (fun m C' => C' = upd C ix
        (forUp 0 (m - 1) (fun iy D => forUp 0 rz (fun iz D => upd2 D iy iz (g ix iy iz)) D) (C ix)))
      (lo := 0) (hi := ry) (s := C) (by omega)
      (by
        rw [forUp_empty (by omega)]
        funext x; by_cases hx : x = ix
        · subst hx; simp
        · rw [upd_ne _ _ hx])
      (by
        rintro m C' h1 h2 rfl
        have e2 : m + 1 - 1 = m := by ring
        rw [hz, e2, forUp_last (lo := 0) (hi := m) h1, upd_same]
        funext x; by_cases hx : x = ix
        · subst hx; simp
        · rw [upd_ne _ _ hx, upd_ne _ _ hx, upd_ne _ _ hx])
    rw [← e] at this
    exact this
  have := forUp_inv (f := fun ix (C : ℤ → ℤ → ℤ → α) => forUp 0 ry (fun iy C => forUp 0 rz
      (fun iz C => upd3 C ix iy iz (g ix iy iz)) C) C)
    (fun m C' => ∀ i j k, 0 ≤ i → i < m → 0 ≤ j → j ≤ ry → 0 ≤ k → k ≤ rz → C' i j k = g i j k)
    (lo := 0) (hi := rx) (s := C) (by omega) (by intro i j k _ _; omega)
    (by
      intro m C' h1 h2 ih i j k a b c d e f
      rw [hy]
      by_cases hi : i = m
      · subst hi
        rw [upd_same]
        exact forUp_fill2 (g i) ry rz (C' i) j k ⟨c, d⟩ ⟨e, f⟩
      · rw [upd_ne _ _ hi]; exact ih i j k a (by omega) c d e f)
  exact this i j k hi.1 (by omega) hj.1 hj.2 hk.1 hk.2

end Igakit
