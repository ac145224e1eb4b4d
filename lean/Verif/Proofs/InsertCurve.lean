import Verif.Proofs.Insert

set_option linter.unusedSectionVars false

namespace Igakit
open Spec

variable {K : Type*} [Field K] [LinearOrder K] [IsStrictOrderedRing K]
variable {E : Type*} [AddCommGroup E] [Module K E]

/-- The control points computed by `InsertKnot` are values, at the new knots, of every form that
represents the old control points. -/
theorem insertKnotQ_form (jk : ℤ → K) (je : ℤ → E) {n : ℤ} {p : ℕ} {U : ℤ → K} {P : ℤ → E}
    {uu : K} {k s r : ℤ} (hs : 0 ≤ s) (hr : 0 ≤ r) (hrs : r + s ≤ p) (hk : (p : ℤ) ≤ k)
    (hkn : k ≤ n) (hw : Win U k p) (hblk : ∀ j, k - s < j → j ≤ k → U j = uu)
    {f : Multiset K → E} (hf : IsForm p f) {lo hi : ℤ} (hrep : Rep p U P lo hi f)
    {i : ℤ} (hi0 : 0 ≤ i) (hin : i ≤ n + r)
    (hlo : lo ≤ i ∧ lo ≤ k - p ∨ lo ≤ i - r) (hhi : i ≤ hi ∨ k - s ≤ hi ∧ i - r ≤ hi) :
    insertKnotQ je n p U P uu k s r i = f (kn (insertKnotV jk n p U uu k r) i p) := by
  obtain ⟨c1, c2, c3, c4, c5⟩ := insertKnotQ_closed je n p U P uu k s r hs hr hrs hk hkn
  have Vlo := insertKnotV_lo jk n p U uu k r hr
  have Vmid := insertKnotV_mid jk n p U uu k r
  have Vhi := insertKnotV_hi jk n p U uu k r
  set V := insertKnotV jk n p U uu k r with hV
  rcases (by omega : i ≤ k - p ∨ (k - p < i ∧ i ≤ k - p + r) ∨ (k - p + r < i ∧ i < k - s) ∨
      (k - s ≤ i ∧ i < k - s + r) ∨ k - s + r ≤ i) with h | h | h | h | h
  · rw [c1 i hi0 h, hrep i (by omega) (by omega)]
    congr 1
    exact kn_congr (fun l a b => (Vlo _ (by omega) (by omega)).symm)
  · obtain ⟨j, rfl⟩ : ∃ j, i = k - p + j := ⟨i - (k - p), by ring⟩
    lift j to ℕ using (by omega)
    rw [c2 j (by omega) (by omega), Int.toNat_natCast,
      rt_form hf hrep hw uu j 0 (by omega) (le_refl _) (by omega) (by omega) (by omega)]
    congr 1
    have hp : p = (p - j) + j := by omega
    conv_rhs => rw [hp]
    rw [kn_add, add_comm]
    congr 1
    · refine kn_congr (fun l a b => ?_)
      rw [Vlo _ (by omega) (by omega)]; congr 1; omega
    · exact (kn_const (fun l a b => Vmid _ (by omega) (by omega))).symm
  · lift r to ℕ using hr
    rw [c3 i h.1 h.2, Int.toNat_natCast,
      rt_form hf hrep hw uu r _ (by omega) (by omega) (by omega) (by omega) (by omega)]
    congr 1
    have hp : p = (k - i).toNat + r + (p - r - (k - i).toNat) := by omega
    have hpr : p - r = (k - i).toNat + (p - r - (k - i).toNat) := by omega
    conv_rhs => rw [hp]
    conv_lhs => rw [hpr]
    rw [kn_add, kn_add, kn_add, ← add_assoc, add_comm (Multiset.replicate _ _)]
    congr 1
    · congr 1
      · refine kn_congr (fun l a b => ?_)
        rw [Vlo _ (by omega) (by omega)]; congr 1; omega
      · exact (kn_const (fun l a b => Vmid _ (by omega) (by omega))).symm
    · refine kn_congr (fun l a b => ?_)
      rw [Vhi _ (by push_cast; omega) (by push_cast; omega)]; congr 1; push_cast; omega
  · obtain ⟨j, rfl⟩ : ∃ j, i = k + r - j - s := ⟨k + r - s - i, by ring⟩
    lift j to ℕ using (by omega)
    lift s to ℕ using hs
    rw [c4 j (by omega) (by omega), Int.toNat_natCast,
      rt_form hf hrep hw uu j _ (by omega) (by omega) (by omega) (by omega) (by omega)]
    congr 1
    have hp : p = (j + s) + (p - j - s) := by omega
    have hpr : p - j = s + (p - j - s) := by omega
    conv_rhs => rw [hp]
    conv_lhs => rw [hpr]
    rw [kn_add, kn_add, ← add_assoc]
    congr 1
    · rw [kn_const (U := U) (x := uu) (fun l a b => hblk _ (by omega) (by omega)),
        kn_const (U := V) (x := uu) (fun l a b => ?_), Multiset.replicate_add]
      by_cases hc : k + r - j - s + l ≤ k
      · rw [Vlo _ (by omega) hc]; exact hblk _ (by omega) hc
      · exact Vmid _ (by omega) (by push_cast at b; omega)
    · refine kn_congr (fun l a b => ?_)
      rw [Vhi _ (by push_cast; omega) (by push_cast; omega)]; congr 1; push_cast; omega
  · obtain ⟨i', rfl⟩ : ∃ i', i = i' + r := ⟨i - r, by ring⟩
    rw [c5 i' (by omega) (by omega), hrep i' (by omega) (by omega)]
    congr 1
    refine kn_congr (fun l a b => ?_)
    by_cases hc : k + r < i' + r + l
    · rw [Vhi _ hc (by omega)]; congr 1; omega
    · rw [hblk _ (by omega) (by omega)]
      by_cases hc' : i' + r + l ≤ k
      · rw [Vlo _ (by omega) hc']; exact (hblk _ (by omega) hc').symm
      · rw [Vmid _ (by omega) (by omega)]

theorem sortedOn_of_succ {U : ℤ → K} {lo hi : ℤ}
    (h : ∀ i, lo ≤ i → i < hi → U i ≤ U (i + 1)) : SortedOn U lo hi := by
  intro i j h1 h2 h3
  obtain ⟨d, rfl⟩ : ∃ d : ℕ, j = i + d := ⟨(j - i).toNat, by omega⟩
  clear h2
  induction d with
  | zero => simp
  | succ d ih =>
    push_cast at h3
    refine le_trans (ih (by omega)) ?_
    have := h (i + d) (by omega) (by omega)
    rw [add_assoc] at this
    exact_mod_cast this

/-- the new knot vector is sorted -/
theorem insertKnotV_sorted (jk : ℤ → K) {n p : ℤ} {U : ℤ → K}
    (hsort : SortedOn U 0 (n + p + 1)) {uu : K}
    {k r : ℤ} (hr : 0 ≤ r) (hk : 0 ≤ k) (hkn : k < n + p + 1) (h1 : U k ≤ uu) (h2 : uu ≤ U (k + 1)) :
    SortedOn (insertKnotV jk n p U uu k r) 0 (n + r + p + 1) := by
  apply sortedOn_of_succ
  intro i a b
  rcases (by omega : i < k ∨ i = k ∨ (k < i ∧ i < k + r) ∨ (k < i ∧ i = k + r) ∨ k + r < i) with
    h | h | h | h | h
  · rw [insertKnotV_lo _ _ _ _ _ _ _ hr _ (by omega) (by omega),
      insertKnotV_lo _ _ _ _ _ _ _ hr _ (by omega) (by omega)]
    exact hsort _ _ (by omega) (by omega) (by omega)
  · subst h
    rw [insertKnotV_lo _ _ _ _ _ _ _ hr _ (by omega) (by omega)]
    by_cases hr0 : r = 0
    · subst hr0
      rw [insertKnotV_hi _ _ _ _ _ _ _ _ (by omega) (by omega)]
      exact hsort _ _ (by omega) (by omega) (by omega)
    · rw [insertKnotV_mid _ _ _ _ _ _ _ _ (by omega) (by omega)]; exact h1
  · rw [insertKnotV_mid _ _ _ _ _ _ _ _ (by omega) (by omega),
      insertKnotV_mid _ _ _ _ _ _ _ _ (by omega) (by omega)]
  · rw [insertKnotV_mid _ _ _ _ _ _ _ _ (by omega) (by omega),
      insertKnotV_hi _ _ _ _ _ _ _ _ (by omega) (by omega)]
    have : i + 1 - r = k + 1 := by omega
    rw [this]; exact h2
  · rw [insertKnotV_hi _ _ _ _ _ _ _ _ (by omega) (by omega),
      insertKnotV_hi _ _ _ _ _ _ _ _ (by omega) (by omega)]
    exact hsort _ _ (by omega) (by omega) (by omega)

/-- the new knot vector is valid when the knot is inserted strictly inside the domain -/
theorem insertKnotV_valid (jk : ℤ → K) {n p : ℤ} {U : ℤ → K} (hv : ValidKnots n p U) {uu : K}
    {k r : ℤ} (hr : 0 ≤ r) (hk : p ≤ k) (hkn : k ≤ n) (h1 : U k ≤ uu) (h2 : uu < U (k + 1))
    (hp : U p < uu) : ValidKnots (n + r) p (insertKnotV jk n p U uu k r) := by
  have hle := hv.le
  have h1le := hv.one_le
  refine ⟨h1le, by omega, insertKnotV_sorted jk hv.sorted hr (by omega) (by omega) h1 h2.le,
    ?_, ?_⟩
  · rw [insertKnotV_lo _ _ _ _ _ _ _ hr _ (by omega) (by omega)]
    by_cases hc : p + 1 ≤ k
    · rw [insertKnotV_lo _ _ _ _ _ _ _ hr _ (by omega) hc]; exact hv.first
    · by_cases hr0 : r = 0
      · subst hr0
        rw [insertKnotV_hi _ _ _ _ _ _ _ _ (by omega) (by omega), sub_zero]; exact hv.first
      · rw [insertKnotV_mid _ _ _ _ _ _ _ _ (by omega) (by omega)]; exact hp
  · rw [insertKnotV_hi _ _ _ _ _ _ _ (n + r + 1) (by omega) (by omega)]
    have e : n + r + 1 - r = n + 1 := by ring
    rw [e]
    by_cases hc : k < n
    · rw [insertKnotV_hi _ _ _ _ _ _ _ _ (by omega) (by omega)]
      have e : n + r - r = n := by ring
      rw [e]; exact hv.last
    · have hkn' : k = n := by omega
      subst hkn'
      by_cases hr0 : r = 0
      · subst hr0
        rw [insertKnotV_lo _ _ _ _ _ _ _ hr _ (by omega) (by omega), add_zero]; exact hv.last
      · rw [insertKnotV_mid _ _ _ _ _ _ _ _ (by omega) (by omega)]; exact h2

/-- where the span search lands in the new knot vector -/
theorem findSpan_insert (jk : ℤ → K) {n p : ℤ} {U : ℤ → K} (hv : ValidKnots n p U) {uu : K}
    {k r : ℤ} (hr : 0 ≤ r) (hk : p ≤ k) (hkn : k ≤ n) (h1 : U k ≤ uu) (h2 : uu < U (k + 1))
    (hp : U p < uu) {u : K} (hu1 : U p ≤ u) :
    (findSpan n p u U ≤ k ∧
      findSpan (n + r) p u (insertKnotV jk n p U uu k r) = findSpan n p u U) ∨
    (k ≤ findSpan n p u U ∧
      findSpan (n + r) p u (insertKnotV jk n p U uu k r) = findSpan n p u U + r) := by
  have hle := hv.le
  have h1le := hv.one_le
  have hv' := insertKnotV_valid jk hv hr hk hkn h1 h2 hp
  have hend : insertKnotV jk n p U uu k r (n + r + 1) = U (n + 1) := by
    rw [insertKnotV_hi _ _ _ _ _ _ _ _ (by omega) (by omega)]; congr 1; ring
  by_cases hge : U (n + 1) ≤ u
  · right
    rw [findSpan_ge hge, findSpan_ge (by rw [hend]; exact hge)]
    exact ⟨hkn, rfl⟩
  · have hlt := not_le.mp hge
    have hrg := findSpan_range (U := U) u (by omega : 0 ≤ p) hv.le
    have hspan : U (findSpan n p u U) ≤ u ∧ u < U (findSpan n p u U + 1) := by
      rcases hu1.eq_or_lt with h | h
      · rw [findSpan_le hlt h.ge]; exact ⟨hu1, h ▸ hv.first⟩
      · exact (findSpan_mid (by omega) hv.le h hlt).2.2
    set k0 := findSpan n p u U with hk0
    by_cases huu : u < uu
    · left
      have hk0k : k0 ≤ k := by
        by_contra hc
        have := hv.sorted (k + 1) k0 (by omega) (by omega) (by omega)
        exact absurd (lt_of_lt_of_le h2 (le_trans this hspan.1)) (not_lt.mpr huu.le)
      refine ⟨hk0k, findSpan_eq hv' hrg.1 (by omega) ?_ ?_⟩
      · rw [insertKnotV_lo _ _ _ _ _ _ _ hr _ (by omega) hk0k]; exact hspan.1
      · by_cases hc : k0 + 1 ≤ k
        · rw [insertKnotV_lo _ _ _ _ _ _ _ hr _ (by omega) hc]; exact hspan.2
        · by_cases hr0 : r = 0
          · subst hr0
            rw [insertKnotV_hi _ _ _ _ _ _ _ _ (by omega) (by omega), sub_zero]; exact hspan.2
          · rw [insertKnotV_mid _ _ _ _ _ _ _ _ (by omega) (by omega)]; exact huu
    · right
      have huu' := not_lt.mp huu
      have hk0k : k ≤ k0 := by
        by_contra hc
        have := hv.sorted (k0 + 1) k (by omega) (by omega) (by omega)
        exact absurd (lt_of_lt_of_le hspan.2 (le_trans this h1)) huu
      refine ⟨hk0k, findSpan_eq hv' (by omega) (by omega) ?_ ?_⟩
      · by_cases hc : k < k0
        · rw [insertKnotV_hi _ _ _ _ _ _ _ _ (by omega) (by omega)]
          have e : k0 + r - r = k0 := by ring
          rw [e]; exact hspan.1
        · by_cases hr0 : r = 0
          · rw [hr0, insertKnotV_lo _ _ _ _ _ _ _ (le_refl _) _ (by omega) (by omega), add_zero]
            exact hspan.1
          · rw [insertKnotV_mid _ _ _ _ _ _ _ _ (by omega) (by omega)]; exact huu'
      · rw [insertKnotV_hi _ _ _ _ _ _ _ _ (by omega) (by omega)]
        have e : k0 + r + 1 - r = k0 + 1 := by ring
        rw [e]; exact hspan.2

/-- `InsertKnot` with a correct span and multiplicity does not change the curve. -/
theorem insertKnot_curve (jk jk1 jk2 : ℤ → K) (je : ℤ → E) {n : ℤ} {p : ℕ} {U : ℤ → K}
    (hv : ValidKnots n p U) (P : ℤ → E) {uu : K} {k s r : ℤ} (hs : 0 ≤ s) (hr : 0 ≤ r)
    (hrs : r + s ≤ p) (hk : (p : ℤ) ≤ k) (hkn : k ≤ n) (h1 : U k ≤ uu) (h2 : uu < U (k + 1))
    (hp : U p < uu) (hblk : ∀ j, k - s < j → j ≤ k → U j = uu)
    {u : K} (hu1 : U p ≤ u) (hu2 : u ≤ U (n + 1)) :
    curvePoint jk1 (n + r) p (insertKnotV jk n p U uu k r) (insertKnotQ je n p U P uu k s r) u =
      curvePoint jk2 n p U P u := by
  have hle := hv.le
  have hv' := insertKnotV_valid jk hv hr hk hkn h1 h2 hp
  have hend : insertKnotV jk n p U uu k r (n + r + 1) = U (n + 1) := by
    rw [insertKnotV_hi _ _ _ _ _ _ _ _ (by omega) (by omega)]; congr 1; ring
  have hfst : insertKnotV jk n p U uu k r p = U p :=
    insertKnotV_lo _ _ _ _ _ _ _ hr _ (by omega) (by omega)
  have hw : Win U k p := win_of_valid hv hk hkn (lt_of_le_of_lt h1 h2)
  have hrg := findSpan_range (U := U) u (by omega : (0 : ℤ) ≤ p) hv.le
  apply curvePoint_transfer jk2 jk1 hv hv' P _ hu1 hu2 (by rw [hfst]; exact hu1)
    (by rw [hend]; exact hu2)
  intro f hf hrep i a b
  rcases findSpan_insert jk hv hr hk hkn h1 h2 hp hu1 with ⟨x1, x2⟩ | ⟨x1, x2⟩
  · rw [x2] at a b
    exact insertKnotQ_form jk je hs hr hrs hk hkn hw hblk hf hrep (by omega) (by omega)
      (Or.inl ⟨a, by omega⟩) (Or.inl b)
  · rw [x2] at a b
    exact insertKnotQ_form jk je hs hr hrs hk hkn hw hblk hf hrep (by omega) (by omega)
      (Or.inr (by omega)) (Or.inr ⟨by omega, by omega⟩)

end Igakit
