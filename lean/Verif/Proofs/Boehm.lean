import Verif.Proofs.CurveSpec

/-!
# One knot insertion (Boehm's step) on knot vectors that may have empty spans

`IsRefn n p U P N T C X`: the net `C` on the knots `T` describes the same splines as `P` on `U`;
`T` is `U` with the values `X` added.
-/

set_option linter.unusedSectionVars false

namespace Igakit
open Spec

variable {K : Type*} [Field K] [LinearOrder K] [IsStrictOrderedRing K]
variable {E : Type*} [AddCommGroup E] [Module K E]

structure IsRefn (n : ℤ) (p : ℕ) (U : ℤ → K) (P : ℤ → E) (N : ℤ) (T : ℤ → K) (C : ℤ → E)
    (X : Multiset K) : Prop where
  sorted : SortedOn T 0 (N + p + 1)
  ms : knotMS T (N + p + 1) = knotMS U (n + p + 1) + X
  forms : ∀ (k k' : ℤ) (f : Multiset K → E), (p : ℤ) ≤ k → k ≤ n → U k < U (k + 1) →
    (p : ℤ) ≤ k' → k' ≤ N → T k' < T (k' + 1) → U k ≤ T k' → T k' < U (k + 1) →
    IsForm p f → Rep p U P (k - p) k f → Rep p T C (k' - p) k' f

theorem mem_knotMS {U : ℤ → K} {m : ℤ} {x : K} : x ∈ knotMS U m ↔ ∃ z, 0 ≤ z ∧ z ≤ m ∧ U z = x := by
  unfold knotMS
  rw [Multiset.mem_map]
  constructor
  · rintro ⟨z, h1, h2⟩
    have := Finset.mem_Icc.mp (Finset.mem_def.mpr h1)
    exact ⟨z, this.1, this.2, h2⟩
  · rintro ⟨z, h1, h2, h3⟩
    exact ⟨z, Finset.mem_def.mp (Finset.mem_Icc.mpr ⟨h1, h2⟩), h3⟩

theorem IsRefn.contains {n : ℤ} {p : ℕ} {U : ℤ → K} {P : ℤ → E} {N : ℤ} {T : ℤ → K} {C : ℤ → E}
    {X : Multiset K} (h : IsRefn n p U P N T C X) {z : ℤ} (h1 : 0 ≤ z) (h2 : z ≤ n + p + 1) :
    ∃ z', 0 ≤ z' ∧ z' ≤ N + p + 1 ∧ T z' = U z := by
  apply mem_knotMS.mp
  rw [h.ms]
  exact Multiset.mem_add.mpr (Or.inl (mem_knotMS.mpr ⟨z, h1, h2, rfl⟩))

/-- a knot of `U` below `x < T(i+1)` is at most `T i` -/
theorem IsRefn.le_of_lt {n : ℤ} {p : ℕ} {U : ℤ → K} {P : ℤ → E} {N : ℤ} {T : ℤ → K} {C : ℤ → E}
    {X : Multiset K} (h : IsRefn n p U P N T C X) {z : ℤ} (h1 : 0 ≤ z) (h2 : z ≤ n + p + 1) {i : ℤ}
    (hi0 : 0 ≤ i) (hiN : i ≤ N + p) (hx : U z < T (i + 1)) : U z ≤ T i := by
  obtain ⟨z', a, b, c⟩ := h.contains h1 h2
  rw [← c] at hx ⊢
  rcases le_or_gt z' i with d | d
  · exact h.sorted z' i a d (by omega)
  · exact absurd (h.sorted (i + 1) z' (by omega) (by omega) b) (not_le.mpr hx)

theorem IsRefn.refl {n : ℤ} {p : ℕ} {U : ℤ → K} (hs : SortedOn U 0 (n + p + 1)) (P : ℤ → E) :
    IsRefn n p U P n U P 0 := by
  refine ⟨hs, by simp, ?_⟩
  intro k k' f a b c a' b' c' d1 d2 _ hr
  have : k = k' := span_unique hs (by omega) (by omega) (by omega) (by omega) d1 d2 (le_refl _) c'
  rwa [this] at hr

theorem IsRefn.congr {n : ℤ} {p : ℕ} {U : ℤ → K} {P : ℤ → E} {N : ℤ} {T T' : ℤ → K} {C C' : ℤ → E}
    {X : Multiset K} (h : IsRefn n p U P N T C X) (hT : ∀ j, 0 ≤ j → j ≤ N + p + 1 → T' j = T j)
    (hC : ∀ j, 0 ≤ j → j ≤ N → C' j = C j) : IsRefn n p U P N T' C' X := by
  refine ⟨?_, ?_, ?_⟩
  · intro i j a b c
    rw [hT i a (by omega), hT j (by omega) c]; exact h.sorted i j a b c
  · rw [knotMS_congr hT]; exact h.ms
  · intro k k' f a b c a' b' c' d1 d2 hf hr
    rw [hT k' (by omega) (by omega)] at c' d1 d2
    rw [hT (k' + 1) (by omega) (by omega)] at c'
    intro y e1 e2
    rw [hC y (by omega) (by omega), h.forms k k' f a b c a' b' c' d1 d2 hf hr y e1 e2]
    congr 1
    exact (kn_congr (fun l a b => hT _ (by omega) (by omega))).symm

theorem kn_insert {T T' : ℤ → K} {x : K} {i y : ℤ} {c : ℕ} (hlo : ∀ z, y < z → z ≤ i → T' z = T z)
    (hmid : T' (i + 1) = x) (hhi : ∀ z, i + 1 < z → z ≤ y + c + 1 → T' z = T (z - 1))
    (h1 : y ≤ i) (h2 : i ≤ y + c) : kn T' y (c + 1) = x ::ₘ kn T y c := by
  have e1 : c + 1 = (i - y).toNat + (1 + (y + c - i).toNat) := by omega
  have e2 : c = (i - y).toNat + (y + c - i).toNat := by omega
  have a1 : kn T' y (i - y).toNat = kn T y (i - y).toNat :=
    kn_congr (fun l a b => hlo _ (by omega) (by omega))
  have a2 : kn T' (y + ((i - y).toNat : ℤ)) 1 = {x} := by
    rw [kn_succ_last, kn_zero]
    have : y + ((i - y).toNat : ℤ) + 1 + (0 : ℕ) = i + 1 := by omega
    rw [this, hmid]; rfl
  have a3 : kn T' (y + ((i - y).toNat : ℤ) + ((1 : ℕ) : ℤ)) (y + c - i).toNat =
      kn T (y + ((i - y).toNat : ℤ)) (y + c - i).toNat := by
    apply kn_congr
    intro l a b
    rw [hhi _ (by push_cast; omega) (by push_cast; omega)]
    congr 1; push_cast; ring
  calc kn T' y (c + 1) = kn T' y (i - y).toNat + (kn T' (y + ((i - y).toNat : ℤ)) 1 +
        kn T' (y + ((i - y).toNat : ℤ) + ((1 : ℕ) : ℤ)) (y + c - i).toNat) := by
          conv_lhs => rw [e1]
          rw [kn_add, kn_add]
    _ = x ::ₘ (kn T y (i - y).toNat + kn T (y + ((i - y).toNat : ℤ)) (y + c - i).toNat) := by
          rw [a1, a2, a3, Multiset.singleton_add, Multiset.add_cons]
    _ = x ::ₘ kn T y c := by
          rw [← kn_add, ← e2]

theorem IsRefn.step {n : ℤ} {p : ℕ} {U : ℤ → K} {P : ℤ → E} {N : ℤ} {T T' : ℤ → K} {C C' : ℤ → E}
    {X : Multiset K} (h : IsRefn n p U P N T C X) (hp : 1 ≤ p) {i : ℤ} (hi1 : (p : ℤ) ≤ i)
    (hi2 : i ≤ N) {x : K} (hx1 : T i ≤ x) (hx2 : x ≤ T (i + 1))
    (hlo : ∀ z, 0 ≤ z → z ≤ i → T' z = T z) (hmid : T' (i + 1) = x)
    (hhi : ∀ z, i + 1 < z → z ≤ N + p + 2 → T' z = T (z - 1))
    (clo : ∀ y, 0 ≤ y → y ≤ i - p → C' y = C y)
    (cmid : ∀ y, i - p < y → y ≤ i → T y < T (y + p) →
      C' y = ((x - T y) / (T (y + p) - T y)) • C y +
        (1 - (x - T y) / (T (y + p) - T y)) • C (y - 1))
    (chi : ∀ y, i < y → y ≤ N + 1 → C' y = C (y - 1)) :
    IsRefn n p U P (N + 1) T' C' (x ::ₘ X) := by
  refine ⟨?_, ?_, ?_⟩
  · apply sortedOn_of_succ
    intro z a b
    rcases (by omega : z < i ∨ z = i ∨ z = i + 1 ∨ i + 1 < z) with c | c | c | c
    · rw [hlo z a (by omega), hlo (z + 1) (by omega) (by omega)]
      exact h.sorted _ _ a (by omega) (by omega)
    · rw [c, hlo i (by omega) (le_refl _), hmid]; exact hx1
    · rw [c, hmid, hhi _ (by omega) (by omega), show i + 1 + 1 - 1 = i + 1 by ring]; exact hx2
    · rw [hhi z c (by omega), hhi (z + 1) (by omega) (by omega)]
      exact h.sorted _ _ (by omega) (by omega) (by omega)
  · have e : (N + 1 + p + 1 + 1).toNat = (N + p + 2).toNat + 1 := by omega
    rw [knotMS_eq_kn, e, kn_insert (T := T) (x := x) (i := i) (fun z a b => hlo z (by omega) b) hmid
      (fun z a b => hhi z a (by omega)) (by omega) (by omega)]
    have e2 : (N + p + 2).toNat = (N + p + 1 + 1).toNat := by omega
    rw [e2, ← knotMS_eq_kn, h.ms, Multiset.add_cons]
  · intro k k' f a b c a' b' c' d1 d2 hf hr
    obtain ⟨q, rfl⟩ : ∃ q, p = q + 1 := ⟨p - 1, by omega⟩
    -- the span of `T` containing span `k'` of `T'`
    have parent : ∃ y, (y = k' ∧ y ≤ i ∨ y = k' - 1 ∧ i ≤ y) ∧ T y < T (y + 1) ∧ U k ≤ T y ∧
        T y < U (k + 1) := by
      rcases (by omega : k' < i ∨ k' = i ∨ k' = i + 1 ∨ i + 1 < k') with e | e | e | e
      · refine ⟨k', Or.inl ⟨rfl, by omega⟩, ?_⟩
        rw [hlo k' (by omega) (by omega)] at c' d1 d2
        rw [hlo (k' + 1) (by omega) (by omega)] at c'
        exact ⟨c', d1, d2⟩
      · subst e
        refine ⟨k', Or.inl ⟨rfl, le_refl _⟩, ?_⟩
        rw [hlo k' (by omega) (by omega)] at c' d1 d2
        rw [hmid] at c'
        exact ⟨lt_of_lt_of_le c' hx2, d1, d2⟩
      · subst e
        refine ⟨i, Or.inr ⟨by ring, le_refl _⟩, ?_⟩
        rw [hmid] at c' d1 d2
        rw [hhi (i + 1 + 1) (by omega) (by omega), show i + 1 + 1 - 1 = i + 1 by ring] at c'
        exact ⟨lt_of_le_of_lt hx1 c', h.le_of_lt (by omega) (by omega) (by omega) (by omega)
          (lt_of_le_of_lt d1 c'), lt_of_le_of_lt hx1 d2⟩
      · refine ⟨k' - 1, Or.inr ⟨rfl, by omega⟩, ?_⟩
        rw [hhi k' (by omega) (by omega)] at c' d1 d2
        rw [hhi (k' + 1) (by omega) (by omega), show k' + 1 - 1 = k' - 1 + 1 by ring] at c'
        exact ⟨c', d1, d2⟩
    obtain ⟨y, hy, c1, c2, c3⟩ := parent
    have hrep := h.forms k y f a b c (by omega) (by omega) c1 c2 c3 hf hr
    push_cast at *
    intro z e1 e2
    rcases (by omega : z ≤ i - (q + 1) ∨ (i - (q + 1) < z ∧ z ≤ i) ∨ i < z) with g | g | g
    · rw [clo z (by omega) g, hrep z (by omega) (by omega)]
      congr 1
      exact (kn_congr (fun l a b => hlo _ (by omega) (by push_cast at b; omega))).symm
    · have hlt : T z < T (z + (q + 1)) :=
        lt_of_le_of_lt (h.sorted z y (by omega) (by omega) (by omega))
          (lt_of_lt_of_le c1 (h.sorted (y + 1) _ (by omega) (by omega) (by omega)))
      rw [cmid z g.1 g.2 hlt, hrep z (by omega) (by omega), hrep (z - 1) (by omega) (by omega)]
      rw [kn_insert (T := T) (x := x) (i := i) (fun z' a b => hlo z' (by omega) b) hmid
        (fun z' a b => hhi z' a (by omega)) (by omega) (by omega)]
      rw [hf.interp' (by rw [card_kn]) (sub_ne_zero.mpr (ne_of_gt hlt)) x, kn_succ_last,
        kn_succ_first]
      have e3 : z + 1 + (q : ℤ) = z + (q + 1) := by ring
      have e4 : z - 1 + 1 = z := by ring
      rw [e3, e4]
    · rw [chi z g (by omega), hrep (z - 1) (by omega) (by omega)]
      congr 1
      apply kn_congr
      intro l a b
      push_cast at b
      rw [hhi _ (by omega) (by omega)]
      congr 1; ring

/-- a refinement with nondegenerate end spans describes the same curve -/
theorem IsRefn.curve_eq {n : ℤ} {p : ℕ} {U : ℤ → K} {P : ℤ → E} {N : ℤ} {T : ℤ → K} {C : ℤ → E}
    {X : Multiset K} (h : IsRefn n p U P N T C X) (hv : ValidKnots n p U) (hv' : ValidKnots N p T)
    (h1 : T p = U p) (h2 : T (N + 1) = U (n + 1)) {u : K} (hu1 : U p ≤ u) (hu2 : u ≤ U (n + 1)) :
    curve N p T C u = curve n p U P u := by
  have hp := hv.one_le
  have hle := hv.le
  have hle' := hv'.le
  rw [← curvePoint_eq_curve U hv hu1 hu2,
    ← curvePoint_eq_curve U hv' (by rw [h1]; exact hu1) (by rw [h2]; exact hu2)]
  refine curvePoint_transfer U U hv hv' P C hu1 hu2 (by rw [h1]; exact hu1) (by rw [h2]; exact hu2) ?_
  intro f hf hr
  have r1 := findSpan_range (U := U) u (by omega : (0 : ℤ) ≤ p) hle
  have r2 := findSpan_range (U := T) u (by omega : (0 : ℤ) ≤ p) hle'
  have s1 := findSpan_inSpan hv hu1 hu2
  have s2 := findSpan_inSpan hv' (u := u) (by rw [h1]; exact hu1) (by rw [h2]; exact hu2)
  refine h.forms _ _ f r1.1 r1.2 s1.ne r2.1 r2.2 s2.ne ?_ ?_ hf hr
  · refine h.le_of_lt (by omega) (by omega) (by omega) (by omega) ?_
    rcases hu2.eq_or_lt with e | e
    · rw [findSpan_ge e.ge, findSpan_ge (by rw [h2]; exact e.ge), h2]; exact hv.last
    · refine lt_of_le_of_lt s1.left ?_
      rcases hu1.eq_or_lt with e' | e'
      · rw [findSpan_le (by rw [h2]; exact e) (by rw [h1]; exact e'.ge), ← e', ← h1]
        exact hv'.first
      · exact (findSpan_mid (by omega) hle' (by rw [h1]; exact e') (by rw [h2]; exact e)).2.2.2
  · rcases hu2.eq_or_lt with e | e
    · rw [findSpan_ge e.ge, findSpan_ge (by rw [h2]; exact e.ge), ← h2]; exact hv'.last
    · refine lt_of_le_of_lt s2.left ?_
      rcases hu1.eq_or_lt with e' | e'
      · rw [findSpan_le e e'.ge, ← e']; exact hv.first
      · exact (findSpan_mid (by omega) hle e' e).2.2.2

end Igakit
