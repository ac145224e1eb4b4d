import Verif.Proofs.TotalPos

/-! # Collocation matrices of B-splines: knot insertion and positivity -/

set_option linter.unusedSectionVars false

namespace Igakit
open Spec

variable {K : Type*} [Field K] [LinearOrder K] [IsStrictOrderedRing K]

/-- a sorted knot vector with a domain that is not a point (empty spans allowed everywhere) -/
structure KT (N : ℤ) (p : ℕ) (T : ℤ → K) : Prop where
  one_le : 1 ≤ p
  le : (p : ℤ) ≤ N
  sorted : SortedOn T 0 (N + p + 1)
  lt : T p < T (N + 1)

theorem KT.of_valid {n : ℤ} {p : ℕ} {U : ℤ → K} (hv : ValidKnots n p U) : KT n p U :=
  ⟨by have := hv.one_le; omega, hv.le, hv.sorted, lt_of_lt_of_le hv.first
    (hv.sorted _ _ (by omega) (by have := hv.le; omega) (by have := hv.le; omega))⟩

theorem piece_zero_left {U : ℤ → K} {k : ℤ} {u : K} : ∀ (q : ℕ) (i : ℤ), i ≤ k → k < i + q →
    (∀ j, i ≤ j → j ≤ k → U j = u) → piece U k q i u = 0 := by
  intro q
  induction q with
  | zero => intro i h1 h2 _; push_cast at h2; omega
  | succ q ih =>
    intro i h1 h2 h3
    push_cast at h2
    rw [piece_succ, h3 i le_rfl h1, sub_self, zero_div, zero_mul, zero_add]
    by_cases hik : i + 1 ≤ k
    · rw [ih (i + 1) hik (by omega) (fun j a b => h3 j (by omega) b), mul_zero]
    · rw [piece_zero_of_gt _ _ _ _ _ (by omega), mul_zero]

theorem piece_zero_right {U : ℤ → K} {k : ℤ} {u : K} : ∀ (q : ℕ) (i : ℤ), i < k →
    (∀ j, k + 1 ≤ j → j ≤ i + q + 1 → U j = u) → piece U k q i u = 0 := by
  intro q
  induction q with
  | zero => intro i h1 _; exact piece_zero_of_lt _ _ _ _ _ (by push_cast; omega)
  | succ q ih =>
    intro i h1 h3
    push_cast at h3
    by_cases hik : i + (q + 1 : ℕ) < k
    · exact piece_zero_of_lt _ _ _ _ _ hik
    push_cast at hik
    rw [piece_succ, h3 (i + q + 2) (by omega) (by omega), sub_self, zero_div, zero_mul, add_zero,
      ih i h1 (fun j a b => h3 j a (by omega)), mul_zero]

section
variable {N : ℤ} {p : ℕ} {T : ℤ → K} {u : K}

theorem KT.span (h : KT N p T) (h1 : T p ≤ u) (h2 : u ≤ T (N + 1)) : ∃ k, SpanOf N p T k u :=
  SpanOf.exists' h.sorted h.lt h.le h1 h2

theorem KT.nonneg (h : KT N p T) (h1 : T p ≤ u) (h2 : u ≤ T (N + 1)) {i : ℤ} (i0 : 0 ≤ i) (i1 : i ≤ N) :
    0 ≤ bsplineD N T p i u := by
  obtain ⟨k, hk⟩ := h.span h1 h2
  have a := hk.lo
  have b := hk.hi
  rw [hk.basis h.sorted i0 i1]
  exact piece_nonneg hk.left hk.right p (fun x y c d e => h.sorted x y (by omega) d (by omega)) p le_rfl i

theorem KT.pos (h : KT N p T) (h1 : T p ≤ u) (h2 : u ≤ T (N + 1)) {i : ℤ} (i0 : 0 ≤ i) (i1 : i ≤ N)
    (hl : T i < u) (hr : u < T (i + p + 1)) : 0 < bsplineD N T p i u := by
  obtain ⟨k, hk⟩ := h.span h1 h2
  have a := hk.lo
  have b := hk.hi
  rw [hk.basis h.sorted i0 i1]
  have hs : SortedOn T (k - p) (k + p + 1) := fun x y a b c => h.sorted x y (by omega) b (by omega)
  have k1 : i ≤ k := by
    by_contra hc
    exact absurd (lt_of_lt_of_le hl hk.right) (not_lt.2 (h.sorted (k + 1) i (by omega) (by omega) (by omega)))
  have k2 : k ≤ i + p := by
    by_contra hc
    exact absurd (lt_of_le_of_lt hk.left hr) (not_lt.2 (h.sorted (i + p + 1) k (by omega) (by omega) (by omega)))
  rcases hk.mem with ⟨c, d⟩ | ⟨c, d, -⟩
  · exact piece_pos_left c d p hs p le_rfl i k1 k2 (Or.inl hl)
  · exact piece_pos_right c d.le p hs p le_rfl i k1 k2 (Or.inl hr)

/-- where a basis function does not vanish -/
theorem KT.supp (h : KT N p T) (h1 : T p ≤ u) (h2 : u ≤ T (N + 1)) {i : ℤ} (i0 : 0 ≤ i) (i1 : i ≤ N)
    (hne : bsplineD N T p i u ≠ 0) : T i ≤ u ∧ u ≤ T (i + p + 1) ∧ (u < T (i + p) → T i < u) ∧
      (T (i + 1) < u → u < T (i + p + 1)) ∧ (u < T (N + 1) → u < T (i + p + 1)) ∧ (u = T (N + 1) → T i < u) := by
  obtain ⟨k, hk⟩ := h.span h1 h2
  have a := hk.lo
  have b := hk.hi
  rw [hk.basis h.sorted i0 i1] at hne
  have k1 : i ≤ k := by
    by_contra hc
    exact hne (piece_zero_of_gt _ _ _ _ _ (by omega))
  have k2 : k ≤ i + p := by
    by_contra hc
    exact hne (piece_zero_of_lt _ _ _ _ _ (by omega))
  have m1 : T i ≤ T k := h.sorted _ _ i0 k1 (by omega)
  have m2 : T (k + 1) ≤ T (i + p + 1) := h.sorted _ _ (by omega) (by omega) (by omega)
  refine ⟨m1.trans hk.left, hk.right.trans m2, fun hu => ?_, fun hu => ?_, fun hu => ?_, fun hu => ?_⟩
  · rcases hk.mem with ⟨c, d⟩ | ⟨c, d, -⟩
    · refine lt_of_le_of_ne (m1.trans c) (fun e => hne (piece_zero_left p i k1 ?_ ?_))
      · by_contra hc
        exact absurd (h.sorted (i + p) k (by omega) (by omega) (by omega)) (not_le.2 (lt_of_le_of_lt c hu))
      · intro j j1 j2
        exact le_antisymm ((h.sorted j k (by omega) j2 (by omega)).trans c) (e ▸ h.sorted i j i0 j1 (by omega))
    · exact lt_of_le_of_lt m1 c
  · rcases hk.mem with ⟨c, d⟩ | ⟨c, d, -⟩
    · exact lt_of_lt_of_le d m2
    · refine lt_of_le_of_ne (d.le.trans m2) (fun e => hne (piece_zero_right p i ?_ ?_))
      · by_contra hc
        have : T (i + 1) = T (k + 1) := by rw [show i = k by omega]
        rw [this, ← d] at hu
        exact lt_irrefl _ hu
      · intro j j1 j2
        exact le_antisymm (e ▸ h.sorted j (i + p + 1) (by omega) j2 (by omega))
          (d ▸ h.sorted (k + 1) j (by omega) j1 (by omega))
  · rcases hk.mem with ⟨c, d⟩ | ⟨c, d, e⟩
    · exact lt_of_lt_of_le d m2
    · exact absurd e (ne_of_lt hu)
  · rcases hk.mem with ⟨c, d⟩ | ⟨c, d, e⟩
    · exact absurd (h.sorted (k + 1) (N + 1) (by omega) (by omega) (by omega)) (not_le.2 (hu ▸ d))
    · exact lt_of_le_of_lt m1 c

/-- one knot more: every function is a combination of two neighbours -/
theorem KT.insert (h : KT N p T) {z : K} (h1 : T p ≤ z) (h2 : z ≤ T (N + 1)) :
    ∃ (T' a b : ℤ → K), KT (N + 1) p T' ∧ T' p = T p ∧ T' (N + 1 + 1) = T (N + 1) ∧
      knotMS T' (N + 1 + p + 1) = z ::ₘ knotMS T (N + p + 1) ∧
      (∀ i u, 0 ≤ i → i ≤ N → T p ≤ u → u ≤ T (N + 1) →
        bsplineD N T p i u = a i * bsplineD (N + 1) T' p i u + b (i + 1) * bsplineD (N + 1) T' p (i + 1) u) ∧
      (∀ i, 0 ≤ i → i ≤ N → 0 ≤ a i ∧ 0 ≤ b (i + 1)) ∧
      (∀ i u, 0 ≤ i → i ≤ N → T p ≤ u → u ≤ T (N + 1) → u < z → 0 < bsplineD N T p i u →
        0 < a i * bsplineD (N + 1) T' p i u) ∧
      (∀ i u, 0 ≤ i → i ≤ N → T p ≤ u → u ≤ T (N + 1) → z < u → 0 < bsplineD N T p i u →
        0 < b (i + 1) * bsplineD (N + 1) T' p (i + 1) u) := by
  have hs := h.sorted
  have hp := h.one_le
  have hpn := h.le
  obtain ⟨k, hk⟩ := h.span h1 h2
  have k1 := hk.lo
  have k2 := hk.hi
  let T' : ℤ → K := fun y => if y ≤ k then T y else if y = k + 1 then z else T (y - 1)
  let a : ℤ → K := fun y => if y ≤ k - p then 1 else if y ≤ k then
      (if T y < T (y + p) then (z - T y) / (T (y + p) - T y) else 1) else 0
  let b : ℤ → K := fun y => 1 - a y
  have Tlo : ∀ y, y ≤ k → T' y = T y := fun y hy => if_pos hy
  have Tmid : T' (k + 1) = z := by simp only [T']; rw [if_neg (by omega), if_pos trivial]
  have Thi : ∀ y, k + 1 < y → T' y = T (y - 1) := fun y hy => by
    simp only [T']; rw [if_neg (by omega), if_neg (by omega)]
  have alo : ∀ y, y ≤ k - p → a y = 1 := fun y hy => if_pos hy
  have amid : ∀ y, k - p < y → y ≤ k → T y < T (y + p) → a y = (z - T y) / (T (y + p) - T y) := fun y h1 h2 h3 => by
    simp only [a]; rw [if_neg (by omega), if_pos h2, if_pos h3]
  have ahi : ∀ y, k < y → a y = 0 := fun y hy => by
    simp only [a]; rw [if_neg (by omega), if_neg (by omega)]
  have ha : ∀ y, 0 ≤ y → y ≤ N + 1 → 0 ≤ a y ∧ 0 ≤ b y := by
    intro y y0 y1
    simp only [b]
    by_cases c1 : y ≤ k - p
    · rw [alo y c1]; exact ⟨zero_le_one, by rw [sub_self]⟩
    by_cases c2 : y ≤ k
    · by_cases c3 : T y < T (y + p)
      · rw [amid y (by omega) c2 c3]
        have d : 0 < T (y + p) - T y := sub_pos.2 c3
        have e1 : T y ≤ z := le_trans (hs y k y0 c2 (by omega)) hk.left
        have e2 : z ≤ T (y + p) := le_trans hk.right (hs (k + 1) (y + p) (by omega) (by omega) (by omega))
        refine ⟨div_nonneg (sub_nonneg.2 e1) d.le, ?_⟩
        rw [sub_nonneg, div_le_one d]; linarith
      · have : a y = 1 := by simp only [a]; rw [if_neg c1, if_pos c2, if_neg c3]
        rw [this]; exact ⟨zero_le_one, by rw [sub_self]⟩
    · rw [ahi y (by omega)]; exact ⟨le_rfl, by rw [sub_zero]; exact zero_le_one⟩
  -- the new net of any old net
  have refn : ∀ P : ℤ → K, IsRefn N p T P (N + 1) T' (fun y => a y * P y + b y * P (y - 1)) (z ::ₘ 0) := by
    intro P
    refine (IsRefn.refl hs P).step (i := k) (x := z) hp k1 k2 hk.left hk.right (fun y _ hy => Tlo y hy) Tmid
      (fun y hy _ => Thi y hy) ?_ ?_ ?_
    · intro y _ hy
      simp only [b]; rw [alo y hy]; ring
    · intro y y1 y2 ht
      simp only [b, smul_eq_mul]; rw [amid y y1 y2 ht]
    · intro y hy _
      simp only [b]; rw [ahi y hy]; ring
  have h' : KT (N + 1) p T' := ⟨hp, by omega, (refn T).sorted, by
    rw [Tlo p k1, Thi _ (by omega), add_sub_cancel_right]; exact h.lt⟩
  have e1 : T' p = T p := Tlo p k1
  have e2 : T' (N + 1 + 1) = T (N + 1) := by rw [Thi _ (by omega), add_sub_cancel_right]
  have hcurve : ∀ (P : ℤ → K) u, T p ≤ u → u ≤ T (N + 1) →
      curve (N + 1) p T' (fun y => a y * P y + b y * P (y - 1)) u = curve N p T P u := by
    intro P u u1 u2
    obtain ⟨j, hj⟩ := h.span u1 u2
    obtain ⟨j', hj'⟩ := h'.span (u := u) (e1.symm ▸ u1) (e2.symm ▸ u2)
    have j1 := hj.lo
    have j2 := hj.hi
    have j1' := hj'.lo
    have j2' := hj'.hi
    refine curve_transfer hj hs hj' h'.sorted rfl (fun f hf hr => ?_)
    refine (refn P).forms j j' f j1 j2 hj.ne j1' j2' hj'.ne
      ((refn P).le_of_lt (by omega) (by omega) (by omega) (by omega) ?_) ?_ hf hr
    · rcases hj.mem with ⟨a, b⟩ | ⟨a, b, c⟩
      · rcases hj'.mem with ⟨a', b'⟩ | ⟨a', b', c'⟩
        · exact lt_of_le_of_lt a b'
        · exfalso
          rw [c', e2] at b
          exact absurd (hs (j + 1) (N + 1) (by omega) (by omega) (by omega)) (not_le.2 b)
      · exact lt_of_lt_of_le a hj'.right
    · rcases hj.mem with ⟨a, b⟩ | ⟨a, b, c⟩
      · exact lt_of_le_of_lt hj'.left b
      · rcases hj'.mem with ⟨a', b'⟩ | ⟨a', b', c'⟩
        · exfalso
          rw [c, ← e2] at b'
          exact absurd (h'.sorted (j' + 1) (N + 1 + 1) (by omega) (by omega) (by omega)) (not_le.2 b')
        · exact b ▸ a'
  have hbasis : ∀ i u, 0 ≤ i → i ≤ N → T p ≤ u → u ≤ T (N + 1) →
      bsplineD N T p i u = a i * bsplineD (N + 1) T' p i u + b (i + 1) * bsplineD (N + 1) T' p (i + 1) u := by
    intro i u i0 i1 u1 u2
    have := hcurve (fun y => if y = i then 1 else 0) u u1 u2
    unfold curve at this
    simp only [smul_eq_mul, mul_ite, mul_one, mul_zero] at this
    rw [Finset.sum_ite_eq' _ i, if_pos (Finset.mem_Icc.2 ⟨i0, i1⟩)] at this
    rw [← this]
    have e3 : ∀ y ∈ Finset.Icc 0 (N + 1), bsplineD (N + 1) T' p y u * ((if y = i then a y else 0) + if y - 1 = i then b y else 0) =
        (if y = i then a i * bsplineD (N + 1) T' p i u else 0) +
        (if y = i + 1 then b (i + 1) * bsplineD (N + 1) T' p (i + 1) u else 0) := by
      intro y _
      by_cases c1 : y = i
      · rw [if_pos c1, if_pos c1, if_neg (by omega), if_neg (by omega), c1]; ring
      · by_cases c2 : y = i + 1
        · rw [if_neg c1, if_neg c1, if_pos (by omega), if_pos c2, c2]; ring
        · rw [if_neg c1, if_neg c1, if_neg (by omega), if_neg c2]; ring
    rw [Finset.sum_congr rfl e3, Finset.sum_add_distrib, Finset.sum_ite_eq', Finset.sum_ite_eq',
      if_pos (Finset.mem_Icc.2 ⟨i0, by omega⟩), if_pos (Finset.mem_Icc.2 ⟨by omega, by omega⟩)]
  refine ⟨T', a, b, h', e1, e2, ?_, hbasis, fun i i0 i1 => ⟨(ha i i0 (by omega)).1, (ha (i + 1) (by omega) (by omega)).2⟩, ?_, ?_⟩
  · rw [(refn T).ms, Multiset.add_cons, add_zero]
  · intro i u i0 i1 u1 u2 uz hpos
    have hi' := h'.nonneg (u := u) (e1.symm ▸ u1) (e2.symm ▸ u2) (i := i) i0 (by omega)
    by_contra hc
    rw [hbasis i u i0 i1 u1 u2] at hpos
    have hz : 0 < b (i + 1) * bsplineD (N + 1) T' p (i + 1) u := by linarith
    have hne : bsplineD (N + 1) T' p (i + 1) u ≠ 0 := fun e => by rw [e, mul_zero] at hz; exact lt_irrefl _ hz
    have hbne : b (i + 1) ≠ 0 := fun e => by rw [e, zero_mul] at hz; exact lt_irrefl _ hz
    obtain ⟨s1, s2, s3, s4, -⟩ := h'.supp (u := u) (e1.symm ▸ u1) (e2.symm ▸ u2) (by omega) (by omega) hne
    -- `i + 1` is left of the new knot
    have l1 : i + 1 ≤ k := by
      by_contra hc
      have := h'.sorted (k + 1) (i + 1) (by omega) (by omega) (by omega)
      rw [Tmid] at this
      exact absurd (this.trans s1) (not_le.2 uz)
    have l2 : k - p < i + 1 := by
      by_contra hc
      refine hbne ?_
      simp only [b]; rw [alo _ (by omega), sub_self]
    have l3 : u < T' (i + p + 1) := by
      have := h'.sorted (k + 1) (i + p + 1) (by omega) (by omega) (by omega)
      rw [Tmid] at this
      exact lt_of_lt_of_le uz this
    have l4 : T' (i + 1) < u := s3 (by rw [show i + 1 + (p : ℤ) = i + p + 1 by ring]; exact l3)
    have l5 : T' i < u := lt_of_le_of_lt (h'.sorted i (i + 1) i0 (by omega) (by omega)) l4
    have p1 := h'.pos (u := u) (e1.symm ▸ u1) (e2.symm ▸ u2) i0 (by omega) l5 l3
    refine hc (mul_pos ?_ p1)
    by_cases c1 : i ≤ k - p
    · rw [alo i c1]; exact zero_lt_one
    · have d1 : T i < z := by rw [← Tlo i (by omega)]; exact l5.trans uz
      have d2 : z ≤ T (i + p) := hk.right.trans (hs (k + 1) (i + p) (by omega) (by omega) (by omega))
      rw [amid i (by omega) (by omega) (lt_of_lt_of_le d1 d2)]
      exact div_pos (sub_pos.2 d1) (sub_pos.2 (lt_of_lt_of_le d1 d2))
  · intro i u i0 i1 u1 u2 uz hpos
    have hi' := h'.nonneg (u := u) (e1.symm ▸ u1) (e2.symm ▸ u2) (i := i + 1) (by omega) (by omega)
    by_contra hc
    rw [hbasis i u i0 i1 u1 u2] at hpos
    have hz : 0 < a i * bsplineD (N + 1) T' p i u := by linarith
    have hne : bsplineD (N + 1) T' p i u ≠ 0 := fun e => by rw [e, mul_zero] at hz; exact lt_irrefl _ hz
    have hane : a i ≠ 0 := fun e => by rw [e, zero_mul] at hz; exact lt_irrefl _ hz
    obtain ⟨s1, s2, s3, s4, -⟩ := h'.supp (u := u) (e1.symm ▸ u1) (e2.symm ▸ u2) i0 (by omega) hne
    have l1 : k - p < i := by
      by_contra hc
      have := h'.sorted (i + p + 1) (k + 1) (by omega) (by omega) (by omega)
      rw [Tmid] at this
      exact absurd (s2.trans this) (not_le.2 uz)
    have l2 : i ≤ k := by
      by_contra hc
      exact hane (ahi _ (by omega))
    have l3 : T' (i + 1) < u := by
      have := h'.sorted (i + 1) (k + 1) (by omega) (by omega) (by omega)
      rw [Tmid] at this
      exact lt_of_le_of_lt this uz
    have l4 : u < T' (i + p + 1) := s4 l3
    have l5 : u < T' (i + 1 + p + 1) := lt_of_lt_of_le l4 (h'.sorted _ _ (by omega) (by omega) (by omega))
    have p1 := h'.pos (u := u) (e1.symm ▸ u1) (e2.symm ▸ u2) (i := i + 1) (by omega) (by omega) l3 l5
    refine hc (mul_pos ?_ p1)
    simp only [b]
    by_cases c1 : i + 1 ≤ k
    · have d1 : T (i + 1) ≤ z := (hs (i + 1) k (by omega) c1 (by omega)).trans hk.left
      have d2 : z < T (i + 1 + p) := by
        have : T' (i + 1 + p + 1) = T (i + 1 + p) := by rw [Thi _ (by omega), add_sub_cancel_right]
        rw [← this]; exact uz.trans l5
      rw [amid (i + 1) (by omega) c1 (lt_of_le_of_lt d1 d2), sub_pos, div_lt_one (sub_pos.2 (lt_of_le_of_lt d1 d2))]
      linarith
    · rw [ahi _ (by omega), sub_zero]; exact zero_lt_one

/-- a knot as many times as the degree: one function is `1` there -/
theorem KT.delta (h : KT N p T) (h1 : T p ≤ u) (h2 : u ≤ T (N + 1)) (hm : p ≤ mult T 0 (N + p + 1) u) :
    ∃ y, 0 ≤ y ∧ y ≤ N ∧ T (y + 1) = u ∧ ∀ i, 0 ≤ i → i ≤ N → bsplineD N T p i u = if i = y then 1 else 0 := by
  obtain ⟨k, hk⟩ := h.span h1 h2
  have k1 := hk.lo
  have k2 := hk.hi
  have hp := h.one_le
  obtain ⟨y, y1, y2, hrun⟩ := run_of_mult hp h.sorted hk hm
  refine ⟨y, by omega, by omega, hrun 1 le_rfl (by omega), fun i i0 i1 => ?_⟩
  obtain ⟨f, hf, hrep⟩ := exists_form (fun j => if j = i then (1 : K) else 0) (hk.win h.sorted)
  have e := hk.curve_form h.sorted hf hrep
  rw [← kn_const hrun, ← hrep y y1 y2] at e
  unfold curve at e
  simp only [smul_eq_mul, mul_ite, mul_one, mul_zero] at e
  rw [Finset.sum_ite_eq', if_pos (Finset.mem_Icc.2 ⟨i0, i1⟩)] at e
  rw [e]
  by_cases c : i = y
  · rw [if_pos c, if_pos c.symm]
  · rw [if_neg c, if_neg (fun h => c h.symm)]

end

/-- collocation matrices are totally positive, with positive minors where the diagonal is positive -/
theorem KT.tpos {m : ℕ} {x : Fin m → K} (hx : StrictMono x) {p : ℕ} : ∀ (L : List K) (N : ℤ) (T : ℤ → K), KT N p T →
    (∀ j, T p ≤ x j ∧ x j ≤ T (N + 1)) → (∀ z ∈ L, T p ≤ z ∧ z ≤ T (N + 1)) →
    (∀ j, p ≤ mult T 0 (N + p + 1) (x j) + L.count (x j)) → TPos N (fun i u => bsplineD N T p i u) x := by
  intro L
  induction L with
  | nil =>
    intro N T h hd _ hm
    have : ∀ j, ∃ y, 0 ≤ y ∧ y ≤ N ∧ T (y + 1) = x j ∧
        ∀ i, 0 ≤ i → i ≤ N → bsplineD N T p i (x j) = if i = y then 1 else 0 :=
      fun j => h.delta (hd j).1 (hd j).2 (by simpa using hm j)
    choose y y0 y1 hT hB using this
    refine TPos.base (y := y) ?_ (fun i j i0 i1 => hB j i i0 i1)
    intro j j' hj
    by_contra hc
    have := h.sorted (y j' + 1) (y j + 1) (by have := y0 j'; omega) (by omega) (by have := y1 j; omega)
    rw [hT, hT] at this
    exact absurd this (not_le.2 (hx hj))
  | cons z L ih =>
    intro N T h hd hL hm
    obtain ⟨z1, z2⟩ := hL z (by simp)
    obtain ⟨T', a, b, h', e1, e2, hms, hB, ha, hS, hR⟩ := h.insert z1 z2
    have hd' : ∀ j, T' p ≤ x j ∧ x j ≤ T' (N + 1 + 1) := fun j => by rw [e1, e2]; exact hd j
    have := ih (N + 1) T' h' hd' (fun y hy => by rw [e1, e2]; exact hL y (List.mem_cons_of_mem _ hy)) (fun j => by
      rw [← count_knotMS, hms, Multiset.count_cons, count_knotMS]
      have := hm j
      rw [List.count_cons] at this
      have e : (if x j = z then 1 else 0) = (if z == x j then 1 else 0) := by
        by_cases c : x j = z
        · simp [c]
        · rw [if_neg c, if_neg (by simpa using fun h : z = x j => c h.symm)]
      omega)
    exact this.step hx (fun i j i0 i1 => hB i (x j) i0 i1 (hd j).1 (hd j).2) ha
      (fun i j i0 i1 => h'.nonneg (hd' j).1 (hd' j).2 i0 i1)
      (fun i j i0 i1 hz hp => hS i (x j) i0 i1 (hd j).1 (hd j).2 hz hp)
      (fun i j i0 i1 hz hp => hR i (x j) i0 i1 (hd j).1 (hd j).2 hz hp)

theorem KT.totally_positive {m : ℕ} {x : Fin m → K} (hx : StrictMono x) {p : ℕ} {N : ℤ} {T : ℤ → K} (h : KT N p T)
    (hd : ∀ j, T p ≤ x j ∧ x j ≤ T (N + 1)) : TPos N (fun i u => bsplineD N T p i u) x := by
  refine KT.tpos hx ((List.ofFn x).flatMap (fun y => List.replicate p y)) N T h hd ?_ ?_
  · intro z hz
    obtain ⟨y, hy, hz⟩ := List.mem_flatMap.1 hz
    obtain ⟨j, rfl⟩ := (List.mem_ofFn' _ _).1 hy
    rw [(List.mem_replicate.1 hz).2]
    exact hd j
  · intro j
    refine le_trans ?_ (Nat.le_add_left _ _)
    have hmem : x j ∈ List.ofFn x := (List.mem_ofFn' _ _).2 ⟨j, rfl⟩
    obtain ⟨s, t, e⟩ := List.append_of_mem hmem
    have hsub : (List.replicate p (x j)).Sublist ((List.ofFn x).flatMap (fun y => List.replicate p y)) := by
      rw [e, List.flatMap_append, List.flatMap_cons]
      exact (List.sublist_append_left _ _).trans (List.sublist_append_right _ _)
    have := hsub.count_le (x j)
    rwa [List.count_replicate_self] at this

end Igakit
