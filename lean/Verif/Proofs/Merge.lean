import Verif.Proofs.Compat

/-! # Lemmas for `cad.compat`: axes with the same domain and degree -/

set_option linter.unusedSectionVars false

namespace Igakit
open Spec

variable {K : Type} [Field K] [LinearOrder K] [IsStrictOrderedRing K] {d m : ℕ}

/-! ## stretched axes -/

theorem stretch_left {A : Ax K} {c e : K} (h : ClampedL A.degree A.U) :
    ClampedL (A.stretch c e).degree (A.stretch c e).U := by
  intro j h0 h1
  show affMap _ _ _ _ (A.U j) = affMap _ _ _ _ (A.U A.degree)
  rw [h j h0 h1]

theorem stretch_right {A : Ax K} {c e : K} (h : ClampedR A.n A.degree A.U) :
    ClampedR (A.stretch c e).n (A.stretch c e).degree (A.stretch c e).U := by
  intro j h0 h1
  show affMap _ _ _ _ (A.U j) = affMap _ _ _ _ (A.U (A.n + 1))
  rw [h j h0 h1]

theorem stretch_multLe {A : Ax K} (hA : A.lo < A.hi) {c e : K} (hce : c < e) (h : MultLe A.n A.degree A.U) :
    MultLe (A.stretch c e).n (A.stretch c e).degree (A.stretch c e).U := by
  intro y h1 h2
  have hy : y = affMap A.lo A.hi c e (affMap c e A.lo A.hi y) := (affMap_inv hce hA y).symm
  rw [hy] at h1 h2
  have := h _ ((affMap_lt hA hce).mp h1) ((affMap_lt hA hce).mp h2)
  rw [← Ax.mult_eq] at this ⊢
  rw [stretch_mult' hA hce]
  exact this

theorem stretch_noJump {A : Ax K} (hA : A.lo < A.hi) {c e : K} (hce : c < e) {t : ℤ}
    (h : NoJump A.n A.degree t A.U) :
    NoJump (A.stretch c e).n (A.stretch c e).degree t (A.stretch c e).U := by
  intro x y hn
  have key : ∀ z, Spec.mult (A.stretch c e).U 0 ((A.stretch c e).n + (A.stretch c e).degree + 1) z =
      Spec.mult A.U 0 (A.n + A.degree + 1) (affMap c e A.lo A.hi z) := by
    intro z
    rw [← Ax.mult_eq, ← Ax.mult_eq, stretch_mult' hA hce]
  have hx : x = affMap A.lo A.hi c e (affMap c e A.lo A.hi x) := (affMap_inv hce hA x).symm
  have hy : y = affMap A.lo A.hi c e (affMap c e A.lo A.hi y) := (affMap_inv hce hA y).symm
  rw [key, key]
  refine h _ _ ⟨?_, (affMap_lt hce hA).mpr hn.lt, ?_, by rw [← key]; exact hn.left, by rw [← key]; exact hn.right, ?_⟩
  · have := hn.lo
    rw [hx] at this
    exact (affMap_lt hA hce).mp this
  · have := hn.hi
    rw [hy] at this
    exact (affMap_lt hA hce).mp this
  · intro z h1 h2
    have := hn.none (affMap A.lo A.hi c e z) (by rw [hx]; exact (affMap_lt hA hce).mpr h1)
      (by rw [hy]; exact (affMap_lt hA hce).mpr h2)
    rw [key, affMap_inv hA hce] at this
    exact this

theorem Ax.mult_pos {A : Ax K} {x : K} : 0 < A.mult x ↔ ∃ k, 0 ≤ k ∧ k < A.len ∧ A.U k = x := by
  unfold Ax.mult Spec.mult
  rw [Finset.card_pos]
  constructor
  · rintro ⟨k, hk⟩
    simp only [Finset.mem_filter, Finset.mem_Icc] at hk
    exact ⟨k, by omega, by omega, hk.2⟩
  · rintro ⟨k, a, b, c⟩
    exact ⟨k, by simp only [Finset.mem_filter, Finset.mem_Icc]; exact ⟨by omega, c⟩⟩

/-! ## axes with equal domain and degree -/

/-- clamped axes with the same domain and degree whose knots are equal or far apart -/
structure Level (eps : K) (p : ℤ) (c e : K) (B : Fin m → Ax K) : Prop where
  valid : ∀ i, (B i).Valid
  degree : ∀ i, (B i).degree = p
  lo : ∀ i, (B i).lo = c
  hi : ∀ i, (B i).hi = e
  left : ∀ i, ClampedL (B i).degree (B i).U
  right : ∀ i, ClampedR (B i).n (B i).degree (B i).U
  mult : ∀ i x, c < x → x < e → ((B i).mult x : ℤ) ≤ p
  sep : ∀ i j x y, 0 < (B i).mult x → 0 < (B j).mult y → x = y ∨ eps < |x - y|

theorem Ax.mult_range {A : Ax K} (hv : A.Valid) (hl : ClampedL A.degree A.U) (hr : ClampedR A.n A.degree A.U)
    {x : K} (h : 0 < A.mult x) : A.lo ≤ x ∧ x ≤ A.hi := by
  obtain ⟨k, h0, h1, rfl⟩ := Ax.mult_pos.mp h
  have hp := hv.one_le
  have hn := hv.le
  have hlen := A.len_eq
  constructor
  · by_cases hk : k ≤ A.degree
    · rw [hl k h0 hk]; exact le_rfl
    · exact hv.sorted _ _ (by omega) (by omega) (by omega)
  · by_cases hk : A.n + 1 ≤ k
    · rw [hr k hk (by omega)]; exact le_rfl
    · exact hv.sorted _ _ (by omega) (by omega) (by omega)

theorem Ax.mult_lo {A : Ax K} (hv : A.Valid) (hl : ClampedL A.degree A.U) : (A.mult A.lo : ℤ) = A.degree + 1 := by
  have hp := hv.one_le
  have hn := hv.le
  refine le_antisymm ?_ ?_
  · rw [A.mult_eq]; exact mult_le_of_first hv
  · have hsub : Finset.Icc 0 A.degree ⊆ (Finset.Icc 0 (A.len - 1)).filter (fun i => A.U i = A.lo) := by
      intro k hk
      rw [Finset.mem_Icc] at hk
      simp only [Finset.mem_filter, Finset.mem_Icc]
      have := A.len_eq
      exact ⟨by omega, hl k hk.1 hk.2⟩
    have := Finset.card_le_card hsub
    rw [Int.card_Icc] at this
    unfold Ax.mult Spec.mult
    omega

theorem Ax.mult_hi {A : Ax K} (hv : A.Valid) (hr : ClampedR A.n A.degree A.U) : (A.mult A.hi : ℤ) = A.degree + 1 := by
  have hp := hv.one_le
  have hn := hv.le
  refine le_antisymm ?_ ?_
  · rw [A.mult_eq]; exact mult_le_of_last hv
  · have hsub : Finset.Icc (A.n + 1) (A.n + A.degree + 1) ⊆
        (Finset.Icc 0 (A.len - 1)).filter (fun i => A.U i = A.hi) := by
      intro k hk
      rw [Finset.mem_Icc] at hk
      simp only [Finset.mem_filter, Finset.mem_Icc]
      have := A.len_eq
      exact ⟨by omega, hr k hk.1 hk.2⟩
    have := Finset.card_le_card hsub
    rw [Int.card_Icc] at this
    unfold Ax.mult Spec.mult
    omega

theorem Ax.lo_lt_hi {A : Ax K} (hv : A.Valid) : A.lo < A.hi := by
  have hp := hv.one_le
  have hn := hv.le
  exact lt_of_lt_of_le hv.first (hv.sorted _ _ (by omega) (by omega) (by omega))

/-- without the outermost knots the ends have multiplicity at most the degree -/
theorem Ax.inner_le {A : Ax K} (hv : A.Valid) (hl : ClampedL A.degree A.U) (hr : ClampedR A.n A.degree A.U)
    (hm : ∀ x, A.lo < x → x < A.hi → (A.mult x : ℤ) ≤ A.degree) (x : K) :
    (Spec.mult A.U 1 (A.len - 2) x : ℤ) ≤ A.degree ∧ Spec.mult A.U 1 (A.len - 2) x ≤ A.mult x := by
  have hp := hv.one_le
  have hn := hv.le
  have hlen := A.len_eq
  have hsub : (Finset.Icc 1 (A.len - 2)).filter (fun i => A.U i = x) ⊆
      (Finset.Icc 0 (A.len - 1)).filter (fun i => A.U i = x) := by
    apply Finset.filter_subset_filter
    intro k hk
    rw [Finset.mem_Icc] at hk ⊢
    omega
  have hle : Spec.mult A.U 1 (A.len - 2) x ≤ A.mult x := Finset.card_le_card hsub
  have hstrict : ∀ k, 0 ≤ k → k ≤ A.len - 1 → (k < 1 ∨ A.len - 2 < k) → A.U k = x →
      Spec.mult A.U 1 (A.len - 2) x < A.mult x := by
    intro k h0 h1 h2 h3
    refine Finset.card_lt_card (s := (Finset.Icc 1 (A.len - 2)).filter (fun i => A.U i = x))
      (t := (Finset.Icc 0 (A.len - 1)).filter (fun i => A.U i = x)) ?_
    refine ⟨hsub, fun hc => ?_⟩
    have : k ∈ (Finset.Icc 0 (A.len - 1)).filter (fun i => A.U i = x) := by
      simp only [Finset.mem_filter, Finset.mem_Icc]; exact ⟨⟨h0, h1⟩, h3⟩
    have := hc this
    simp only [Finset.mem_filter, Finset.mem_Icc] at this
    omega
  refine ⟨?_, hle⟩
  rcases Nat.eq_zero_or_pos (A.mult x) with h0 | h0
  · omega
  obtain ⟨r1, r2⟩ := Ax.mult_range hv hl hr h0
  rcases r1.eq_or_lt with h | h
  · have := hstrict 0 le_rfl (by omega) (by omega) (by rw [hl 0 le_rfl (by omega)]; exact h)
    have := Ax.mult_lo hv hl
    rw [h] at this
    omega
  rcases r2.eq_or_lt with h' | h'
  · have := hstrict (A.len - 1) (by omega) le_rfl (by omega)
      (by rw [hr (A.len - 1) (by omega) (by omega)]; exact h'.symm)
    have := Ax.mult_hi hv hr
    rw [← h'] at this
    omega
  · have := hm x h h'
    omega

/-- sorted arrays with the same multiplicities are equal -/
theorem sorted_eq {U V : ℤ → K} {m m' : ℤ} (hU : SortedOn U 0 m) (hV : SortedOn V 0 m') (h0 : 0 ≤ m) (h0' : 0 ≤ m')
    (h : ∀ x, Spec.mult U 0 m x = Spec.mult V 0 m' x) : m = m' ∧ ∀ k, 0 ≤ k → k ≤ m → U k = V k := by
  have hms : knotMS U m = knotMS V m' := by
    ext x
    rw [count_knotMS, count_knotMS, h]
  have hc : ∀ (W : ℤ → K) (l : ℤ), (knotMS W l).card = (l + 1).toNat := by
    intro W l
    unfold knotMS
    rw [Multiset.card_map, Finset.card_val, Int.card_Icc]
    simp
  have hmm : m = m' := by
    have := congrArg Multiset.card hms
    rw [hc, hc] at this
    omega
  subst hmm
  refine ⟨rfl, fun k hk hk' => le_antisymm ?_ ?_⟩
  · exact (countP_knotMS hU (· ≤ V k) (fun _ _ h h' => h.trans h') hk hk').mpr (by
      rw [hms]
      exact (countP_knotMS hV (· ≤ V k) (fun _ _ h h' => h.trans h') hk hk').mp le_rfl)
  · exact (countP_knotMS hV (· ≤ U k) (fun _ _ h h' => h.trans h') hk hk').mpr (by
      rw [← hms]
      exact (countP_knotMS hU (· ≤ U k) (fun _ _ h h' => h.trans h') hk hk').mp le_rfl)

section merge
variable {eps : K} {p : ℤ} {c e : K} {B : Fin m → Ax K}

/-- multiplicity of an interior knot, 0 elsewhere -/
def Ax.innerMult (A : Ax K) (c e x : K) : ℤ := if c < x ∧ x < e then (A.mult x : ℤ) else 0

/-- largest interior multiplicity -/
def topMult (B : Fin m → Ax K) (c e x : K) : ℤ := (List.ofFn (fun j => (B j).innerMult c e x)).foldl max 0

theorem topMult_spec (B : Fin m → Ax K) (c e x : K) :
    0 ≤ topMult B c e x ∧ (∀ i, (B i).innerMult c e x ≤ topMult B c e x) ∧
    (0 < topMult B c e x → ∃ j, topMult B c e x = (B j).innerMult c e x) := by
  obtain ⟨h1, h2, h3⟩ := foldl_max_spec (List.ofFn (fun j => (B j).innerMult c e x)) 0
  refine ⟨h2, fun i => h3 _ (List.mem_ofFn.mpr ⟨i, rfl⟩), fun h => ?_⟩
  rcases h1 with e' | e'
  · exact absurd e' h.ne'
  · obtain ⟨j, hj⟩ := List.mem_ofFn.mp e'
    exact ⟨j, hj.symm⟩

theorem topMult_pos (x : K) (h : 0 < topMult B c e x) :
    c < x ∧ x < e ∧ ∃ j, 0 < (B j).mult x ∧ topMult B c e x = (B j).mult x := by
  obtain ⟨j, hj⟩ := (topMult_spec B c e x).2.2 h
  unfold Ax.innerMult at hj
  split_ifs at hj with hc
  · exact ⟨hc.1, hc.2, j, by omega, hj⟩
  · omega

variable (hB : Level eps p c e B) {l : Fin m → List K}
  (hl : ∀ i x, ((l i).count x : ℤ) = max 0 (topMult B c e x - (B i).innerMult c e x))
include hB hl

theorem Level.mem {i : Fin m} {x : K} (hx : x ∈ l i) :
    c < x ∧ x < e ∧ ∃ j, 0 < (B j).mult x := by
  have h1 := List.count_pos_iff.mpr hx
  have h2 := hl i x
  have h3 : 0 ≤ (B i).innerMult c e x := by unfold Ax.innerMult; split_ifs <;> omega
  obtain ⟨a, b, j, hj, _⟩ := topMult_pos (B := B) (c := c) (e := e) x (by omega)
  exact ⟨a, b, j, hj⟩

theorem Level.refinable (i : Fin m) : (B i).Refinable eps (l i) := by
  refine ⟨fun x hx => ?_, fun x hx => ?_, fun x hx => ?_, fun x hx y hy => ?_, fun x => ?_⟩
  · rw [hB.lo]; exact (hB.mem hl hx).1
  · rw [hB.hi]; exact (hB.mem hl hx).2.1
  · intro k h0 h1
    obtain ⟨_, _, j, hj⟩ := hB.mem hl hx
    rcases hB.sep j i x ((B i).U k) hj (Ax.mult_pos.mpr ⟨k, h0, by omega, rfl⟩) with h | h
    · exact Or.inl h.symm
    · exact Or.inr h.le
  · obtain ⟨_, _, j, hj⟩ := hB.mem hl hx
    obtain ⟨_, _, j', hj'⟩ := hB.mem hl hy
    rcases hB.sep j j' x y hj hj' with h | h
    · exact Or.inl h
    · exact Or.inr h.le
  · obtain ⟨h1, h2⟩ := Ax.inner_le (hB.valid i) (hB.left i) (hB.right i) (fun x h1 h2 => by
      rw [hB.degree]; rw [hB.lo] at h1; rw [hB.hi] at h2; exact hB.mult i x h1 h2) x
    have h3 := hl i x
    by_cases hx : (l i).count x = 0
    · rw [hx]; push_cast; omega
    · obtain ⟨a, b, _⟩ := hB.mem hl (List.count_pos_iff.mp (Nat.pos_of_ne_zero hx))
      have h4 : (B i).innerMult c e x = (B i).mult x := by unfold Ax.innerMult; rw [if_pos ⟨a, b⟩]
      rw [h4] at h3
      obtain ⟨_, _, j, _, hj⟩ := topMult_pos (B := B) (c := c) (e := e) x (by omega)
      have h5 := hB.mult j x a b
      rw [hB.degree] at h1 ⊢
      push_cast
      omega

/-- after the refinement -/
theorem Level.refined {R : Fin m → Ax K} (hR : ∀ i, (B i).Refined (R i) (l i)) (i : Fin m) :
    (∀ x, c < x → x < e → ((R i).mult x : ℤ) = topMult B c e x) ∧
    (∀ x, ¬(c < x ∧ x < e) → (R i).mult x = (B i).mult x) ∧
    ClampedL (R i).degree (R i).U ∧ ClampedR (R i).n (R i).degree (R i).U := by
  have hcount : ∀ x, ¬(c < x ∧ x < e) → (l i).count x = 0 := by
    intro x hx
    by_contra hc
    obtain ⟨a, b, _⟩ := hB.mem hl (List.count_pos_iff.mp (Nat.pos_of_ne_zero hc))
    exact hx ⟨a, b⟩
  have hout : ∀ x, ¬(c < x ∧ x < e) → (R i).mult x = (B i).mult x := by
    intro x hx
    rw [(hR i).mult, hcount x hx, add_zero]
  have hp := (hR i).valid.one_le
  have hn := (hR i).valid.le
  have hlen := (R i).len_eq
  refine ⟨fun x h1 h2 => ?_, hout, ?_, ?_⟩
  · have h3 := (hR i).mult x
    have h4 := hl i x
    have h5 := (topMult_spec B c e x).2.1 i
    have h6 : (B i).innerMult c e x = (B i).mult x := by unfold Ax.innerMult; rw [if_pos ⟨h1, h2⟩]
    rw [h6] at h4 h5
    omega
  · intro k h0 h1
    refine le_antisymm ((hR i).valid.sorted _ _ h0 h1 (by omega)) ?_
    show (R i).lo ≤ _
    have hpos : 0 < (R i).mult ((R i).U k) := Ax.mult_pos.mpr ⟨k, h0, by omega, rfl⟩
    rw [(hR i).lo]
    by_cases hc : c < (R i).U k ∧ (R i).U k < e
    · rw [hB.lo]; exact hc.1.le
    · rw [hout _ hc] at hpos
      exact (Ax.mult_range (hB.valid i) (hB.left i) (hB.right i) hpos).1
  · intro k h0 h1
    refine le_antisymm ?_ ((hR i).valid.sorted _ _ (by omega) h0 (by omega))
    show _ ≤ (R i).hi
    have hpos : 0 < (R i).mult ((R i).U k) := Ax.mult_pos.mpr ⟨k, by omega, by omega, rfl⟩
    rw [(hR i).hi]
    by_cases hc : c < (R i).U k ∧ (R i).U k < e
    · rw [hB.hi]; exact hc.2.le
    · rw [hout _ hc] at hpos
      exact (Ax.mult_range (hB.valid i) (hB.left i) (hB.right i) hpos).2

theorem Level.equal {R : Fin m → Ax K} (hR : ∀ i, (B i).Refined (R i) (l i)) (i j : Fin m) :
    (R i).shape = (R j).shape ∧ (R i).len = (R j).len ∧ ∀ k, 0 ≤ k → k < (R i).len → (R i).U k = (R j).U k := by
  obtain ⟨h1, h2, h3, h4⟩ := hB.refined hl hR i
  obtain ⟨g1, g2, g3, g4⟩ := hB.refined hl hR j
  have hmul : ∀ x, (R i).mult x = (R j).mult x := by
    intro x
    by_cases hx : c < x ∧ x < e
    · have := h1 x hx.1 hx.2
      have := g1 x hx.1 hx.2
      omega
    · rw [h2 x hx, g2 x hx]
      have hlt := Ax.lo_lt_hi (hB.valid i)
      rw [hB.lo, hB.hi] at hlt
      have hz : ∀ k, ¬(c ≤ x ∧ x ≤ e) → (B k).mult x = 0 := by
        intro k hk
        by_contra hc
        have := Ax.mult_range (hB.valid k) (hB.left k) (hB.right k) (Nat.pos_of_ne_zero hc)
        rw [hB.lo, hB.hi] at this
        exact hk this
      by_cases hin : c ≤ x ∧ x ≤ e
      · rcases hin.1.eq_or_lt with hc | hc
        · have a1 := Ax.mult_lo (hB.valid i) (hB.left i)
          have a2 := Ax.mult_lo (hB.valid j) (hB.left j)
          rw [hB.lo, hB.degree, hc] at a1 a2
          omega
        · have hc' : x = e := by
            by_contra hne
            exact hx ⟨hc, lt_of_le_of_ne hin.2 hne⟩
          have a1 := Ax.mult_hi (hB.valid i) (hB.right i)
          have a2 := Ax.mult_hi (hB.valid j) (hB.right j)
          rw [hB.hi, hB.degree, ← hc'] at a1 a2
          omega
      · rw [hz i hin, hz j hin]
  have hi1 := (hR i).valid.one_le
  have hi2 := (hR i).valid.le
  have hj1 := (hR j).valid.one_le
  have hj2 := (hR j).valid.le
  have ei := (R i).len_eq
  have ej := (R j).len_eq
  have si : SortedOn (R i).U 0 ((R i).len - 1) := by
    rw [ei, show (R i).n + (R i).degree + 2 - 1 = (R i).n + (R i).degree + 1 by ring]; exact (hR i).valid.sorted
  have sj : SortedOn (R j).U 0 ((R j).len - 1) := by
    rw [ej, show (R j).n + (R j).degree + 2 - 1 = (R j).n + (R j).degree + 1 by ring]; exact (hR j).valid.sorted
  obtain ⟨e1, e2⟩ := sorted_eq si sj (by omega) (by omega) hmul
  have hd : (R i).degree = (R j).degree := by rw [(hR i).degree, (hR j).degree, hB.degree, hB.degree]
  refine ⟨?_, by omega, fun k h0 h1 => e2 k h0 (by omega)⟩
  unfold Ax.degree at hd
  omega

end merge
end Igakit
