import Verif.Proofs.HullForm
import Verif.Proofs.FindMult

/-!
# Control points on a finer knot vector are averages of the old ones
-/

set_option linter.unusedSectionVars false

namespace Igakit
open Spec

variable {K : Type*} [Field K] [LinearOrder K] [IsStrictOrderedRing K]
variable {ι : Type*}

theorem count_kn (U : ℤ → K) (i : ℤ) (y : K) (c : ℕ) : (kn U i c).count y = mult U (i + 1) (i + c) y := by
  induction c with
  | zero =>
    unfold mult
    rw [Finset.Icc_eq_empty (by simp)]
    simp
  | succ c ih =>
    rw [kn_succ_last, Multiset.count_cons, ih]
    unfold mult
    have : Finset.Icc (i + 1) (i + ((c + 1 : ℕ) : ℤ)) = insert (i + 1 + c) (Finset.Icc (i + 1) (i + c)) := by
      ext z; simp only [Finset.mem_Icc, Finset.mem_insert]; push_cast; omega
    rw [this, Finset.filter_insert]
    split_ifs with h1 h2 h2
    · rw [Finset.card_insert_of_notMem (by simp)]
    · exact absurd h1.symm h2
    · exact absurd h2.symm h1
    · rfl

theorem mem_kn {U : ℤ → K} {i : ℤ} {c : ℕ} {x : K} : x ∈ kn U i c ↔ ∃ l, i < l ∧ l ≤ i + c ∧ U l = x := by
  unfold kn
  rw [Multiset.mem_map]
  constructor
  · rintro ⟨j, h, rfl⟩
    have := Multiset.mem_range.mp h
    exact ⟨i + 1 + j, by omega, by omega, rfl⟩
  · rintro ⟨l, h1, h2, rfl⟩
    exact ⟨(l - i - 1).toNat, Multiset.mem_range.mpr (by omega), by congr 1; omega⟩

theorem mult_mono (U : ℤ → K) (y : K) {a b c e : ℤ} (h1 : c ≤ a) (h2 : b ≤ e) : mult U a b y ≤ mult U c e y := by
  unfold mult
  apply Finset.card_le_card
  intro z hz
  rw [Finset.mem_filter, Finset.mem_Icc] at hz ⊢
  exact ⟨⟨by omega, by omega⟩, hz.2⟩

theorem mult_sub {V : ℤ → K} {y : K} {a b M : ℤ} (h0 : 0 ≤ a) (hM : b ≤ M)
    (h : ∀ z, 0 ≤ z → z ≤ M → V z = y → a ≤ z ∧ z ≤ b) : mult V a b y = mult V 0 M y := by
  unfold mult
  congr 1
  ext z
  rw [Finset.mem_filter, Finset.mem_filter, Finset.mem_Icc, Finset.mem_Icc]
  constructor
  · rintro ⟨⟨b1, b2⟩, b3⟩; exact ⟨⟨by omega, by omega⟩, b3⟩
  · rintro ⟨⟨b1, b2⟩, b3⟩; exact ⟨h z b1 b2 b3, b3⟩

/-- the halves of a window left and right of a span contain all copies of the knots strictly between the ends of
the window -/
theorem window_halves {V : ℤ → K} {M j h : ℤ} {q : ℕ} (hs : SortedOn V 0 M) (h0 : 0 ≤ j) (h1 : j ≤ h)
    (h2 : h ≤ j + q) (h3 : j + q ≤ M) (h4 : h + 1 ≤ M) (hlt : V h < V (h + 1)) {c e : K} (hc : c ≤ V h)
    (he : V (h + 1) ≤ e) :
    ∃ (A B : Multiset K) (L R : K), kn V j q = A + B ∧ A.card + B.card = q ∧ (∀ x ∈ A, L ≤ x ∧ x ≤ V h) ∧
      (∀ x ∈ B, V (h + 1) ≤ x ∧ x ≤ R) ∧
      (∀ y, L < y → y ≤ c → V 0 < y ∧ y < V M ∧ A.count y = mult V 0 M y) ∧
      (∀ y, e ≤ y → y < R → V 0 < y ∧ y < V M ∧ B.count y = mult V 0 M y) := by
  obtain ⟨a, rfl⟩ := Int.le.dest h1
  obtain ⟨b, hb⟩ : ∃ b : ℕ, q = a + b := ⟨q - a, by omega⟩
  subst hb
  have hL : ∃ L, (∀ x ∈ kn V j a, L ≤ x ∧ x ≤ V (j + a)) ∧
      (∀ y, L < y → y ≤ c → V 0 < y ∧ y < V M ∧ (kn V j a).count y = mult V 0 M y) := by
    rcases Nat.eq_zero_or_pos a with ha | ha
    · subst ha
      exact ⟨c, by simp, fun y y1 y2 => absurd y1 (not_lt.mpr y2)⟩
    · refine ⟨V (j + 1), ?_, ?_⟩
      · intro x hx
        obtain ⟨l, l1, l2, rfl⟩ := mem_kn.mp hx
        exact ⟨hs _ _ (by omega) (by omega) (by omega), hs _ _ (by omega) (by omega) (by omega)⟩
      · intro y y1 y2
        have hy : y ≤ V (j + a) := y2.trans hc
        refine ⟨lt_of_le_of_lt (hs _ _ le_rfl (by omega) (by omega)) y1,
          lt_of_le_of_lt hy (lt_of_lt_of_le hlt (hs _ _ (by omega) (by omega) (by omega))), ?_⟩
        rw [count_kn]
        refine mult_sub (by omega) (by omega) (fun z z1 z2 z3 => ⟨?_, ?_⟩)
        · by_contra hz
          have := hs z (j + 1) z1 (by omega) (by omega)
          rw [z3] at this
          exact absurd y1 (not_lt.mpr this)
        · by_contra hz
          have := hs (j + a + 1) z (by omega) (by omega) z2
          rw [z3] at this
          exact absurd (lt_of_lt_of_le hlt this) (not_lt.mpr hy)
  have hR : ∃ R, (∀ x ∈ kn V (j + a) b, V (j + a + 1) ≤ x ∧ x ≤ R) ∧
      (∀ y, e ≤ y → y < R → V 0 < y ∧ y < V M ∧ (kn V (j + a) b).count y = mult V 0 M y) := by
    rcases Nat.eq_zero_or_pos b with hb | hb
    · subst hb
      exact ⟨e, by simp, fun y y1 y2 => absurd y1 (not_le.mpr y2)⟩
    · refine ⟨V (j + a + b), ?_, ?_⟩
      · intro x hx
        obtain ⟨l, l1, l2, rfl⟩ := mem_kn.mp hx
        push_cast at h3
        exact ⟨hs _ _ (by omega) (by omega) (by omega), hs _ _ (by omega) (by omega) (by omega)⟩
      · intro y y1 y2
        push_cast at h3
        have hy : V (j + a + 1) ≤ y := he.trans y1
        refine ⟨lt_of_le_of_lt (hs _ _ le_rfl (by omega) (by omega)) (lt_of_lt_of_le hlt hy),
          lt_of_lt_of_le y2 (hs _ _ (by omega) (by omega) le_rfl), ?_⟩
        rw [count_kn]
        refine mult_sub (by omega) (by omega) (fun z z1 z2 z3 => ⟨?_, ?_⟩)
        · by_contra hz
          have := hs z (j + a) z1 (by omega) (by omega)
          rw [z3] at this
          exact absurd (lt_of_lt_of_le hlt hy) (not_lt.mpr this)
        · by_contra hz
          have := hs (j + a + b) z (by omega) (by omega) z2
          rw [z3] at this
          exact absurd y2 (not_lt.mpr this)
  obtain ⟨L, L1, L2⟩ := hL
  obtain ⟨R, R1, R2⟩ := hR
  exact ⟨_, _, L, R, kn_add _ _ _ _, by rw [card_kn, card_kn], L1, R1, L2, R2⟩

/-- the knots used by the forms of a span, in terms of all knots -/
theorem count_kn_le_mult (U : ℤ → K) (y : K) {i : ℤ} {c : ℕ} {M : ℤ} (h1 : 0 ≤ i + 1) (h2 : i + c ≤ M) :
    (kn U i c).count y ≤ mult U 0 M y := by
  rw [count_kn]; exact mult_mono U y h1 h2

/-- control points of the same curve, or a part of it, on a knot vector that contains the old interior knots are
averages of the old ones -/
theorem curve_hull {n n' : ℤ} {p : ℕ} {U V : ℤ → K} (hs : SortedOn U 0 (n + p + 1))
    (hs' : SortedOn V 0 (n' + p + 1)) (hpn : (p : ℤ) ≤ n) (hlo : U p ≤ V p) (hhi : V (n' + 1) ≤ U (n + 1)) {P Q : ℤ → ι → K}
    (he : ∀ u, V p ≤ u → u ≤ V (n' + 1) → curve n' p V Q u = curve n p U P u)
    (hm : ∀ y, V 0 < y → y < V (n' + p + 1) → mult U 0 (n + p + 1) y ≤ mult V 0 (n' + p + 1) y)
    (ha : Active n' p V) {S : Set (ι → K)} (hS : Convex K S) (hP : ∀ i, 0 ≤ i → i ≤ n → P i ∈ S) {j : ℤ}
    (hj0 : 0 ≤ j) (hjn : j ≤ n') : Q j ∈ S := by
  obtain ⟨h, h1, h2, h3, h4, h5⟩ := ha j hj0 hjn
  have hVn : V (h + 1) ≤ V (n' + 1) := hs' _ _ (by omega) (by omega) (by omega)
  have hVp : V p ≤ V h := hs' _ _ (by omega) (by omega) (by omega)
  have hlt : V h < U (n + 1) := lt_of_lt_of_le h5 (hVn.trans hhi)
  obtain ⟨k, hk⟩ := SpanOf.exists' (n := n) (p := p) (u := V h) hs
    (lt_of_le_of_lt (hlo.trans hVp) hlt) hpn (hlo.trans hVp) hlt.le
  have hmem : U k ≤ V h ∧ V h < U (k + 1) := by
    rcases hk.mem with c | c
    · exact c
    · exact absurd c.2.2 hlt.ne
  have hkn := hk.ne
  have k1 := hk.lo
  have k2 := hk.hi
  have hVk : V (h + 1) ≤ U (k + 1) := by
    by_contra hc
    push Not at hc
    have hy : 1 ≤ mult U 0 (n + p + 1) (U (k + 1)) := by
      unfold mult
      exact Finset.card_pos.mpr ⟨k + 1, Finset.mem_filter.mpr ⟨Finset.mem_Icc.mpr ⟨by omega, by omega⟩, rfl⟩⟩
    have := hm (U (k + 1)) (lt_of_le_of_lt (hs' _ _ le_rfl (by omega) (by omega)) hmem.2)
      (lt_of_lt_of_le hc (hs' _ _ (by omega) (by omega) le_rfl))
    have hp0 : 0 < mult V 0 (n' + p + 1) (U (k + 1)) := by omega
    unfold mult at hp0
    obtain ⟨z, hz⟩ := Finset.card_pos.mp hp0
    rw [Finset.mem_filter, Finset.mem_Icc] at hz
    rcases le_or_gt z h with hzh | hzh
    · have := hs' z h (by omega) hzh (by omega)
      rw [hz.2] at this
      exact absurd hmem.2 (not_lt.mpr this)
    · have := hs' (h + 1) z (by omega) (by omega) (by omega)
      rw [hz.2] at this
      exact absurd hc (not_lt.mpr this)
  obtain ⟨f, hf, hrf⟩ := exists_form P (hk.win hs)
  obtain ⟨g, hg, hrg⟩ := exists_form Q (Win.of_sorted (k := h) (p := p) hs' h5 (by omega) (by omega))
  have hfg : ∀ m : Multiset K, m.card = p → g m = f m := by
    intro m hm
    refine form_eq hg hf (Set.Ico_infinite h5) (fun t ht => ?_) hm
    rw [← SpanOf.curve_form (n := n') (k := h) ⟨h1, h2, Or.inl ht⟩ hs' hg hrg,
      ← SpanOf.curve_form (n := n) (k := k) ⟨k1, k2, Or.inl ⟨hmem.1.trans ht.1, lt_of_lt_of_le ht.2 hVk⟩⟩ hs hf hrf]
    exact he t (hVp.trans ht.1) (ht.2.le.trans hVn)
  rw [hrg j (by omega) h3, hfg _ (card_kn _ _ _)]
  obtain ⟨A, B, L, R, w1, w2, w3, w4, w5, w6⟩ := window_halves (q := p) hs' hj0 h3 h4 (by omega) (by omega) h5
    (c := U k) (e := U (k + 1)) hmem.1 hVk
  rw [w1]
  refine form_split hf (k := k) (U := U) (fun i j a b c => hs i j (by omega) b (by omega)) hkn hS
    (fun i a b => by rw [← hrf i a b]; exact hP i (by omega) (by omega)) w2
    (fun x hx => ⟨(w3 x hx).1, (w3 x hx).2.trans (h5.le.trans hVk)⟩)
    (fun x hx => ⟨hmem.1.trans (h5.le.trans (w4 x hx).1), (w4 x hx).2⟩) ?_ ?_
  · intro y y1 y2
    obtain ⟨a1, a2, a3⟩ := w5 y y1 y2
    rw [a3]
    exact (count_kn_le_mult U y (by omega) (by omega)).trans (hm y a1 a2)
  · intro y y1 y2
    obtain ⟨a1, a2, a3⟩ := w6 y y1 y2
    rw [a3]
    exact (count_kn_le_mult U y (by omega) (by omega)).trans (hm y a1 a2)

end Igakit
