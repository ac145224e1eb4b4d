import Verif.Proofs.RemoveDev
import Verif.Proofs.Count
import Verif.Proofs.CurveForm

/-!
# Knot removal: the calling context of `BSp.RemoveKnot` and removal after insertion
-/

set_option linter.unusedSectionVars false

namespace Igakit
open Spec

section field
variable {K : Type*} [Field K] [LinearOrder K] [IsStrictOrderedRing K]
variable {E : Type*} [AddCommGroup E] [Module K E]
variable {n : ℤ} {p : ℕ} {U : ℤ → K} {uu : K} {r s : ℤ}

theorem RemCtx.of_valid (hv : ValidKnots n p U) (h1 : U p < uu) (h2 : uu < U (n + 1))
    (hm1 : 1 ≤ mult U 0 (n + p + 1) uu) (hm2 : mult U 0 (n + p + 1) uu ≤ p) :
    RemCtx n p U uu (findSpan n p uu U) (mult U 0 (n + p + 1) uu) := by
  have hp := hv.one_le
  have hpn := hv.le
  obtain ⟨b1, b2, b3, b4⟩ := findSpan_mid (by omega) hv.le h1 h2
  have hb := block_left hv.sorted b3 b4 (by omega) (by omega)
  generalize findSpan n p uu U = k at *
  generalize mult U 0 (n + p + 1) uu = m at *
  have hkm : (p : ℤ) ≤ k - m := by
    by_contra hc
    have := (hb p (by omega) (by omega)).mpr ⟨by omega, b1⟩
    rw [this] at h1; exact lt_irrefl _ h1
  refine ⟨hv, hkm, b2, by omega, by omega, ?_, ?_, ?_⟩
  · intro j a b
    have e1 : U j ≤ uu := (hv.sorted j k a (by omega) (by omega)).trans b3
    refine lt_of_le_of_ne e1 (fun e => ?_)
    have := (hb j a (by omega)).mp e
    omega
  · intro j a b
    exact (hb j (by omega) (by omega)).mpr ⟨by omega, b⟩
  · intro j a b
    exact lt_of_lt_of_le b4 (hv.sorted (k + 1) j (by omega) (by omega) b)

theorem RemCtx.span_eq (h : RemCtx n p U uu r s) : findSpan n p uu U = r := by
  have h1 := h.rp
  have h2 := h.rn
  have h3 := h.s1
  have h4 := h.valid.one_le
  obtain ⟨b1, b2, b3, b4⟩ := findSpan_mid (by omega) h.valid.le
    (h.left p (by omega) h1) (h.right (n + 1) (by omega) (by omega))
  exact span_unique h.valid.sorted (by omega) (by omega) (by omega) (by omega) b3 b4
    (h.blk r (by omega) le_rfl).le (h.right _ (by omega) (by omega))

theorem RemCtx.mult_eq (h : RemCtx n p U uu r s) : (mult U 0 (n + p + 1) uu : ℤ) = s := by
  have h1 := h.rp
  have h2 := h.rn
  have h3 := h.s1
  have e : (Finset.Icc 0 (n + p + 1)).filter (fun i => U i = uu) = Finset.Ioc (r - s) r := by
    ext j
    rw [Finset.mem_filter, Finset.mem_Icc, Finset.mem_Ioc]
    constructor
    · rintro ⟨⟨a, b⟩, c⟩
      constructor
      · by_contra hc
        exact (h.left j a (by omega)).ne c
      · by_contra hc
        exact (h.right j (by omega) b).ne' c
    · rintro ⟨a, b⟩
      exact ⟨⟨by omega, by omega⟩, h.blk j a b⟩
  unfold mult
  rw [e, Int.card_Ioc]; omega

/-- removing takes copies of the value off the knots -/
theorem RemCtx.knotMS (h : RemCtx n p U uu r s) {t : ℕ} (ht : (t : ℤ) ≤ s) :
    knotMS U (n + p + 1) = knotMS (remKv U r t) (n - t + p + 1) + Multiset.replicate t uu := by
  have h1 := h.rp
  have h2 := h.rn
  have key := insertKnotV_knotMS (fun _ => uu) (n := n - t) (p := p) (remKv U r t) uu (k := r - t) (r := t)
    (by omega) (by omega) (by omega)
  rw [show n - (t : ℤ) + t + p + 1 = n + p + 1 by ring, Int.toNat_natCast] at key
  rw [← key]
  symm
  apply knotMS_congr
  intro j a b
  rcases (by omega : j ≤ r - t ∨ (r - t < j ∧ j ≤ r) ∨ r < j) with c | c | c
  · rw [insertKnotV_lo _ _ _ _ _ _ _ (by omega) _ a c, remKv, if_pos c]
  · rw [insertKnotV_mid _ _ _ _ _ _ _ _ c.1 (by omega), h.blk j (by omega) c.2]
  · rw [insertKnotV_hi _ _ _ _ _ _ _ _ (by omega) (by omega), remKv, if_neg (by omega)]
    congr 1; ring

/-- what `BSp.RemoveKnot` does inside the domain -/
theorem removeKnot_res {eps : K} (heps : 0 < eps) (jt : ℤ → E) (near : E → E → Prop) (P : ℤ → E)
    (h : RemCtx n p U uu r s) (hsep : SepFrom eps uu U 0 (n + p + 1)) {num : ℤ} (hn1 : 1 ≤ num) (hn2 : num ≤ p) :
    BSp.RemoveKnot eps jt near n p U P uu num = .ok (removeKnot jt near n p U P uu r s num) := by
  have h1 := h.rp
  have h2 := h.rn
  have h3 := h.s1
  have h4 := h.valid.one_le
  have hle := h.valid.le
  have a := h.left p (by omega) h1
  have b := h.right (n + 1) (by omega) (by omega)
  unfold BSp.RemoveKnot
  rw [if_pos ⟨by omega, h4, ⟨a.le, b.le⟩, by omega, hn2⟩, if_neg (by omega), if_neg (not_le.mpr a),
    if_neg (not_le.mpr b)]
  dsimp only
  have hsp := h.sp
  have hme := h.mult_eq
  rw [h.span_eq, findMult_mid heps h.valid (by omega) h2 (h.blk r (by omega) le_rfl).le
    (h.right _ (by omega) (by omega)) hsep (by omega), h.mult_eq]

/-- the context after inserting `R` copies -/
theorem RemCtx.of_insert (jk : ℤ → K) (hv : ValidKnots n p U) (h1 : U p < uu) (h2 : uu < U (n + 1))
    {R : ℕ} (hR : 1 ≤ R) (hm : R + mult U 0 (n + p + 1) uu ≤ p) :
    RemCtx (n + R) p (insertKnotV jk n p U uu (findSpan n p uu U) R) uu (findSpan n p uu U + R)
      (mult U 0 (n + p + 1) uu + R) := by
  have hp := hv.one_le
  have hpn := hv.le
  obtain ⟨b1, b2, b3, b4⟩ := findSpan_mid (by omega) hv.le h1 h2
  have hb := block_left hv.sorted b3 b4 (by omega) (by omega)
  generalize findSpan n p uu U = k at *
  generalize mult U 0 (n + p + 1) uu = m at *
  have hkm : (p : ℤ) ≤ k - m := by
    by_contra hc
    have := (hb p (by omega) (by omega)).mpr ⟨by omega, b1⟩
    rw [this] at h1; exact lt_irrefl _ h1
  refine ⟨insertKnotV_valid jk hv (by omega) b1 b2 b3 b4 h1, by omega, by omega, by omega, by omega, ?_, ?_, ?_⟩
  · intro j a b
    rw [insertKnotV_lo _ _ _ _ _ _ _ (by omega) _ a (by omega)]
    have e1 : U j ≤ uu := (hv.sorted j k a (by omega) (by omega)).trans b3
    refine lt_of_le_of_ne e1 (fun e => ?_)
    have := (hb j a (by omega)).mp e
    omega
  · intro j a b
    by_cases c : j ≤ k
    · rw [insertKnotV_lo _ _ _ _ _ _ _ (by omega) _ (by omega) c]
      exact (hb j (by omega) (by omega)).mpr ⟨by omega, c⟩
    · exact insertKnotV_mid _ _ _ _ _ _ _ _ (by omega) b
  · intro j a b
    rw [insertKnotV_hi _ _ _ _ _ _ _ _ a (by omega)]
    exact lt_of_lt_of_le b4 (hv.sorted (k + 1) (j - R) (by omega) (by omega) (by omega))

/-- the nets after `R - t` insertions, one from the next -/
theorem insert_chain (jk : ℤ → K) (je : ℤ → E) (hv : ValidKnots n p U) (P : ℤ → E) (h1 : U p < uu)
    (h2 : uu < U (n + 1)) {R : ℕ} (hm : R + mult U 0 (n + p + 1) uu ≤ p) {t : ℕ} (ht : t < R) {y : ℤ}
    (hy0 : 0 ≤ y) (hyn : y ≤ n + R - t) :
    insertKnotQ je n p U P uu (findSpan n p uu U) (mult U 0 (n + p + 1) uu) ((R - t : ℕ) : ℤ) y =
      remIns (insertKnotV jk n p U uu (findSpan n p uu U) R) uu p (findSpan n p uu U + R)
        (mult U 0 (n + p + 1) uu + R) t
        (insertKnotQ je n p U P uu (findSpan n p uu U) (mult U 0 (n + p + 1) uu) ((R - (t + 1) : ℕ) : ℤ)) y := by
  have hp := hv.one_le
  have hpn := hv.le
  obtain ⟨b1, b2, b3, b4⟩ := findSpan_mid (by omega) hv.le h1 h2
  have hb := block_left hv.sorted b3 b4 (by omega) (by omega)
  generalize findSpan n p uu U = k at *
  generalize mult U 0 (n + p + 1) uu = m at *
  obtain ⟨j, hj⟩ : ∃ j : ℕ, R - t = j + 1 := ⟨R - t - 1, by omega⟩
  rw [hj, show R - (t + 1) = j by omega]
  have hw : Win U k p := Win.of_sorted hv.sorted (lt_of_le_of_lt b3 b4) (by omega) (by omega)
  have hkm : (p : ℤ) ≤ k - m := by
    by_contra hc
    have := (hb p (by omega) (by omega)).mpr ⟨by omega, b1⟩
    rw [this] at h1; exact lt_irrefl _ h1
  have hblk : ∀ z, k - (m : ℤ) < z → z ≤ k → U z = uu := fun z a b =>
    (hb z (by omega) (by omega)).mpr ⟨a, b⟩
  obtain ⟨f, hf, hrep⟩ := exists_form P hw
  obtain ⟨c1, c2, c3, c4, c5⟩ := insertKnotQ_closed je n p U P uu k m ((j + 1 : ℕ) : ℤ) (by omega) (by omega)
    (by omega) b1 b2
  obtain ⟨d1, d2, d3, d4, d5⟩ := insertKnotQ_closed je n p U P uu k m (j : ℤ) (by omega) (by omega)
    (by omega) b1 b2
  by_cases y1 : y < k + R - p - t
  · rw [remIns_lo y1]
    by_cases y2 : y ≤ k - p
    · rw [c1 y hy0 y2, d1 y hy0 y2]
    · have e1 := c2 (y - (k - p)) (by omega) (by omega)
      have e2 := d2 (y - (k - p)) (by omega) (by omega)
      rw [show k - (p : ℤ) + (y - (k - p)) = y by ring] at e1 e2
      rw [e1, e2]
  by_cases y2 : k + R - (m + R) < y
  · rw [remIns_hi (by omega) y2]
    by_cases y3 : y < k - m + (j + 1)
    · have e1 := c4 (k + ((j + 1 : ℕ) : ℤ) - m - y) (by omega) (by omega)
      have e2 := d4 (k + ((j + 1 : ℕ) : ℤ) - m - y) (by omega) (by omega)
      rw [show k + ((j + 1 : ℕ) : ℤ) - (k + ((j + 1 : ℕ) : ℤ) - m - y) - m = y by ring] at e1
      rw [show k + (j : ℤ) - (k + ((j + 1 : ℕ) : ℤ) - m - y) - m = y - 1 by push_cast; ring] at e2
      rw [e1, e2]
    · have e1 := c5 (y - ((j + 1 : ℕ) : ℤ)) (by omega) (by omega)
      have e2 := d5 (y - ((j + 1 : ℕ) : ℤ)) (by omega) (by omega)
      rw [show y - ((j + 1 : ℕ) : ℤ) + ((j + 1 : ℕ) : ℤ) = y by ring] at e1
      rw [show y - ((j + 1 : ℕ) : ℤ) + (j : ℤ) = y - 1 by push_cast; ring] at e2
      rw [e1, e2]
  · rw [remIns_mid (by omega) (by omega)]
    obtain ⟨c, rfl⟩ : ∃ c, p = c + 1 := ⟨p - 1, by omega⟩
    have g : ∀ (i : ℕ) (z : ℤ), i ≤ j + 1 → 0 ≤ z → z ≤ k - m → k - ((c + 1 : ℕ) : ℤ) ≤ z →
        insertKnotQ je n ((c + 1 : ℕ) : ℤ) U P uu k m (i : ℤ) z =
          f (kn (insertKnotV jk n ((c + 1 : ℕ) : ℤ) U uu k i) z (c + 1)) := fun i z a b d e =>
      insertKnotQ_form jk je (by omega) (by omega) (by omega) b1 b2 hw hblk hf hrep b (by omega)
        (Or.inl ⟨e, le_rfl⟩) (Or.inl (by omega))
    rw [g (j + 1) y le_rfl hy0 (by omega) (by omega), g j y (by omega) hy0 (by omega) (by omega),
      g j (y - 1) (by omega) (by omega) (by omega) (by omega)]
    have e0 : kn (insertKnotV jk n ((c + 1 : ℕ) : ℤ) U uu k ((j + 1 : ℕ) : ℤ)) y (c + 1) =
        uu ::ₘ kn (insertKnotV jk n ((c + 1 : ℕ) : ℤ) U uu k j) y c := by
      refine kn_insert (i := k + j) ?_ ?_ ?_ (by omega) (by omega)
      · intro z a b
        by_cases z1 : z ≤ k
        · rw [insertKnotV_lo _ _ _ _ _ _ _ (by omega) _ (by omega) z1,
            insertKnotV_lo _ _ _ _ _ _ _ (by omega) _ (by omega) z1]
        · rw [insertKnotV_mid _ _ _ _ _ _ _ _ (by omega) (by omega),
            insertKnotV_mid _ _ _ _ _ _ _ _ (by omega) (by omega)]
      · exact insertKnotV_mid _ _ _ _ _ _ _ _ (by omega) (by omega)
      · intro z a b
        rw [insertKnotV_hi _ _ _ _ _ _ _ _ (by omega) (by omega),
          insertKnotV_hi _ _ _ _ _ _ _ _ (by omega) (by omega)]
        congr 1; push_cast; ring
    have e1 : kn (insertKnotV jk n ((c + 1 : ℕ) : ℤ) U uu k j) y (c + 1) =
        insertKnotV jk n ((c + 1 : ℕ) : ℤ) U uu k j (y + c + 1) ::ₘ
          kn (insertKnotV jk n ((c + 1 : ℕ) : ℤ) U uu k j) y c := by
      rw [kn_succ_last, show y + 1 + (c : ℤ) = y + c + 1 by ring]
    have e2 : kn (insertKnotV jk n ((c + 1 : ℕ) : ℤ) U uu k j) (y - 1) (c + 1) =
        insertKnotV jk n ((c + 1 : ℕ) : ℤ) U uu k j y ::ₘ
          kn (insertKnotV jk n ((c + 1 : ℕ) : ℤ) U uu k j) y c := by
      rw [kn_succ_first]; rw [show y - 1 + 1 = y by ring]
    rw [e0, e1, e2]
    have v1 : insertKnotV jk n ((c + 1 : ℕ) : ℤ) U uu k j y = U y :=
      insertKnotV_lo _ _ _ _ _ _ _ (by omega) _ hy0 (by omega)
    have v2 : insertKnotV jk n ((c + 1 : ℕ) : ℤ) U uu k j (y + c + 1) = U (y + c + 1 - j) :=
      insertKnotV_hi _ _ _ _ _ _ _ _ (by omega) (by omega)
    have ea : remAlfi (insertKnotV jk n ((c + 1 : ℕ) : ℤ) U uu k R) uu ((c + 1 : ℕ) : ℤ) t y =
        (uu - insertKnotV jk n ((c + 1 : ℕ) : ℤ) U uu k j y) /
        (insertKnotV jk n ((c + 1 : ℕ) : ℤ) U uu k j (y + c + 1) -
          insertKnotV jk n ((c + 1 : ℕ) : ℤ) U uu k j y) := by
      unfold remAlfi
      rw [v1, v2, insertKnotV_lo _ _ _ _ _ _ _ (by omega) _ hy0 (by omega),
        insertKnotV_hi _ _ _ _ _ _ _ _ (by omega) (by omega),
        show y + (((c + 1 : ℕ) : ℤ) + 1) + t - R = y + c + 1 - j by omega]
    rw [ea]
    refine hf.interp' (by rw [card_kn]) ?_ uu
    rw [v1, v2]
    have g1 : U y ≤ U k := hv.sorted y k hy0 (by omega) (by omega)
    have g2 := hv.sorted (k + 1) (y + c + 1 - j) (by omega) (by omega) (by omega)
    have : U y < U (y + c + 1 - j) := lt_of_le_of_lt (g1.trans b3) (lt_of_lt_of_le b4 g2)
    linarith

/-- removal of `R` copies from data obtained by `R` insertions, on the level of the Fortran routine -/
theorem removeKnot_insert (jk : ℤ → K) (je jt : ℤ → E) {near : E → E → Prop} (hnear : ∀ x, near x x)
    (hv : ValidKnots n p U) (P : ℤ → E) (h1 : U p < uu) (h2 : uu < U (n + 1)) {R : ℕ} (hR : 1 ≤ R)
    (hm : R + mult U 0 (n + p + 1) uu ≤ p) :
    ∃ V Q, removeKnot jt near (n + R) p (insertKnotV jk n p U uu (findSpan n p uu U) R)
      (insertKnotQ je n p U P uu (findSpan n p uu U) (mult U 0 (n + p + 1) uu) R) uu (findSpan n p uu U + R)
        (mult U 0 (n + p + 1) uu + R) R = ((R : ℤ), V, Q) ∧
      (∀ i, 0 ≤ i → i ≤ n + p + 1 → V i = U i) ∧ ∀ i, 0 ≤ i → i ≤ n → Q i = P i := by
  have hc := RemCtx.of_insert jk hv h1 h2 hR hm
  have hch := fun t ht y a b => insert_chain jk je hv P h1 h2 hm (t := t) ht (y := y) a b
  have hp := hv.one_le
  have hpn := hv.le
  obtain ⟨b1, b2, b3, b4⟩ := findSpan_mid (by omega) hv.le h1 h2
  have hb := block_left hv.sorted b3 b4 (by omega) (by omega)
  generalize findSpan n p uu U = k at *
  generalize mult U 0 (n + p + 1) uu = m at *
  have hrp := hc.rp
  obtain ⟨Pw', g1, g2, g3⟩ := remLoop_exact hc hnear
    (fun t => insertKnotQ je n p U P uu k m ((R - t : ℕ) : ℤ)) (num := R) (by omega)
    (fun t ht y a b => hch t ht y a b) R 0 (insertKnotQ je n p U P uu k m R) jt (by omega) (by
      constructor
      · intro i _ _; simp
      · intro i _ _; simp)
  have e0 : ∀ i, 0 ≤ i → i ≤ n → insertKnotQ je n p U P uu k m ((R - R : ℕ) : ℤ) i = P i := by
    intro i a b
    rw [Nat.sub_self, Nat.cast_zero]
    obtain ⟨c1, c2, c3, c4, c5⟩ := insertKnotQ_closed je n p U P uu k m 0 (by omega) le_rfl (by omega) b1 b2
    rcases (by omega : i ≤ k - p ∨ (k - p < i ∧ i < k - m) ∨ k - m ≤ i) with c | c | c
    · exact c1 i a c
    · rw [c3 i (by omega) c.2]
      rw [Int.toNat_zero, rt]; congr 1; ring
    · have := c5 i c b
      rwa [add_zero] at this
  unfold removeKnot
  dsimp only
  rw [Nat.cast_zero, sub_zero, add_zero] at g1
  rw [Int.toNat_natCast, g1, if_neg (by dsimp only; omega)]
  refine ⟨_, _, rfl, ?_, ?_⟩
  · intro i a b
    rw [remKnots_eq _ _ _ _ (by omega) (by omega) _ (by omega), remKv]
    split_ifs with c
    · exact insertKnotV_lo _ _ _ _ _ _ _ (by omega) _ a (by omega)
    · rw [insertKnotV_hi _ _ _ _ _ _ _ _ (by omega) (by omega)]; congr 1; ring
  · intro i a b
    dsimp only
    rcases remShift_final (n := n + R) p (k + R) (m + R) R Pw' hrp (by omega) (by omega) (by omega) (by omega)
      with c | c
    · rw [c i a (by omega), ← e0 i a b]
      split_ifs with d
      · exact g2 i a d
      · exact g3 i (by unfold remA at d; unfold remB; omega) (by omega)
    · rw [c i a (by omega), ← e0 i a b]
      split_ifs with d
      · exact g2 i a (by unfold remB at d; unfold remA; omega)
      · exact g3 i (by omega) (by omega)

/-- knot insertion keeps the net in every convex set -/
theorem insertKnotQ_convex (jk : ℤ → K) (je : ℤ → E) (hv : ValidKnots n p U) (P : ℤ → E) (h1 : U p < uu)
    (h2 : uu < U (n + 1)) {R : ℕ} (hR : 1 ≤ R) (hm : R + mult U 0 (n + p + 1) uu ≤ p) {S : E → Prop}
    (hS : ∀ (α : K) (a b : E), 0 < α → α < 1 → S a → S b → S (α • a + (1 - α) • b))
    (hP : ∀ i, 0 ≤ i → i ≤ n → S (P i)) {i : ℤ} (h0 : 0 ≤ i) (hi : i ≤ n + R) :
    S (insertKnotQ je n p U P uu (findSpan n p uu U) (mult U 0 (n + p + 1) uu) R i) := by
  have hc := RemCtx.of_insert jk hv h1 h2 hR hm
  have hch := fun t ht y a b => insert_chain jk je hv P h1 h2 hm (t := t) ht (y := y) a b
  obtain ⟨b1, b2, b3, b4⟩ := findSpan_mid (by omega) hv.le h1 h2
  generalize findSpan n p uu U = k at *
  generalize mult U 0 (n + p + 1) uu = m at *
  have hrp := hc.rp
  have key : ∀ j : ℕ, j ≤ R → ∀ i, 0 ≤ i → i ≤ n + j →
      S (insertKnotQ je n p U P uu k m (j : ℤ) i) := by
    intro j
    induction j with
    | zero =>
      intro _ i a b
      obtain ⟨c1, c2, c3, c4, c5⟩ := insertKnotQ_closed je n p U P uu k m 0 (by omega) le_rfl (by omega) b1 b2
      rw [Nat.cast_zero, add_zero] at *
      rcases (by omega : i ≤ k - p ∨ (k - p < i ∧ i < k - m) ∨ k - m ≤ i) with c | c | c
      · rw [c1 i a c]; exact hP i a b
      · rw [c3 i (by omega) c.2, Int.toNat_zero, rt]
        exact hP _ (by omega) (by omega)
      · have := c5 i c b
        rw [add_zero] at this
        rw [this]; exact hP i a b
    | succ j ih =>
      intro hj i a b
      have e := hch (R - (j + 1)) (by omega) i a (by omega)
      rw [show R - (R - (j + 1)) = j + 1 by omega, show R - (R - (j + 1) + 1) = j by omega] at e
      rw [e]
      have ih := ih (by omega)
      push_cast at b
      rcases (by omega : i < k + R - p - ((R - (j + 1) : ℕ) : ℤ) ∨
        (k + R - p - ((R - (j + 1) : ℕ) : ℤ) ≤ i ∧ i ≤ k + R - (m + R)) ∨
        (k + R - p - ((R - (j + 1) : ℕ) : ℤ) ≤ i ∧ k + R - (m + R) < i)) with c | c | c
      · rw [remIns_lo c]; exact ih i a (by omega)
      · rw [remIns_mid c.1 c.2]
        obtain ⟨g1, g2⟩ := hc.alf (t := ((R - (j + 1) : ℕ) : ℤ)) (by omega) (by omega) c.1 c.2
        exact hS _ _ _ g1 g2 (ih i a (by omega)) (ih _ (by omega) (by omega))
      · rw [remIns_hi c.1 c.2]; exact ih _ (by omega) (by omega)
  exact key R le_rfl i h0 hi

end field
end Igakit
