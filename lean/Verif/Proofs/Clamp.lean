import Verif.Proofs.Extract
import Verif.Proofs.InsertCurve

set_option linter.unusedSectionVars false

namespace Igakit
open Spec

variable {K : Type*} [Field K] [LinearOrder K] [IsStrictOrderedRing K]
variable {E : Type*} [AddCommGroup E] [Module K E]

theorem fillRange_in {α : Type*} (A : ℤ → α) (lo hi sh : ℤ) (g : ℤ → α) {i : ℤ}
    (h1 : lo + sh ≤ i) (h2 : i ≤ hi + sh) : fillRange A lo hi sh g i = g (i - sh) := by
  unfold fillRange; rw [if_pos (by omega)]

theorem fillRange_out {α : Type*} (A : ℤ → α) (lo hi sh : ℤ) (g : ℤ → α) {i : ℤ}
    (h : i < lo + sh ∨ hi + sh < i) : fillRange A lo hi sh g i = A i := by
  unfold fillRange; rw [if_neg (by omega)]

/-- the corner cutting loop shared by both halves of `KntIns` -/
theorem kntIns_loop (je : ℤ → E) (p : ℕ) (U : ℤ → K) (P : ℤ → E) (uu : K) (k r : ℤ) (hr : 0 ≤ r) :
    ∀ l, 1 ≤ l → l ≤ r →
      (forUp 1 r (fun j (RQ : (ℤ → E) × (ℤ → E)) =>
        let idx := k - p + j
        let Rw := cutPass U uu k idx (r - j) RQ.1
        let Qw := upd RQ.2 j (Rw 0)
        let Qw := upd Qw (r + r - j) (Rw (r - j))
        (Rw, Qw)) (fillRange je 0 r 0 (fun i => P (k - p + i)), upd je 0 (P (k - p)))).2 l =
          rt U P p uu k l.toNat 0 ∧
      (forUp 1 r (fun j (RQ : (ℤ → E) × (ℤ → E)) =>
        let idx := k - p + j
        let Rw := cutPass U uu k idx (r - j) RQ.1
        let Qw := upd RQ.2 j (Rw 0)
        let Qw := upd Qw (r + r - j) (Rw (r - j))
        (Rw, Qw)) (fillRange je 0 r 0 (fun i => P (k - p + i)), upd je 0 (P (k - p)))).2
          (r + r - l) = rt U P p uu k l.toNat (r - l) := by
  have h := forUp_inv (f := fun j (RQ : (ℤ → E) × (ℤ → E)) =>
        let idx := k - p + j
        let Rw := cutPass U uu k idx (r - j) RQ.1
        let Qw := upd RQ.2 j (Rw 0)
        let Qw := upd Qw (r + r - j) (Rw (r - j))
        (Rw, Qw))
    (fun j RQ => (∀ i, 0 ≤ i → i ≤ r - (j - 1) → RQ.1 i = rt U P p uu k (j - 1).toNat i) ∧
      ∀ l, 1 ≤ l → l ≤ j - 1 → RQ.2 l = rt U P p uu k l.toNat 0 ∧
        RQ.2 (r + r - l) = rt U P p uu k l.toNat (r - l))
    (lo := 1) (hi := r)
    (s := (fillRange je 0 r 0 (fun i => P (k - p + i)), upd je 0 (P (k - p)))) (by omega)
    (by
      refine ⟨fun i a b => ?_, fun l a b => by omega⟩
      dsimp only
      rw [fillRange_in _ _ _ _ _ (by omega) (by omega), sub_zero]
      rfl)
    (by
      rintro j ⟨R, Q⟩ h1 h2 ⟨ihR, ihQ⟩
      have hR : ∀ i, 0 ≤ i → i ≤ r - j →
          cutPass U uu k (k - p + j) (r - j) R i = rt U P p uu k j.toNat i := by
        intro i a b
        dsimp only at ihR
        rw [cutPass_spec, if_pos (by omega), ihR i (by omega) (by omega), ihR (i + 1) (by omega)
          (by omega)]
        have e : j.toNat = (j - 1).toNat + 1 := by omega
        have e2 : (((j - 1).toNat + 1 : ℕ) : ℤ) = j := by omega
        rw [e, rt, e2]
      have ej : j + 1 - 1 = j := by ring
      dsimp only
      rw [ej]
      refine ⟨fun i a b => hR i a b, fun l a b => ?_⟩
      by_cases hl : l = j
      · subst hl
        rw [upd_same]
        refine ⟨?_, hR _ (by omega) (le_refl _)⟩
        by_cases hlr : l = r + r - l
        · rw [upd_eq _ _ hlr, hR _ (by omega) (le_refl _)]
          congr 1; omega
        · rw [upd_ne _ _ hlr, upd_same, hR _ (le_refl _) (by omega)]
      · obtain ⟨q1, q2⟩ := ihQ l a (by omega)
        dsimp only at q1 q2
        rw [upd_ne _ _ (by omega), upd_ne _ _ hl, upd_ne _ _ (by omega), upd_ne _ _ (by omega)]
        exact ⟨q1, q2⟩)
  intro l a b
  exact h.2 l a (by omega)

/-- `KntIns` at the left end -/
theorem kntIns_left (je : ℤ → E) (n : ℤ) (p : ℕ) (U : ℤ → K) (P : ℤ → E) (uu : K) (r : ℤ)
    (hr : 0 ≤ r) (i : ℤ) :
    kntIns je n p U P uu p r i =
      if 0 ≤ i ∧ i < r then rt U P p uu p (r - i).toNat i else P i := by
  unfold kntIns
  simp only
  rw [if_pos trivial]
  by_cases h : 0 ≤ i ∧ i < r
  · rw [if_pos h, fillRange_in _ _ _ _ _ (by omega) (by omega)]
    have := (kntIns_loop je p U P uu p r hr (r - i) (by omega) (by omega)).2
    have e : r + r - (r - i) = r + (i - 0) := by ring
    have e2 : r - (r - i) = i := by ring
    rw [e, e2] at this
    exact this
  · rw [if_neg h, fillRange_out _ _ _ _ _ (by omega)]

/-- `KntIns` at the right end -/
theorem kntIns_right (je : ℤ → E) (n : ℤ) (p : ℕ) (U : ℤ → K) (P : ℤ → E) (uu : K) (k r : ℤ)
    (hr : 0 ≤ r) (hk : k ≠ p) (i : ℤ) :
    kntIns je n p U P uu k r i =
      if n - r < i ∧ i ≤ n then rt U P p uu k (i - (n - r)).toNat 0 else P i := by
  unfold kntIns
  simp only
  rw [if_neg hk]
  by_cases h : n - r < i ∧ i ≤ n
  · rw [if_pos h, fillRange_in _ _ _ _ _ (by omega) (by omega)]
    have := (kntIns_loop je p U P uu k r hr (i - (n - r)) (by omega) (by omega)).1
    simp only [sub_zero]
    exact this
  · rw [if_neg h, fillRange_out _ _ _ _ _ (by omega)]

theorem findSpan_congr {n p : ℤ} {U V : ℤ → K} (hp : 0 ≤ p) (hpn : p ≤ n)
    (hs : SortedOn U p (n + 1)) (h : ∀ i, p ≤ i → i ≤ n + 1 → V i = U i) (u : K) :
    findSpan n p u V = findSpan n p u U := by
  by_cases h1 : U (n + 1) ≤ u
  · rw [findSpan_ge h1, findSpan_ge (by rw [h _ (by omega) (by omega)]; exact h1)]
  · have h1' := not_le.mp h1
    have h1V : u < V (n + 1) := by rw [h _ (by omega) (by omega)]; exact h1'
    by_cases h2 : u ≤ U p
    · rw [findSpan_le h1' h2, findSpan_le h1V (by rw [h _ (by omega) (by omega)]; exact h2)]
    · have h2' := not_le.mp h2
      have h2V : V p < u := by rw [h _ (by omega) (by omega)]; exact h2'
      obtain ⟨a1, a2, a3, a4⟩ := findSpan_mid hp hpn h2' h1'
      obtain ⟨b1, b2, b3, b4⟩ := findSpan_mid hp hpn h2V h1V
      rw [h _ b1 (by omega)] at b3
      rw [h _ (by omega) (by omega)] at b4
      exact span_unique hs b1 (by omega) a1 (by omega) b3 b4 a3 a4

/-! ### left -/

theorem clampLeft_knots (eps : K) (je : ℤ → E) (n p : ℤ) (U : ℤ → K) (P : ℤ → E) (i : ℤ) :
    (clampLeft eps je n p U P).1 i = if 0 ≤ i ∧ i ≤ p - 1 then U p else U i := by
  unfold clampLeft fillRange
  simp

theorem clampLeft_form {eps : K} (heps : 0 < eps) (je : ℤ → E) {n : ℤ} {p : ℕ} {U : ℤ → K}
    (hv : ValidKnots n p U) (P : ℤ → E) (hsep : SepFrom eps (U p) U 0 (n + p + 1))
    {f : Multiset K → E} (hf : IsForm p f) {lo hi : ℤ} (hrep : Rep p U P lo hi f) {i : ℤ}
    (hi0 : 0 ≤ i) (hlo : lo ≤ i) (hhi : i ≤ hi) (hph : (p : ℤ) - 1 ≤ hi) :
    (clampLeft eps je n p U P).2 i = f (kn (clampLeft eps je n p U P).1 i p) := by
  have hp := hv.one_le
  have hle := hv.le
  have hb := block_left hv.sorted (le_refl (U p)) hv.first (by omega) (by omega)
  have hmu := findMult_first heps hv hsep
  have hm1 : 1 ≤ mult U 0 (n + p + 1) (U p) := one_le_mult (by omega) (by omega)
  have hw := win_of_valid hv (le_refl _) hle hv.first
  have e2 : (clampLeft eps je n p U P).2 = if findMult eps p (U p) p U < p then
      kntIns je n p U P (U p) p (p - findMult eps p (U p) p U) else P := rfl
  rw [e2, hmu]
  set s : ℕ := mult U 0 (n + p + 1) (U p) with hs
  have hblk : ∀ j, (p : ℤ) - s < j → j ≤ p → 0 ≤ j → U j = U p := fun j a b c =>
    (hb j c (by omega)).mpr ⟨a, b⟩
  -- knots that did not change value
  have hsame : ∀ j, 0 ≤ j → (p : ℤ) - s < j → (clampLeft eps je n p U P).1 j = U j := by
    intro j a b
    rw [clampLeft_knots]
    split_ifs with h
    · rw [hblk j b (by omega) a]
    · rfl
  by_cases hc : (s : ℤ) < p
  · rw [if_pos hc, kntIns_left _ _ _ _ _ _ _ (by omega)]
    split_ifs with h
    · rw [rt_form hf hrep hw (U p) _ i (by omega) hi0 (by omega) (by omega) (by omega)]
      congr 1
      have e : p = ((p : ℤ) - s - i).toNat + (p - ((p : ℤ) - s - i).toNat) := by omega
      rw [show kn (clampLeft eps je n p U P).1 i p = kn (clampLeft eps je n p U P).1 i
        (((p : ℤ) - s - i).toNat + (p - ((p : ℤ) - s - i).toNat)) from by rw [← e], kn_add]
      congr 1
      · symm
        apply kn_const
        intro l a b
        rw [clampLeft_knots, if_pos (by omega)]
      · apply kn_congr
        intro l a b
        rw [hsame _ (by omega) (by omega)]
        congr 1; omega
    · rw [hrep i hlo hhi]
      congr 1
      apply kn_congr
      intro l a b
      rw [hsame _ (by omega) (by omega)]
  · rw [if_neg hc, hrep i hlo hhi]
    congr 1
    apply kn_congr
    intro l a b
    rw [hsame _ (by omega) (by omega)]

theorem clampLeft_valid {eps : K} (je : ℤ → E) {n : ℤ} {p : ℕ} {U : ℤ → K}
    (hv : ValidKnots n p U) (P : ℤ → E) : ValidKnots n p (clampLeft eps je n p U P).1 := by
  have hp := hv.one_le
  have hle := hv.le
  refine ⟨hp, hle, ?_, ?_, ?_⟩
  · intro i j a b c
    rw [clampLeft_knots, clampLeft_knots]
    split_ifs with h1 h2 h2
    · exact le_refl _
    · exact hv.sorted _ _ (by omega) (by omega) (by omega)
    · omega
    · exact hv.sorted _ _ (by omega) (by omega) (by omega)
  · rw [clampLeft_knots, clampLeft_knots, if_neg (by omega), if_neg (by omega)]; exact hv.first
  · rw [clampLeft_knots, clampLeft_knots, if_neg (by omega), if_neg (by omega)]; exact hv.last

theorem clampLeft_curve {eps : K} (heps : 0 < eps) (je : ℤ → E) (jk jk' : ℤ → K) {n : ℤ} {p : ℕ}
    {U : ℤ → K} (hv : ValidKnots n p U) (P : ℤ → E) (hsep : SepFrom eps (U p) U 0 (n + p + 1))
    {u : K} (h1 : U p ≤ u) (h2 : u ≤ U (n + 1)) :
    curvePoint jk' n p (clampLeft eps je n p U P).1 (clampLeft eps je n p U P).2 u =
      curvePoint jk n p U P u := by
  have hp := hv.one_le
  have hle := hv.le
  have hin : ∀ i, (p : ℤ) ≤ i → (clampLeft eps je n p U P).1 i = U i := by
    intro i a; rw [clampLeft_knots, if_neg (by omega)]
  apply curvePoint_transfer jk jk' hv (clampLeft_valid je hv P) P _ h1 h2
    (by rw [hin _ (le_refl _)]; exact h1) (by rw [hin _ (by omega)]; exact h2)
  intro f hf hr
  have hrg := findSpan_range (U := U) u (by omega : (0 : ℤ) ≤ p) hle
  rw [findSpan_congr (by omega) hle (fun i j a b c => hv.sorted i j (by omega) b (by omega))
    (fun i a _ => hin i a) u]
  intro i a b
  exact clampLeft_form heps je hv P hsep hf hr (by omega) a b (by omega)

/-! ### right -/

theorem clampRight_knots (eps : K) (je : ℤ → E) (n p : ℤ) (U : ℤ → K) (P : ℤ → E) (i : ℤ) :
    (clampRight eps je n p U P).1 i = if n + 2 ≤ i ∧ i ≤ n + p + 1 then U (n + 1) else U i := by
  unfold clampRight fillRange
  simp

theorem clampRight_form {eps : K} (heps : 0 < eps) (je : ℤ → E) {n : ℤ} {p : ℕ} {U : ℤ → K}
    (hv : ValidKnots n p U) (P : ℤ → E) (hsep : SepFrom eps (U (n + 1)) U 0 (n + p + 1))
    {f : Multiset K → E} (hf : IsForm p f) {lo hi : ℤ} (hrep : Rep p U P lo hi f) {i : ℤ}
    (hin : i ≤ n) (hlo : lo ≤ i) (hhi : i ≤ hi) (hpl : lo ≤ n - p + 1) :
    (clampRight eps je n p U P).2 i = f (kn (clampRight eps je n p U P).1 i p) := by
  have hp := hv.one_le
  have hle := hv.le
  have hb := block_right hv.sorted hv.last (le_refl _) (by omega) (by omega)
  have hmu := findMult_last heps hv hsep
  have hm1 : 1 ≤ mult U 0 (n + p + 1) (U (n + 1)) := one_le_mult (by omega) (by omega)
  have e2 : (clampRight eps je n p U P).2 = if findMult eps n (U (n + 1)) p U < p then
      kntIns je n p U P (U (n + 1)) (n + findMult eps n (U (n + 1)) p U)
        (p - findMult eps n (U (n + 1)) p U) else P := rfl
  rw [e2, hmu]
  set s : ℕ := mult U 0 (n + p + 1) (U (n + 1)) with hs
  have hblk : ∀ j, n < j → j ≤ n + s → j ≤ n + p + 1 → U j = U (n + 1) := fun j a b c =>
    (hb j (by omega) c).mpr ⟨a, b⟩
  -- knots that did not change value
  have hsame : ∀ j, j ≤ n + s → (clampRight eps je n p U P).1 j = U j := by
    intro j b
    rw [clampRight_knots]
    split_ifs with h
    · rw [hblk j (by omega) b (by omega)]
    · rfl
  by_cases hc : (s : ℤ) < p
  · rw [if_pos hc, kntIns_right _ _ _ _ _ _ _ _ (by omega) (by omega)]
    have hne : ∀ a b, n + s - p < a → a ≤ n + s - p + (p - s) → n + s < b → b ≤ n + s + (p - s) →
        U b - U a ≠ 0 := by
      intro a b ha1 ha2 hb1 hb2
      have x1 := hv.sorted a n (by omega) (by omega) (by omega)
      have x2 := hv.sorted (n + 1) b (by omega) (by omega) (by omega)
      have := lt_of_le_of_lt x1 (lt_of_lt_of_le hv.last x2)
      exact sub_ne_zero.mpr (ne_of_gt this)
    split_ifs with h
    · rw [rt_form_r hf hrep (r := (p : ℤ) - s) (by omega) hne (U (n + 1)) _ 0 (by omega) (le_refl _)
        (by omega) (by omega) (by omega)]
      congr 1
      set j : ℕ := (i - (n - ((p : ℤ) - s))).toNat with hj
      have e : p = (p - j) + j := by omega
      rw [show kn (clampRight eps je n p U P).1 i p = kn (clampRight eps je n p U P).1 i
        ((p - j) + j) from by rw [← e], kn_add, add_comm]
      congr 1
      · apply kn_congr
        intro l a b
        rw [hsame _ (by omega)]
        congr 1; omega
      · symm
        apply kn_const
        intro l a b
        rw [clampRight_knots]
        split_ifs with h'
        · rfl
        · exact hblk _ (by omega) (by omega) (by omega)
    · rw [hrep i hlo hhi]
      congr 1
      apply kn_congr
      intro l a b
      rw [hsame _ (by omega)]
  · rw [if_neg hc, hrep i hlo hhi]
    congr 1
    apply kn_congr
    intro l a b
    rw [hsame _ (by omega)]

theorem clampRight_valid {eps : K} (je : ℤ → E) {n : ℤ} {p : ℕ} {U : ℤ → K}
    (hv : ValidKnots n p U) (P : ℤ → E) : ValidKnots n p (clampRight eps je n p U P).1 := by
  have hp := hv.one_le
  have hle := hv.le
  refine ⟨hp, hle, ?_, ?_, ?_⟩
  · intro i j a b c
    rw [clampRight_knots, clampRight_knots]
    split_ifs with h1 h2 h2
    · exact le_refl _
    · omega
    · exact hv.sorted _ _ (by omega) (by omega) (by omega)
    · exact hv.sorted _ _ (by omega) (by omega) (by omega)
  · rw [clampRight_knots, clampRight_knots, if_neg (by omega), if_neg (by omega)]; exact hv.first
  · rw [clampRight_knots, clampRight_knots, if_neg (by omega), if_neg (by omega)]; exact hv.last

theorem clampRight_curve {eps : K} (heps : 0 < eps) (je : ℤ → E) (jk jk' : ℤ → K) {n : ℤ} {p : ℕ}
    {U : ℤ → K} (hv : ValidKnots n p U) (P : ℤ → E)
    (hsep : SepFrom eps (U (n + 1)) U 0 (n + p + 1))
    {u : K} (h1 : U p ≤ u) (h2 : u ≤ U (n + 1)) :
    curvePoint jk' n p (clampRight eps je n p U P).1 (clampRight eps je n p U P).2 u =
      curvePoint jk n p U P u := by
  have hp := hv.one_le
  have hle := hv.le
  have hin : ∀ i, i ≤ n + 1 → (clampRight eps je n p U P).1 i = U i := by
    intro i a; rw [clampRight_knots, if_neg (by omega)]
  apply curvePoint_transfer jk jk' hv (clampRight_valid je hv P) P _ h1 h2
    (by rw [hin _ (by omega)]; exact h1) (by rw [hin _ (by omega)]; exact h2)
  intro f hf hr
  have hrg := findSpan_range (U := U) u (by omega : (0 : ℤ) ≤ p) hle
  rw [findSpan_congr (by omega) hle (fun i j a b c => hv.sorted i j (by omega) b (by omega))
    (fun i _ a => hin i a) u]
  intro i a b
  exact clampRight_form heps je hv P hsep hf hr (by omega) a b (by omega)

/-! ### both -/

theorem clampKnot_knots (eps : K) (je : ℤ → E) {n p : ℤ} (hle : p ≤ n) (U : ℤ → K) (P : ℤ → E)
    (l r : Bool) (i : ℤ) :
    (clampKnot eps je n p U P l r).1 i =
      if l = true ∧ 0 ≤ i ∧ i ≤ p - 1 then U p
      else if r = true ∧ n + 2 ≤ i ∧ i ≤ n + p + 1 then U (n + 1) else U i := by
  unfold clampKnot
  cases l <;> cases r <;> simp only [if_true, if_false, reduceCtorEq, true_and, false_and,
    clampLeft_knots, clampRight_knots, Bool.false_eq_true]
  by_cases h2 : n + 2 ≤ i ∧ i ≤ n + p + 1
  · rw [if_pos h2, if_neg (by omega), if_neg (by omega), if_pos h2]
  · rw [if_neg h2, if_neg h2]

theorem clampKnot_valid {eps : K} (je : ℤ → E) {n : ℤ} {p : ℕ} {U : ℤ → K}
    (hv : ValidKnots n p U) (P : ℤ → E) (l r : Bool) :
    ValidKnots n p (clampKnot eps je n p U P l r).1 := by
  unfold clampKnot
  cases l <;> cases r <;> simp only [if_true, if_false, Bool.false_eq_true]
  · exact hv
  · exact clampRight_valid je hv P
  · exact clampLeft_valid je hv P
  · exact clampRight_valid je (clampLeft_valid je hv P) _

theorem clampLeft_sep {eps : K} (je : ℤ → E) {n : ℤ} {p : ℕ} {U : ℤ → K} (hv : ValidKnots n p U)
    (P : ℤ → E) {x : K} (hsep : SepFrom eps x U 0 (n + p + 1)) :
    SepFrom eps x (clampLeft eps je n p U P).1 0 (n + p + 1) := by
  have hle := hv.le
  intro j a b
  rw [clampLeft_knots]
  split_ifs with h
  · exact hsep p (by omega) (by omega)
  · exact hsep j a b

theorem clampKnot_curve {eps : K} (heps : 0 < eps) (je : ℤ → E) (jk jk' : ℤ → K) {n : ℤ} {p : ℕ}
    {U : ℤ → K} (hv : ValidKnots n p U) (P : ℤ → E) (hsep1 : SepFrom eps (U p) U 0 (n + p + 1))
    (hsep2 : SepFrom eps (U (n + 1)) U 0 (n + p + 1)) (l r : Bool)
    {u : K} (h1 : U p ≤ u) (h2 : u ≤ U (n + 1)) :
    curvePoint jk' n p (clampKnot eps je n p U P l r).1 (clampKnot eps je n p U P l r).2 u =
      curvePoint jk n p U P u := by
  have hp := hv.one_le
  have hle := hv.le
  unfold clampKnot
  cases l <;> cases r <;> simp only [if_true, if_false, Bool.false_eq_true]
  · rw [curvePoint_eq_sum, curvePoint_eq_sum]
  · exact clampRight_curve heps je jk jk' hv P hsep2 h1 h2
  · exact clampLeft_curve heps je jk jk' hv P hsep1 h1 h2
  · have e1 : (clampLeft eps je n p U P).1 p = U p := by
      rw [clampLeft_knots, if_neg (by omega)]
    have e2 : (clampLeft eps je n p U P).1 (n + 1) = U (n + 1) := by
      rw [clampLeft_knots, if_neg (by omega)]
    rw [clampRight_curve heps je jk' jk' (clampLeft_valid je hv P) _
      (by rw [e2]; exact clampLeft_sep je hv P hsep2) (by rw [e1]; exact h1) (by rw [e2]; exact h2)]
    exact clampLeft_curve heps je jk jk' hv P hsep1 h1 h2

end Igakit
