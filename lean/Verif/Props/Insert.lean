import Verif.Proofs.CurveSpec
import Verif.Proofs.Extract
import Verif.Proofs.Clamp
import Verif.Model.BSp
import Verif.Spec.Examples
import Verif.Proofs.CurveForm

/-!
# Properties C07, C08, C11, C12 at the level of `bsp.InsertKnot` and `bsp.Extract`
-/

set_option linter.unusedSectionVars false

namespace Igakit
open Spec

variable {K : Type*} [Field K] [LinearOrder K] [IsStrictOrderedRing K]
variable {E : Type*} [AddCommGroup E] [Module K E]

/-! ## C07 -/

/-- C07: inserting a value strictly inside the domain `r` times, `r + multiplicity ≤ p`, succeeds,
gives a valid knot vector with the same domain whose knots are the old ones and `r` copies of `uu`,
and does not change the curve. -/
theorem C07_InsertKnot {eps : K} (heps : 0 < eps) (jk : ℤ → K) (je : ℤ → E) {n : ℤ} {p : ℕ}
    {U : ℤ → K} (hv : ValidKnots n p U) (P : ℤ → E) {uu : K} (h1 : U p < uu) (h2 : uu < U (n + 1))
    (hsep : SepFrom eps uu U 0 (n + p + 1)) {r : ℕ} (hr : r + mult U 0 (n + p + 1) uu ≤ p) :
    ∃ V Q, BSp.InsertKnot eps jk je n p U P uu r = .ok (V, Q) ∧
      ValidKnots (n + r) p V ∧ V p = U p ∧ V (n + r + 1) = U (n + 1) ∧
      knotMS V (n + r + p + 1) = knotMS U (n + p + 1) + Multiset.replicate r uu ∧
      ∀ u, U p ≤ u → u ≤ U (n + 1) → curve (n + r) p V Q u = curve n p U P u := by
  have hp := hv.one_le
  have hle := hv.le
  obtain ⟨b1, b2, b3, b4⟩ := findSpan_mid (by omega) hle h1 h2
  have hs := findMult_mid heps hv b1 b2 b3 b4 hsep (by omega)
  unfold BSp.InsertKnot
  rw [if_pos ⟨by omega, hp, ⟨h1.le, h2.le⟩, by omega, by omega⟩]
  by_cases h0 : r = 0
  · subst h0
    simp only [Nat.cast_zero, add_zero, Multiset.replicate_zero, if_true]
    have hU : ∀ j, 0 ≤ j → j ≤ n + p + 1 → fillRange jk 0 (n + p + 1) 0 U j = U j := by
      intro j a b; rw [fillRange_in _ _ _ _ _ (by omega) (by omega)]; simp
    have hP : ∀ j, 0 ≤ j → j ≤ n → fillRange je 0 n 0 P j = P j := by
      intro j a b; rw [fillRange_in _ _ _ _ _ (by omega) (by omega)]; simp
    refine ⟨_, _, rfl, ?_, hU _ (by omega) (by omega), hU _ (by omega) (by omega), ?_, ?_⟩
    · exact validKnots_congr hv hU
    · exact knotMS_congr hU
    · intro u _ _
      exact curve_congr hU hP u
  · rw [if_neg (by exact_mod_cast h0)]
    refine ⟨_, _, rfl, ?_, ?_, ?_, ?_, ?_⟩
    · exact insertKnotV_valid jk hv (by omega) b1 b2 b3 b4 h1
    · exact insertKnotV_lo _ _ _ _ _ _ _ (by omega) _ (by omega) (by omega)
    · rw [insertKnotV_hi _ _ _ _ _ _ _ _ (by omega) (by omega)]; congr 1; ring
    · have := insertKnotV_knotMS jk (n := n) (p := p) U uu (k := findSpan n p uu U) (r := r)
        (by omega) (by omega) (by omega)
      rwa [Int.toNat_natCast] at this
    · intro u a b
      rw [hs]
      have hblk : ∀ j, findSpan n p uu U - (mult U 0 (n + p + 1) uu : ℤ) < j →
          j ≤ findSpan n p uu U → U j = uu := by
        intro j x y
        exact (block_left hv.sorted b3 b4 (by omega) (by omega) j (by omega) (by omega)).mpr ⟨x, y⟩
      have hv' := insertKnotV_valid jk hv (r := r) (by omega) b1 b2 b3 b4 h1
      have e1 : insertKnotV jk n p U uu (findSpan n p uu U) r p = U p :=
        insertKnotV_lo _ _ _ _ _ _ _ (by omega) _ (by omega) (by omega)
      have e2 : insertKnotV jk n p U uu (findSpan n p uu U) r (n + r + 1) = U (n + 1) := by
        rw [insertKnotV_hi _ _ _ _ _ _ _ _ (by omega) (by omega)]; congr 1; ring
      have := insertKnot_curve jk jk jk je hv P (k := findSpan n p uu U)
        (s := mult U 0 (n + p + 1) uu) (r := r) (by omega) (by omega) (by omega)
        b1 b2 b3 b4 h1 hblk a b
      rwa [curvePoint_eq_curve _ hv a b, curvePoint_eq_curve _ hv' (by rw [e1]; exact a)
        (by rw [e2]; exact b)] at this

/-- C07: the in-range entries of the result do not depend on the initial contents of the output
and work arrays. -/
theorem C07_no_uninitialised (eps : K) (jk jk' : ℤ → K) (je je' : ℤ → E) {n : ℤ} {p : ℕ}
    {U : ℤ → K} (hpn : (p : ℤ) ≤ n) (P : ℤ → E) {uu : K} {r : ℕ}
    (hr : r + findMult eps (findSpan n p uu U) uu p U ≤ p)
    {V V' : ℤ → K} {Q Q' : ℤ → E} (h : BSp.InsertKnot eps jk je n p U P uu r = .ok (V, Q))
    (h' : BSp.InsertKnot eps jk' je' n p U P uu r = .ok (V', Q')) :
    (∀ j, 0 ≤ j → j ≤ n + r + p + 1 → V j = V' j) ∧ ∀ i, 0 ≤ i → i ≤ n + r → Q i = Q' i := by
  unfold BSp.InsertKnot at h h'
  have hk := findSpan_range (U := U) uu (by omega : (0 : ℤ) ≤ p) hpn
  have hs0 := findMult_nonneg eps (findSpan n p uu U) uu p U
  by_cases hc : n ≥ 1 ∧ (p : ℤ) ≥ 1 ∧ (uu ≥ U p ∧ uu ≤ U (n + 1)) ∧ ((r : ℤ) ≥ 0 ∧ (r : ℤ) ≤ p)
  · rw [if_pos hc] at h h'
    by_cases h0 : (r : ℤ) = 0
    · rw [if_pos h0] at h h'
      obtain ⟨rfl, rfl⟩ := Prod.ext_iff.mp (Except.ok.inj h)
      obtain ⟨rfl, rfl⟩ := Prod.ext_iff.mp (Except.ok.inj h')
      constructor
      · intro j a b
        dsimp only
        rw [fillRange_in _ _ _ _ _ (by omega) (by omega), fillRange_in _ _ _ _ _ (by omega) (by omega)]
      · intro j a b
        dsimp only
        rw [fillRange_in _ _ _ _ _ (by omega) (by omega), fillRange_in _ _ _ _ _ (by omega) (by omega)]
    · rw [if_neg h0] at h h'
      obtain ⟨rfl, rfl⟩ := Prod.ext_iff.mp (Except.ok.inj h)
      obtain ⟨rfl, rfl⟩ := Prod.ext_iff.mp (Except.ok.inj h')
      generalize findSpan n p uu U = k at *
      generalize findMult eps k uu p U = s at *
      constructor
      · intro j a b
        change insertKnotV _ _ _ _ _ _ _ j = insertKnotV _ _ _ _ _ _ _ j
        rcases (by omega : j ≤ k ∨ (k < j ∧ j ≤ k + r) ∨ k + r < j) with c | c | c
        · rw [insertKnotV_lo _ _ _ _ _ _ _ (by omega) _ a c,
            insertKnotV_lo _ _ _ _ _ _ _ (by omega) _ a c]
        · rw [insertKnotV_mid _ _ _ _ _ _ _ _ c.1 c.2, insertKnotV_mid _ _ _ _ _ _ _ _ c.1 c.2]
        · rw [insertKnotV_hi _ _ _ _ _ _ _ _ c (by omega),
            insertKnotV_hi _ _ _ _ _ _ _ _ c (by omega)]
      · intro i a b
        change insertKnotQ _ _ _ _ _ _ _ _ _ i = insertKnotQ _ _ _ _ _ _ _ _ _ i
        obtain ⟨c1, c2, c3, c4, c5⟩ := insertKnotQ_closed je n p U P uu k s r hs0 (by omega) hr
          hk.1 hk.2
        obtain ⟨d1, d2, d3, d4, d5⟩ := insertKnotQ_closed je' n p U P uu k s r hs0 (by omega) hr
          hk.1 hk.2
        rcases (by omega : i ≤ k - p ∨ (k - p < i ∧ i ≤ k - p + r) ∨ (k - p + r < i ∧ i < k - s) ∨
          (k - s ≤ i ∧ i < k - s + r) ∨ k - s + r ≤ i) with c | c | c | c | c
        · rw [c1 i a c, d1 i a c]
        · have e1 := c2 (i - (k - p)) (by omega) (by omega)
          have e2 := d2 (i - (k - p)) (by omega) (by omega)
          rw [show k - p + (i - (k - p)) = i by ring] at e1 e2
          rw [e1, e2]
        · rw [c3 i c.1 c.2, d3 i c.1 c.2]
        · have e1 := c4 (k + r - s - i) (by omega) (by omega)
          have e2 := d4 (k + r - s - i) (by omega) (by omega)
          rw [show k + r - (k + r - s - i) - s = i by ring] at e1 e2
          rw [e1, e2]
        · have e1 := c5 (i - r) (by omega) (by omega)
          have e2 := d5 (i - r) (by omega) (by omega)
          rw [show i - r + r = i by ring] at e1 e2
          rw [e1, e2]
  · rw [if_neg hc] at h; exact absurd h (by simp)

/-- hypotheses of C07: insert 3/2 twice, and 1 (already a knot) once, in `Ex.U` -/
example := C07_InsertKnot (eps := 1 / 1000) (by norm_num) (fun _ => 7) (fun _ => (9 : ℚ)) Ex.U_valid
  (vec [0, 1, 4, 2, 5, 3]) (uu := 3 / 2) (by decide +kernel) (by decide +kernel)
  (Ex.U_sep _ (by decide +kernel)) (r := 2) (by decide +kernel)
example := C07_InsertKnot (eps := 1 / 1000) (by norm_num) (fun _ => 7) (fun _ => (9 : ℚ)) Ex.U_valid
  (vec [0, 1, 4, 2, 5, 3]) (uu := 1) (by decide +kernel) (by decide +kernel)
  (Ex.U_sep _ (by decide +kernel)) (r := 1) (by decide +kernel)
example : (BSp.InsertKnot (1 / 1000) (fun _ => 7) (fun _ => 9) 5 2 Ex.U
    (vec [0, 1, 4, 2, 5, 3] : ℤ → ℚ) 1 1).map (fun VQ =>
      ([0, 1, 2, 3, 4, 5, 6, 7, 8, 9].map VQ.1, [0, 1, 2, 3, 4, 5, 6].map VQ.2)) =
    .ok ([0, 0, 0, 1, 1, 2, 2, 3, 3, 3], [0, 1, 5 / 2, 4, 2, 5, 3]) := by decide +kernel

/-! ## C08 -/

/-- C08 (refutation, general): on every unclamped valid knot vector whose right end has
multiplicity `s`, `1 ≤ s < p`, inserting the right end is accepted for every admissible `r ≥ 1`,
but for the net whose only nonzero control point is the last one, `e`, the returned curve is 0
and the old curve is a positive multiple of `e` at every parameter inside the last span. -/
theorem C08_right_end_wrong {eps : K} (heps : 0 < eps) (jk : ℤ → K) (je : ℤ → E) {n : ℤ} {p : ℕ}
    {U : ℤ → K} (hv : ValidKnots n p U) (hsep : SepFrom eps (U (n + 1)) U 0 (n + p + 1))
    {r : ℕ} (hr1 : 1 ≤ r) (hr : r + mult U 0 (n + p + 1) (U (n + 1)) ≤ p) (e : E) :
    ∃ V Q, BSp.InsertKnot eps jk je n p U (fun i => if i = n then e else 0) (U (n + 1)) r =
        .ok (V, Q) ∧
      V p = U p ∧ V (n + r + 1) = U (n + 1) ∧
      ∀ u : K, U n < u → u < U (n + 1) → curve (n + r) p V Q u = 0 ∧
        ∃ c : K, 0 < c ∧ curve n p U (fun i => if i = n then e else 0) u = c • e := by
  have hp := hv.one_le
  have hle := hv.le
  have hlt : U p < U (n + 1) :=
    lt_of_le_of_lt (hv.sorted p n (by omega) (by omega) (by omega)) hv.last
  have hk : findSpan n p (U (n + 1)) U = n := findSpan_ge (le_refl _)
  have hs := findMult_last heps hv hsep
  have hs1 := one_le_mult (U := U) (lo := 0) (hi := n + p + 1) (i := n + 1) (by omega) (by omega)
  refine ⟨insertKnotV jk n p U (U (n + 1)) n r,
    insertKnotQ je n p U (fun i => if i = n then e else 0) (U (n + 1)) n
      (mult U 0 (n + p + 1) (U (n + 1))) r, ?_, ?_, ?_, ?_⟩
  · unfold BSp.InsertKnot
    rw [if_pos ⟨by omega, hp, ⟨hlt.le, le_refl _⟩, by omega, by omega⟩, if_neg (by omega), hk]
    dsimp only
    rw [hs]
    rfl
  · exact insertKnotV_lo jk n p U (U (n + 1)) n r (by omega) _ (by omega) hle
  · rw [insertKnotV_hi jk n p U (U (n + 1)) n r _ (by omega) (by omega)]; congr 1; ring
  · intro u h1 h2
    set s := mult U 0 (n + p + 1) (U (n + 1)) with hsdef
    have hpu : U p < u := lt_of_le_of_lt (hv.sorted p n (by omega) (by omega) (by omega)) h1
    constructor
    · obtain ⟨c1, c2, c3, c4, c5⟩ := insertKnotQ_closed je n p U (fun i => if i = n then e else 0)
        (U (n + 1)) n s r (by omega) (by omega) (by omega) hle (le_refl _)
      have V1 := insertKnotV_lo jk n p U (U (n + 1)) n r (by omega)
      have V2 := insertKnotV_mid jk n p U (U (n + 1)) n r
      have V3 := insertKnotV_hi jk n p U (U (n + 1)) n r
      have hsrt := insertKnotV_sorted jk hv.sorted (uu := U (n + 1)) (k := n) (r := r) (by omega)
        (by omega) (by omega) hv.last.le (le_refl _)
      have hsp : SpanOf (n + r) p (insertKnotV jk n p U (U (n + 1)) n r) n u := by
        refine ⟨hle, by omega, Or.inl ⟨?_, ?_⟩⟩
        · rw [V1 _ (by omega) (le_refl _)]; exact h1.le
        · rw [V2 _ (by omega) (by omega)]; exact h2
      rw [hsp.curve_sum hsrt]
      apply Finset.sum_eq_zero
      intro x hx
      have hx := Finset.mem_range.mp hx
      have hq : insertKnotQ je n p U (fun i => if i = n then e else 0) (U (n + 1)) n s r
          (n - p + x) = 0 := by
        generalize hi : n - (p : ℤ) + x = i
        have hi0 : 0 ≤ i := by omega
        have hin : i ≤ n := by omega
        rcases (by omega : i ≤ n - p ∨ (n - p < i ∧ i ≤ n - p + r) ∨ (n - p + r < i ∧ i < n - s) ∨
          (n - s ≤ i ∧ i < n - s + r) ∨ n - s + r ≤ i) with c | c | c | c | c
        · rw [c1 i hi0 c, if_neg (by omega)]
        · have e1 := c2 (i - (n - p)) (by omega) (by omega)
          rw [show n - p + (i - (n - p)) = i by ring] at e1
          rw [e1]
          exact rt_zero _ _ (fun l a b => if_neg (by omega))
        · rw [c3 i c.1 c.2]
          exact rt_zero _ _ (fun l a b => if_neg (by omega))
        · have e1 := c4 (n + r - s - i) (by omega) (by omega)
          rw [show n + r - (n + r - s - i) - s = i by ring] at e1
          rw [e1]
          exact rt_zero _ _ (fun l a b => if_neg (by omega))
        · have e1 := c5 (i - r) (by omega) (by omega)
          rw [show i - r + r = i by ring] at e1
          rw [e1, if_neg (by omega)]
      rw [hq, smul_zero]
    · refine ⟨_, piece_last_pos h1 p (fun j a b => lt_of_lt_of_le hv.last
          (hv.sorted _ _ (by omega) (by omega) (by omega))), ?_⟩
      have hsp : SpanOf n p U n u := ⟨hle, le_rfl, Or.inl ⟨h1.le, h2⟩⟩
      rw [hsp.curve_sum hv.sorted, Finset.sum_eq_single p]
      · rw [if_pos (by omega), show n - (p : ℤ) + (p : ℕ) = n by ring]
      · intro b hb hb'
        have hb := Finset.mem_range.mp hb
        rw [if_neg (by omega), smul_zero]
      · intro h; exact absurd (Finset.mem_range.mpr (by omega)) h

example := C08_right_end_wrong (eps := 1 / 1000) (by norm_num) (fun _ => 7) (fun _ => 9) Ex.W_valid
  (Ex.W_sep _ (by decide +kernel)) (r := 1) (by decide) (by decide +kernel) (1 : ℚ)
/-- what the code returns for the uniform quadratic: the correct third point is 3/2 -/
example : (BSp.InsertKnot (1 / 1000) (fun _ => 7) (fun _ => 9) 2 2 Ex.W (vec [0, 1, 2] : ℤ → ℚ) 1 1).map
    (fun VQ => ([0, 1, 2, 3, 4, 5, 6].map VQ.1, [0, 1, 2, 3].map VQ.2)) =
    .ok ([-2, -1, 0, 1, 1, 2, 3], [0, 1, 1, 2]) := by decide +kernel

/-! ## C11 -/

/-- C11, interior and left end: `bsp.Extract` equals the curve point. -/
theorem C11_Extract {eps : K} (heps : 0 < eps) (je : ℤ → E) {n : ℤ} {p : ℕ}
    {U : ℤ → K} (hv : ValidKnots n p U) (P : ℤ → E) {u : K} (h1 : U p ≤ u) (h2 : u < U (n + 1))
    (hsep : SepFrom eps u U 0 (n + p + 1)) (hm : mult U 0 (n + p + 1) u ≤ p + 1) :
    BSp.Extract eps je n p U P u = .ok (curve n p U P u) := by
  have hp := hv.one_le
  have hle := hv.le
  unfold BSp.Extract
  rw [if_pos (by omega), extract_eq_of_lt heps je U hv P h1 h2 hsep hm,
    curvePoint_eq_curve _ hv h1 h2.le]

/-- C11, right end: clamped (multiplicity at least `p`) or of multiplicity one. -/
theorem C11_Extract_right {eps : K} (heps : 0 < eps) (je : ℤ → E) {n : ℤ} {p : ℕ}
    {U : ℤ → K} (hv : ValidKnots n p U) (P : ℤ → E)
    (hsep : SepFrom eps (U (n + 1)) U 0 (n + p + 1))
    (hm : mult U 0 (n + p + 1) (U (n + 1)) = 1 ∨ p ≤ mult U 0 (n + p + 1) (U (n + 1))) :
    BSp.Extract eps je n p U P (U (n + 1)) = .ok (curve n p U P (U (n + 1))) := by
  have hp := hv.one_le
  have hle := hv.le
  have hlt : U p < U (n + 1) :=
    lt_of_le_of_lt (hv.sorted p n (by omega) (by omega) (by omega)) hv.last
  unfold BSp.Extract
  rw [if_pos (by omega), extract_eq_last heps je U hv P hsep hm,
    curvePoint_eq_curve _ hv hlt.le (le_refl _)]

example := C11_Extract (eps := 1 / 1000) (by norm_num) (fun _ => (9 : ℚ)) Ex.U_valid
  (vec [0, 1, 4, 2, 5, 3]) (u := 1) (by decide +kernel) (by decide +kernel)
  (Ex.U_sep _ (by decide +kernel)) (by decide +kernel)
example := C11_Extract (eps := 1 / 1000) (by norm_num) (fun _ => (9 : ℚ)) Ex.W_valid
  (vec [0, 1, 4]) (u := 0) (by decide +kernel) (by decide +kernel)
  (Ex.W_sep _ (by decide +kernel)) (by decide +kernel)
example := C11_Extract_right (eps := 1 / 1000) (by norm_num) (fun _ => (9 : ℚ)) Ex.W_valid
  (vec [0, 1, 4]) (Ex.W_sep _ (by decide +kernel)) (Or.inl (by decide +kernel))
example := C11_Extract_right (eps := 1 / 1000) (by norm_num) (fun _ => (9 : ℚ)) Ex.U_valid
  (vec [0, 1, 4, 2, 5, 3]) (Ex.U_sep _ (by decide +kernel)) (Or.inr (by decide +kernel))

/-! ## C12 -/

/-- C12 (refutation, general): whenever the right end knot has multiplicity `s` with `2 ≤ s < p`
and only the last control point `e` is nonzero, `bsp.Extract` at the right end returns 0 although
the curve point there is a positive multiple of `e`. -/
theorem C12_right_end_wrong {eps : K} (heps : 0 < eps) (je : ℤ → E) {n : ℤ} {p : ℕ}
    {U : ℤ → K} (hv : ValidKnots n p U) (hsep : SepFrom eps (U (n + 1)) U 0 (n + p + 1))
    (h2 : 2 ≤ mult U 0 (n + p + 1) (U (n + 1))) (hlt : mult U 0 (n + p + 1) (U (n + 1)) < p) (e : E) :
    BSp.Extract eps je n p U (fun i => if i = n then e else 0) (U (n + 1)) = .ok 0 ∧
      ∃ c : K, 0 < c ∧ curve n p U (fun i => if i = n then e else 0) (U (n + 1)) = c • e := by
  have hp := hv.one_le
  have hle := hv.le
  have hpu : U p < U (n + 1) :=
    lt_of_le_of_lt (hv.sorted p n (by omega) (by omega) (by omega)) hv.last
  refine ⟨?_, ?_⟩
  · unfold BSp.Extract
    rw [if_pos (by omega)]
    unfold curvePntByCornerCut
    simp only
    rw [if_neg (not_le.mpr hpu), if_pos (le_refl _), findMult_last heps hv hsep, if_neg (by omega),
      cornerCutTail_eq _ _ _ _ _ _ _ (by omega) (by omega)]
    rw [rt_zero _ _ (fun l a b => if_neg (by omega))]
  · refine ⟨_, piece_last_pos hv.last p (fun j a b => lt_of_lt_of_le hv.last
        (hv.sorted _ _ (by omega) (by omega) (by omega))), ?_⟩
    have hsp : SpanOf n p U n (U (n + 1)) := ⟨hle, le_rfl, Or.inr ⟨hv.last, rfl, rfl⟩⟩
    rw [hsp.curve_sum hv.sorted, Finset.sum_eq_single p]
    · rw [if_pos (by omega), show n - (p : ℤ) + (p : ℕ) = n by ring]
    · intro b hb hb'
      have hb := Finset.mem_range.mp hb
      rw [if_neg (by omega), smul_zero]
    · intro h; exact absurd (Finset.mem_range.mpr (by omega)) h

example := C12_right_end_wrong (eps := 1 / 1000) (by norm_num) (fun _ => 9) Ex.R_valid
  (Ex.R_sep _ (by decide +kernel)) (by decide +kernel) (by decide +kernel) (1 : ℚ)
example : BSp.Extract (1 / 1000) (fun _ => 9) 4 3 Ex.R (vec [0, 1, 4, 2, 5] : ℤ → ℚ) 2 = .ok 2 ∧
    curve 4 3 Ex.R (vec [0, 1, 4, 2, 5] : ℤ → ℚ) 2 = 7 / 2 := by decide +kernel

end Igakit
