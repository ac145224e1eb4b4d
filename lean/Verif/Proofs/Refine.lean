import Verif.Proofs.Boehm
import Verif.Proofs.Clamp

/-!
# `RefineKnotVector`: each pass of the outer loop is one knot insertion

The arrays `Ubar`, `Qw` in the middle of the backward merge describe a complete knot vector `T` and
net `C`: entries not yet moved are read from `U`, `Pw`, the others from `Ubar`, `Qw` at an offset.
-/

set_option linter.unusedSectionVars false

namespace Igakit
open Spec

variable {K : Type*} [Field K] [LinearOrder K] [IsStrictOrderedRing K]
variable {E : Type*} [AddCommGroup E] [Module K E]

/-- `T`, `C` is the spline described by the partially merged arrays -/
structure RAbs (n : ℤ) (p : ℕ) (U : ℤ → K) (P : ℤ → E) (a N j : ℤ) (s : RefineSt K E)
    (T : ℤ → K) (C : ℤ → E) : Prop where
  hk : s.k = s.i + j + 1
  ia : a ≤ s.i
  iN : s.i ≤ n + p
  tlo : ∀ y, 0 ≤ y → y ≤ s.i → T y = U y
  thi : ∀ y, s.i < y → y ≤ N + p + 1 → T y = s.Ubar (y + j + 1)
  clo : ∀ y, 0 ≤ y → y ≤ s.i - p → C y = P y
  chi : ∀ y, s.i - p ≤ y → y ≤ N → C y = s.Qw (y + j + 1)
  ulo : ∀ y, 0 ≤ y → y ≤ a → s.Ubar y = U y
  qlo : ∀ y, 0 ≤ y → y ≤ a - p → s.Qw y = P y

theorem refineWhile_abs {n : ℤ} {p : ℕ} {U : ℤ → K} {P : ℤ → E} {a N j : ℤ} {T : ℤ → K} {C : ℤ → E}
    (hpa : (p : ℤ) ≤ a) (hj : 0 ≤ j) {x : K} :
    ∀ (fuel : ℕ) (s : RefineSt K E), (s.i - a).toNat ≤ fuel → RAbs n p U P a N j s T C →
      x ≤ T (s.i + 1) →
      RAbs n p U P a N j (refineWhile p U P x a fuel s) T C ∧
      x ≤ T ((refineWhile p U P x a fuel s).i + 1) ∧
      ¬ (x ≤ U (refineWhile p U P x a fuel s).i ∧ (refineWhile p U P x a fuel s).i > a) := by
  intro fuel
  induction fuel with
  | zero =>
    intro s hf h hx
    exact ⟨h, hx, fun hc => by have := hc.2; simp only [refineWhile] at this; omega⟩
  | succ fuel ih =>
    intro s hf h hx
    rw [refineWhile]
    by_cases hc : x ≤ U s.i ∧ s.i > a
    · rw [if_pos hc]
      have hk := h.hk; have ia := h.ia; have iN := h.iN
      apply ih
      · dsimp only; omega
      · refine ⟨?_, ?_, ?_, ?_, ?_, ?_, ?_, ?_, ?_⟩ <;> dsimp only
        · omega
        · omega
        · omega
        · intro y b c; exact h.tlo y b (by omega)
        · intro y b c
          by_cases e : y = s.i
          · rw [upd_eq _ _ (by omega), e, h.tlo _ (by omega) (le_refl _)]
          · rw [upd_ne _ _ (by omega)]; exact h.thi y (by omega) c
        · intro y b c; exact h.clo y b (by omega)
        · intro y b c
          by_cases e : y = s.i - p - 1
          · rw [upd_eq _ _ (by omega), e, h.clo _ (by omega) (by omega)]
          · rw [upd_ne _ _ (by omega)]; exact h.chi y (by omega) c
        · intro y b c
          rw [upd_ne _ _ (by omega)]; exact h.ulo y b c
        · intro y b c
          rw [upd_ne _ _ (by omega)]; exact h.qlo y b c
      · dsimp only
        rw [show s.i - 1 + 1 = s.i by ring, h.tlo _ (by omega) (le_refl _)]; exact hc.1
    · rw [if_neg hc]
      exact ⟨h, hx, hc⟩

/-- entry written by the inner loop -/
def refineNew (eps : K) (p : ℤ) (U : ℤ → K) (x : K) (i k : ℤ) (Ubar : ℤ → K) (Qw : ℤ → E)
    (z : ℤ) : E :=
  if |Ubar (z + 1 + p) - x| < eps then Qw (z + 1)
  else ((Ubar (z + 1 + p) - x) / (Ubar (z + 1 + p) - U (i - k + z + 1))) • Qw z +
    (1 - (Ubar (z + 1 + p) - x) / (Ubar (z + 1 + p) - U (i - k + z + 1))) • Qw (z + 1)

/-- the inner loop writes `p` combinations -/
theorem refineInner_spec (eps : K) (p : ℕ) (U : ℤ → K) (x : K) (i k : ℤ) (Ubar : ℤ → K)
    (Qw : ℤ → E) (z : ℤ) :
    refineInner eps p U x i k Ubar Qw z =
      if k - p ≤ z ∧ z ≤ k - 1 then refineNew eps p U x i k Ubar Qw z else Qw z := by
  unfold refineInner
  have h := forUp_inv (f := fun l (Qw : ℤ → E) =>
      let idx := k - (p : ℤ) + l
      let alpha := Ubar (k + l) - x
      if |alpha| < eps then upd Qw (idx - 1) (Qw idx)
      else
        let alpha := alpha / (Ubar (k + l) - U (i - p + l))
        upd Qw (idx - 1) (alpha • Qw (idx - 1) + (1 - alpha) • Qw idx))
    (fun l (R : ℤ → E) => ∀ z, R z = if k - p ≤ z ∧ z ≤ k - p + l - 2 then
        refineNew eps p U x i k Ubar Qw z else Qw z) (lo := 1) (hi := p) (s := Qw) (by omega)
    (by intro z; rw [if_neg (by omega)])
    (by
      intro l R h1 h2 hR z
      have e1 : R (k - p + l) = Qw (k - p + l) := by rw [hR, if_neg (by omega)]
      have e2 : R (k - p + l - 1) = Qw (k - p + l - 1) := by rw [hR, if_neg (by omega)]
      by_cases hz : z = k - p + l - 1
      · conv_rhs => rw [if_pos (by omega)]
        rw [hz]
        have e3 : k - (p : ℤ) + l - 1 + 1 + p = k + l := by ring
        have e4 : i - k + (k - (p : ℤ) + l - 1) + 1 = i - p + l := by ring
        have e5 : k - (p : ℤ) + l - 1 + 1 = k - p + l := by ring
        unfold refineNew
        rw [e3, e4, e5]
        split_ifs with hc
        · dsimp only; rw [if_pos hc, upd_same, e1]
        · dsimp only; rw [if_neg hc, upd_same, e1, e2]
      · have e6 : (let idx := k - (p : ℤ) + l
            let alpha := Ubar (k + l) - x
            if |alpha| < eps then upd R (idx - 1) (R idx)
            else
              let alpha := alpha / (Ubar (k + l) - U (i - p + l))
              upd R (idx - 1) (alpha • R (idx - 1) + (1 - alpha) • R idx)) z = R z := by
          dsimp only
          split_ifs with hc
          · rw [upd_ne _ _ hz]
          · rw [upd_ne _ _ hz]
        rw [e6, hR]
        by_cases hc : k - p ≤ z ∧ z ≤ k - p + l - 2
        · rw [if_pos hc, if_pos (by omega)]
        · rw [if_neg hc, if_neg (by omega)])
  have := h z
  rw [show k - (p : ℤ) + ((p : ℤ) + 1) - 2 = k - 1 by ring] at this
  exact this

/-- loop invariant of the outer loop -/
structure RInv (n : ℤ) (p : ℕ) (U : ℤ → K) (P : ℤ → E) (r : ℤ) (X : ℤ → K) (a : ℤ) (j : ℤ)
    (s : RefineSt K E) (T : ℤ → K) (C : ℤ → E) : Prop where
  abs : RAbs n p U P a (n + (r - j)) j s T C
  refn : IsRefn n p U P (n + (r - j)) T C (kn X j (r - j).toNat)
  last : T (n + (r - j) + 1) = U (n + 1)
  nxt : 0 ≤ j → X j ≤ T (s.i + 1)
  stop : j < r → ¬ (X (j + 1) ≤ U s.i ∧ s.i > a)

theorem refineOuter_inv {eps : K} (heps : 0 < eps) {n : ℤ} {p : ℕ} {U : ℤ → K}
    (hv : ValidKnots n p U) {P : ℤ → E} {r : ℤ} {X : ℤ → K} (hX : SortedOn X 0 r)
    (hlo : U p ≤ X 0) (hhi : X r ≤ U (n + 1))
    (hsU : ∀ j, 0 ≤ j → j ≤ r → SepFrom eps (X j) U 0 (n + p + 1))
    (hsX : ∀ j, 0 ≤ j → j ≤ r → SepFrom eps (X j) X 0 r)
    {a : ℤ} (ha1 : (p : ℤ) ≤ a) (ha2 : a ≤ n) (ha3 : U a ≤ X 0) (ha4 : X 0 ≤ U (a + 1))
    {j : ℤ} (hj0 : 0 ≤ j) (hjr : j ≤ r) {s : RefineSt K E} {T : ℤ → K} {C : ℤ → E}
    (h : RInv n p U P r X a j s T C) :
    ∃ T' C', RInv n p U P r X a (j - 1) (refineOuter eps p U P X a j s) T' C' := by
  have hp := hv.one_le
  have hle := hv.le
  obtain ⟨w1, w2, w3⟩ := refineWhile_abs ha1 hj0 (x := X j) (s.i - a).toNat s (le_refl _) h.abs
    (h.nxt hj0)
  unfold refineOuter
  dsimp only
  set s1 := refineWhile p U P (X j) a (s.i - a).toNat s with hs1
  clear_value s1
  have hk := w1.hk
  have hia := w1.ia
  have hiN := w1.iN
  -- position of the new knot
  have hXj0 : X 0 ≤ X j := hX 0 j (le_refl _) hj0 hjr
  have hXjr : X j ≤ X r := hX j r hj0 hjr (le_refl _)
  have hx1 : U s1.i ≤ X j := by
    by_cases e : s1.i = a
    · rw [e]; exact le_trans ha3 hXj0
    · by_contra hc
      exact w3 ⟨(not_le.mp hc).le, by omega⟩
  have hin : s1.i ≤ n := by
    by_cases e : s1.i = a
    · omega
    · by_contra hc
      have hlt : U s1.i < X j := by
        by_contra hcc
        exact w3 ⟨not_lt.mp hcc, by omega⟩
      have hzlt : U s1.i < U (n + 1) := lt_of_lt_of_le hlt (le_trans hXjr hhi)
      exact absurd (hv.sorted (n + 1) s1.i (by omega) (by omega) (by omega)) (not_le.mpr hzlt)
  have hxT : T s1.i ≤ X j := by rw [w1.tlo _ (by omega) (le_refl _)]; exact hx1
  -- the new virtual arrays
  set Qw := upd s1.Qw (s1.k - p - 1) (s1.Qw (s1.k - p)) with hQw
  set Q' := refineInner eps p U (X j) s1.i s1.k s1.Ubar Qw with hQ'
  set V' := upd s1.Ubar s1.k (X j) with hV'
  have hQw' : ∀ z, s1.k - p ≤ z → Qw z = s1.Qw z := fun z hz => upd_ne _ _ (by omega)
  refine ⟨fun y => if y ≤ s1.i then T y else if y = s1.i + 1 then X j else T (y - 1),
    fun y => if y ≤ s1.i - p then C y else Q' (y + j), ?_⟩
  have hC1 : ∀ y, s1.i - p ≤ y → y ≤ n + (r - j) → s1.Qw (y + j + 1) = C y := fun y b c =>
    (w1.chi y b c).symm
  have hnew : ∀ y, s1.i - p < y → y ≤ s1.i → Q' (y + j) =
      if |T (y + p) - X j| < eps then C y
      else ((T (y + p) - X j) / (T (y + p) - T y)) • C (y - 1) +
        (1 - (T (y + p) - X j) / (T (y + p) - T y)) • C y := by
    intro y b c
    rw [hQ', refineInner_spec, if_pos (by omega)]
    unfold refineNew
    have e1 : s1.Ubar (y + j + 1 + p) = T (y + p) := by
      rw [w1.thi _ (by omega) (by omega)]; congr 1; ring
    have e2 : U (s1.i - s1.k + (y + j) + 1) = T y := by
      rw [w1.tlo _ (by omega) c]; congr 1; omega
    have e3 : Qw (y + j + 1) = C y := by rw [hQw' _ (by omega), hC1 _ (by omega) (by omega)]
    have e4 : Qw (y + j) = C (y - 1) := by
      rw [hQw' _ (by omega), ← hC1 _ (by omega) (by omega)]; congr 1; ring
    rw [e1, e2, e3, e4]
  have hrefn : IsRefn n p U P (n + (r - j) + 1)
      (fun y => if y ≤ s1.i then T y else if y = s1.i + 1 then X j else T (y - 1))
      (fun y => if y ≤ s1.i - p then C y else Q' (y + j)) (X j ::ₘ kn X j (r - j).toNat) := by
    refine h.refn.step (by omega) (i := s1.i) (by omega) (by omega) hxT w2 ?_ ?_ ?_ ?_ ?_ ?_ <;>
      beta_reduce
    · intro z b c; rw [if_pos c]
    · rw [if_neg (by omega), if_pos rfl]
    · intro z b c; rw [if_neg (by omega), if_neg (by omega)]
    · intro y b c; rw [if_pos c]
    · intro y b c hlt
      rw [if_neg (by omega), hnew y b c]
      have hne : T (y + p) - T y ≠ 0 := sub_ne_zero.mpr (ne_of_gt hlt)
      split_ifs with hc
      · -- equal knots
        have hmem : T (y + p) ∈ knotMS T (n + (r - j) + p + 1) :=
          mem_knotMS.mpr ⟨y + p, by omega, by omega, rfl⟩
        have heq : T (y + p) = X j := by
          rw [h.refn.ms, Multiset.mem_add] at hmem
          rcases hmem with hm | hm
          · obtain ⟨z, z1, z2, z3⟩ := mem_knotMS.mp hm
            rcases hsU j hj0 hjr z z1 z2 with g | g
            · rw [← z3, g]
            · rw [z3, abs_sub_comm] at g; exact absurd hc (not_lt.mpr g)
          · obtain ⟨z, z1, z3⟩ := Multiset.mem_map.mp hm
            have z1 := Multiset.mem_range.mp z1
            rcases hsX j hj0 hjr (j + 1 + z) (by omega) (by omega) with g | g
            · rw [← z3, g]
            · rw [z3, abs_sub_comm] at g; exact absurd hc (not_lt.mpr g)
        rw [heq] at hne ⊢
        rw [div_self hne]; simp
      · have e : (X j - T y) / (T (y + p) - T y) =
            1 - (T (y + p) - X j) / (T (y + p) - T y) := by field_simp; ring
        rw [e, add_comm, sub_sub_cancel]
    · intro y b c
      rw [if_neg (by omega), hQ', refineInner_spec, if_neg (by omega), hQw' _ (by omega),
        ← hC1 _ (by omega) (by omega)]
      congr 1; ring
  have eN : n + (r - (j - 1)) = n + (r - j) + 1 := by ring
  have eM : kn X (j - 1) (r - (j - 1)).toNat = X j ::ₘ kn X j (r - j).toNat := by
    have : (r - (j - 1)).toNat = (r - j).toNat + 1 := by omega
    rw [this, kn_succ_first, show j - 1 + 1 = j by ring]
  refine ⟨?_, ?_, ?_, ?_, ?_⟩
  · rw [eN]
    refine ⟨?_, ?_, ?_, ?_, ?_, ?_, ?_, ?_, ?_⟩ <;> dsimp only
    · omega
    · omega
    · omega
    · intro y b c; rw [if_pos c]; exact w1.tlo y b c
    · intro y b c
      rw [if_neg (by omega), show y + (j - 1) + 1 = y + j by ring]
      split_ifs with g
      · rw [hV', upd_eq _ _ (by omega)]
      · rw [hV', upd_ne _ _ (by omega), w1.thi _ (by omega) (by omega)]; congr 1; ring
    · intro y b c; rw [if_pos c]; exact w1.clo y b c
    · intro y b c
      rw [show y + (j - 1) + 1 = y + j by ring]
      split_ifs with g
      · have e : y = s1.i - p := by omega
        rw [hQ', refineInner_spec, if_neg (by omega), hQw, upd_eq _ _ (by omega), e,
          ← hC1 _ (by omega) (by omega)]
        congr 1; omega
      · rfl
    · intro y b c
      rw [hV', upd_ne _ _ (by omega)]; exact w1.ulo y b c
    · intro y b c
      rw [hQ', refineInner_spec, if_neg (by omega), hQw]
      by_cases g : y = s1.k - p - 1
      · rw [upd_eq _ _ g]
        have e : s1.i = a := by omega
        have e2 : s1.k - (p : ℤ) = (s1.i - p) + j + 1 := by omega
        rw [e2, hC1 _ (by omega) (by omega), w1.clo _ (by omega) (by omega)]
        congr 1; omega
      · rw [upd_ne _ _ g]; exact w1.qlo y b c
  · rw [eN, eM]; exact hrefn
  · rw [eN]
    rw [if_neg (by omega)]
    split_ifs with g
    · omega
    · rw [← h.last]; congr 1; ring
  · intro hj
    dsimp only
    rw [if_neg (by omega), if_pos rfl]
    exact hX (j - 1) j hj (by omega) hjr
  · intro _
    dsimp only
    rw [show j - 1 + 1 = j by ring]
    exact w3

theorem findSpan_mono {n p : ℤ} {U : ℤ → K} (hv : ValidKnots n p U) {u v : K} (h1 : U p ≤ u)
    (huv : u ≤ v) (h2 : v ≤ U (n + 1)) : findSpan n p u U ≤ findSpan n p v U := by
  have hp := hv.one_le
  have hle := hv.le
  have r1 := findSpan_range (U := U) u (by omega : (0 : ℤ) ≤ p) hle
  have r2 := findSpan_range (U := U) v (by omega : (0 : ℤ) ≤ p) hle
  by_contra hc
  have s1 := findSpan_inSpan hv h1 (le_trans huv h2)
  rcases h2.eq_or_lt with e | e
  · rw [findSpan_ge e.ge] at hc; omega
  · have hlt : v < U (findSpan n p v U + 1) := by
      rcases (le_trans h1 huv).eq_or_lt with e' | e'
      · rw [findSpan_le e e'.ge, ← e']; exact hv.first
      · exact (findSpan_mid (by omega) hle e' e).2.2.2
    have := hv.sorted (findSpan n p v U + 1) (findSpan n p u U) (by omega) (by omega) (by omega)
    exact absurd (lt_of_lt_of_le hlt (le_trans this s1.left)) (not_lt.mpr huv)

/-- result of `RefineKnotVector` -/
theorem refineKnotVector_refn {eps : K} (heps : 0 < eps) (jk : ℤ → K) (je : ℤ → E) {n : ℤ} {p : ℕ}
    {U : ℤ → K} (hv : ValidKnots n p U) (P : ℤ → E) {r : ℤ} (hr : -1 ≤ r) {X : ℤ → K}
    (hX : SortedOn X 0 r)
    (hlo : ∀ j, 0 ≤ j → j ≤ r → U p ≤ X j) (hhi : ∀ j, 0 ≤ j → j ≤ r → X j ≤ U (n + 1))
    (hsU : ∀ j, 0 ≤ j → j ≤ r → SepFrom eps (X j) U 0 (n + p + 1))
    (hsX : ∀ j, 0 ≤ j → j ≤ r → SepFrom eps (X j) X 0 r) :
    IsRefn n p U P (n + r + 1) (refineKnotVector eps jk je n p U P r X).1
      (refineKnotVector eps jk je n p U P r X).2 (knotMS X r) ∧
    (∀ y : ℤ, 0 ≤ y → y ≤ p → (refineKnotVector eps jk je n p U P r X).1 y = U y) ∧
    (refineKnotVector eps jk je n p U P r X).1 (n + r + 2) = U (n + 1) := by
  have hp := hv.one_le
  have hle := hv.le
  unfold refineKnotVector
  by_cases h0 : r < 0
  · rw [if_pos h0]
    have e : r = -1 := by omega
    subst e
    have hU : ∀ j, 0 ≤ j → j ≤ n + p + 1 → fillRange jk 0 (n + p + 1) 0 U j = U j := by
      intro j a b; rw [fillRange_in _ _ _ _ _ (by omega) (by omega)]; simp
    have hP : ∀ j, 0 ≤ j → j ≤ n → fillRange je 0 n 0 P j = P j := by
      intro j a b; rw [fillRange_in _ _ _ _ _ (by omega) (by omega)]; simp
    refine ⟨?_, ?_, ?_⟩ <;> dsimp only
    · rw [show n + -1 + 1 = n by ring]
      exact (IsRefn.refl hv.sorted P).congr hU hP
    · intro y b c; exact hU y b (by omega)
    · rw [hU _ (by omega) (by omega)]; congr 1; ring
  · rw [if_neg h0]
    have hr0 : 0 ≤ r := by omega
    dsimp only
    have i0 := findSpan_inSpan hv (hlo 0 (le_refl _) hr0) (hhi 0 (le_refl _) hr0)
    have ir := findSpan_inSpan hv (hlo r hr0 (le_refl _)) (hhi r hr0 (le_refl _))
    have g0 := findSpan_range (U := U) (X 0) (by omega : (0 : ℤ) ≤ p) hle
    have gr := findSpan_range (U := U) (X r) (by omega : (0 : ℤ) ≤ p) hle
    set a := findSpan n p (X 0) U with ha
    set b := findSpan n p (X r) U + 1 with hb
    have hab : a ≤ b - 1 := by
      have hXX : X 0 ≤ X r := hX 0 r (le_refl _) hr0 (le_refl _)
      have : findSpan n p (X 0) U ≤ findSpan n p (X r) U := findSpan_mono hv (hlo 0 (le_refl _) hr0)
        hXX (hhi r hr0 (le_refl _))
      omega
    clear_value a b
    have hbs : b - 1 = findSpan n p (X r) U := by omega
    rw [← hbs] at ir gr
    set Q0 := fillRange (fillRange je 0 (a - p) 0 fun j => P j) (b - 1) n (r + 1) fun j => P j with hQ0
    set V0 := fillRange (fillRange jk 0 a 0 fun j => U j) (b + p) (n + p + 1) (r + 1) fun j => U j
      with hV0
    have hinit : RInv n p U P r X a r
        { i := b + p - 1, k := b + p + r, Ubar := V0, Qw := Q0 } U P := by
      refine ⟨⟨?_, ?_, ?_, ?_, ?_, ?_, ?_, ?_, ?_⟩, ?_, ?_, ?_, ?_⟩ <;> try dsimp only
      · ring
      · omega
      · omega
      · intros; rfl
      · intro y c d
        rw [hV0, fillRange_in _ _ _ _ _ (by omega) (by omega)]; congr 1; ring
      · intros; rfl
      · intro y c d
        rw [hQ0, fillRange_in _ _ _ _ _ (by omega) (by omega)]; congr 1; ring
      · intro y c d
        rw [hV0, fillRange_out _ _ _ _ _ (by omega), fillRange_in _ _ _ _ _ (by omega) (by omega)]
        congr 1; ring
      · intro y c d
        rw [hQ0, fillRange_out _ _ _ _ _ (by omega), fillRange_in _ _ _ _ _ (by omega) (by omega)]
        congr 1; ring
      · rw [sub_self, add_zero]
        exact IsRefn.refl hv.sorted P
      · rw [sub_self, add_zero]
      · intro _
        refine le_trans ir.right (hv.sorted _ _ (by omega) (by omega) (by omega))
      · intro c; omega
    have hfin := forDown_inv (f := refineOuter eps p U P X a)
      (fun j s => ∃ T C, RInv n p U P r X a j s T C) (lo := 0) (hi := r) (by omega) ⟨U, P, hinit⟩
      (by
        rintro j s c d ⟨T, C, h⟩
        exact refineOuter_inv heps hv hX (hlo 0 (le_refl _) hr0) (hhi r hr0 (le_refl _)) hsU hsX
          g0.1 g0.2 i0.left i0.right c d h)
    obtain ⟨T, C, h⟩ := hfin
    set s := forDown r 0 (refineOuter eps p U P X a)
      { i := b + p - 1, k := b + p + r, Ubar := V0, Qw := Q0 } with hs
    clear_value s
    have hia : s.i = a := by
      have := h.abs.ia
      by_contra hc
      have iN := h.abs.iN
      refine h.stop (by omega) ⟨?_, by omega⟩
      rw [show (0 : ℤ) - 1 + 1 = 0 by ring]
      exact le_trans i0.right (hv.sorted _ _ (by omega) (by omega) (by omega))
    have eN : n + (r - (0 - 1)) = n + r + 1 := by ring
    have hT : ∀ y, 0 ≤ y → y ≤ n + r + 1 + p + 1 → s.Ubar y = T y := by
      intro y c d
      rcases le_or_gt y a with g | g
      · rw [h.abs.ulo y c g, h.abs.tlo y c (by omega)]
      · rw [h.abs.thi y (by omega) (by omega)]; congr 1; ring
    have hC : ∀ y, 0 ≤ y → y ≤ n + r + 1 → s.Qw y = C y := by
      intro y c d
      rcases le_or_gt y (a - p) with g | g
      · rw [h.abs.qlo y c g, h.abs.clo y c (by omega)]
      · rw [h.abs.chi y (by omega) (by omega)]; congr 1; ring
    have href := h.refn
    rw [eN] at href
    have eX : kn X (0 - 1) (r - (0 - 1)).toNat = knotMS X r := by
      rw [knotMS_eq_kn]; congr 1
    rw [eX] at href
    refine ⟨href.congr hT hC, ?_, ?_⟩
    · intro y c d
      rw [h.abs.ulo y c (by omega)]
    · have := h.last
      rw [eN] at this
      rw [hT _ (by omega) (by omega), ← this]; congr 1; ring

end Igakit
