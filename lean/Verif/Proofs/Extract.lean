import Verif.Proofs.Insert
import Verif.Proofs.Eval
import Verif.Proofs.FindMult

set_option linter.unusedSectionVars false

namespace Igakit
open Spec

variable {K : Type*} [Field K] [LinearOrder K] [IsStrictOrderedRing K]
variable {E : Type*} [AddCommGroup E] [Module K E]

theorem cornerCutTail_eq (je : ℤ → E) (p : ℕ) (U : ℤ → K) (P : ℤ → E) (uu : K) (k s : ℤ)
    (_hs : 0 ≤ s) (hsp : s ≤ p) :
    cornerCutTail je p U P uu k s = rt U P p uu k (p - s).toNat 0 := by
  unfold cornerCutTail
  simp only
  have h := forUp_inv (f := fun j Rw => cutPass U uu k (k - p + j) ((p : ℤ) - s - j) Rw)
    (fun j Rw => ∀ i, 0 ≤ i → i ≤ (p : ℤ) - s - (j - 1) → Rw i = rt U P p uu k (j - 1).toNat i)
    (lo := 1) (hi := (p : ℤ) - s)
    (s := forUp 0 ((p : ℤ) - s) (fun i Rw => upd Rw i (P (k - p + i))) je) (by omega)
    (by
      intro i h1 h2
      rw [forUp_fill (fun i => P (k - p + i)), if_pos (by omega)]
      rfl)
    (by
      intro j Rw h1 h2 ih i a b
      rw [cutPass_spec, if_pos (by omega), ih i (by omega) (by omega), ih (i + 1) (by omega)
        (by omega)]
      have e : (j + 1 - 1).toNat = (j - 1).toNat + 1 := by omega
      have e2 : (((j - 1).toNat + 1 : ℕ) : ℤ) = j := by omega
      rw [e, rt, e2])
  have := h 0 (by omega) (by omega)
  rw [this]
  congr 1
  omega

/-- corner cutting `p - s` times at a point of multiplicity `s` gives the diagonal of the form -/
theorem cornerCut_form {p : ℕ} {f : Multiset K → E} (hf : IsForm p f) {U : ℤ → K} {P : ℤ → E}
    {lo hi k : ℤ} (hr : Rep p U P lo hi f) (hw : Win U k p) (je : ℤ → E) {uu : K} {s : ℤ}
    (hs : 0 ≤ s) (hsp : s ≤ p) (hblk : ∀ j, k - s < j → j ≤ k → U j = uu)
    (hlo : lo ≤ k - p) (hhi : k - s ≤ hi) :
    cornerCutTail je p U P uu k s = f (Multiset.replicate p uu) := by
  rw [cornerCutTail_eq je p U P uu k s hs hsp,
    rt_form hf hr hw uu _ 0 (by omega) (le_refl _) (by omega) (by omega) (by omega)]
  rw [kn_const (x := uu) (fun l a b => hblk _ (by omega) (by omega)), ← Multiset.replicate_add]
  congr 2
  omega

theorem mult_le_of_first {n p : ℤ} {U : ℤ → K} (hv : ValidKnots n p U) :
    (mult U 0 (n + p + 1) (U p) : ℤ) ≤ p + 1 := by
  have hp := hv.one_le; have hn := hv.le
  have hsub : (Finset.Icc 0 (n + p + 1)).filter (fun i => U i = U p) ⊆ Finset.Icc 0 p := by
    intro x hx
    simp only [Finset.mem_filter, Finset.mem_Icc] at hx ⊢
    refine ⟨hx.1.1, ?_⟩
    by_contra hc
    have := hv.sorted (p + 1) x (by omega) (by omega) (by omega)
    rw [hx.2] at this
    exact absurd hv.first (not_lt.mpr this)
  have := Finset.card_le_card hsub
  rw [Int.card_Icc] at this
  unfold mult
  omega

theorem mult_le_of_last {n p : ℤ} {U : ℤ → K} (hv : ValidKnots n p U) :
    (mult U 0 (n + p + 1) (U (n + 1)) : ℤ) ≤ p + 1 := by
  have hp := hv.one_le; have hn := hv.le
  have hsub : (Finset.Icc 0 (n + p + 1)).filter (fun i => U i = U (n + 1)) ⊆
      Finset.Icc (n + 1) (n + p + 1) := by
    intro x hx
    simp only [Finset.mem_filter, Finset.mem_Icc] at hx ⊢
    refine ⟨?_, hx.1.2⟩
    by_contra hc
    have := hv.sorted x n (by omega) (by omega) (by omega)
    rw [hx.2] at this
    exact absurd hv.last (not_lt.mpr this)
  have := Finset.card_le_card hsub
  rw [Int.card_Icc] at this
  unfold mult
  omega

theorem one_le_mult {U : ℤ → K} {lo hi i : ℤ} (h1 : lo ≤ i) (h2 : i ≤ hi) :
    1 ≤ mult U lo hi (U i) := by
  unfold mult
  rw [Nat.one_le_iff_ne_zero, Finset.card_ne_zero]
  exact ⟨i, by simp [h1, h2]⟩

/-- interior and left end -/
theorem extract_eq_of_lt {eps : K} (heps : 0 < eps) (je : ℤ → E) (jk : ℤ → K) {n : ℤ} {p : ℕ}
    {U : ℤ → K} (hv : ValidKnots n p U) (P : ℤ → E) {u : K} (h1 : U p ≤ u) (h2 : u < U (n + 1))
    (hsep : SepFrom eps u U 0 (n + p + 1)) (hm : mult U 0 (n + p + 1) u ≤ p + 1) :
    curvePntByCornerCut eps je n p U P u = curvePoint jk n p U P u := by
  have hp := hv.one_le
  have hle := hv.le
  have hrg := findSpan_range (U := U) u (by omega : (0 : ℤ) ≤ p) hle
  have hin := findSpan_inSpan hv h1 h2.le
  have hw := win_of_valid hv hrg.1 hrg.2 hin.ne
  obtain ⟨f, hf, hr⟩ := exists_form P hw
  rw [curvePoint_form jk hv P h1 h2.le hf hr]
  -- the span and multiplicity used by the code
  have key : ∀ s : ℤ, s = mult U 0 (n + p + 1) u → (if s ≥ p then P (findSpan n p u U - p) else
      cornerCutTail je p U P u (findSpan n p u U) s) = f (Multiset.replicate p u) := by
    intro s hs
    have hlt : u < U (findSpan n p u U + 1) := by
      rcases h1.eq_or_lt with h | h
      · rw [findSpan_le h2 h.ge, ← h]; exact hv.first
      · exact (findSpan_mid (by omega) hle h h2).2.2.2
    have hb := block_left hv.sorted hin.left hlt (by omega) (by omega)
    have hblk : ∀ j, findSpan n p u U - s < j → j ≤ findSpan n p u U → 0 ≤ j → U j = u := by
      intro j a b c
      exact (hb j c (by omega)).mpr (by omega)
    split_ifs with hc
    · rw [hr _ (le_refl _) (by omega)]
      congr 1
      exact kn_const (fun l a b => hblk _ (by omega) (by omega) (by omega))
    · exact cornerCut_form hf hr hw je (by omega) (by omega)
        (fun j a b => hblk j a b (by omega)) (le_refl _) (by omega)
  unfold curvePntByCornerCut
  simp only
  rcases h1.eq_or_lt with h | h
  · rw [if_pos h.ge, findMult_first heps hv (by rw [h]; exact hsep)]
    have hk : findSpan n p u U = p := findSpan_le h2 h.ge
    have := key _ rfl
    rw [hk, sub_self] at this
    rw [h]
    exact this
  · rw [if_neg (not_le.mpr h), if_neg (not_le.mpr h2)]
    obtain ⟨b1, b2, b3, b4⟩ := findSpan_mid (by omega) hle h h2
    rw [findMult_mid heps hv b1 b2 b3 b4 hsep (by exact_mod_cast hm)]
    exact key _ rfl

/-- right end, clamped or of multiplicity one -/
theorem extract_eq_last {eps : K} (heps : 0 < eps) (je : ℤ → E) (jk : ℤ → K) {n : ℤ} {p : ℕ}
    {U : ℤ → K} (hv : ValidKnots n p U) (P : ℤ → E)
    (hsep : SepFrom eps (U (n + 1)) U 0 (n + p + 1))
    (hm : mult U 0 (n + p + 1) (U (n + 1)) = 1 ∨ p ≤ mult U 0 (n + p + 1) (U (n + 1))) :
    curvePntByCornerCut eps je n p U P (U (n + 1)) = curvePoint jk n p U P (U (n + 1)) := by
  have hp := hv.one_le
  have hle := hv.le
  have hk : findSpan n p (U (n + 1)) U = n := findSpan_ge (le_refl _)
  have hlt : U p < U (n + 1) :=
    lt_of_le_of_lt (hv.sorted p n (by omega) (by omega) (by omega)) hv.last
  have hw := win_of_valid hv hle (le_refl n) hv.last
  obtain ⟨f, hf, hr⟩ := exists_form P hw
  rw [curvePoint_form jk hv P hlt.le (le_refl _) hf (by rw [hk]; exact hr)]
  have hb := block_right hv.sorted hv.last (le_refl _) (by omega) (by omega)
  unfold curvePntByCornerCut
  simp only
  rw [if_neg (not_le.mpr hlt), if_pos (le_refl _), findMult_last heps hv hsep]
  set s : ℕ := mult U 0 (n + p + 1) (U (n + 1)) with hs
  split_ifs with hc
  · rw [hr n (by omega) (le_refl _)]
    congr 1
    exact kn_const (fun l a b => (hb _ (by omega) (by omega)).mpr (by omega))
  · have hs1 : s = 1 := by omega
    rw [hs1]
    have hlt2 : U (n + 1) < U (n + 1 + 1) := by
      refine lt_of_le_of_ne (hv.sorted _ _ (by omega) (by omega) (by omega)) (fun e => ?_)
      have := (hb (n + 1 + 1) (by omega) (by omega)).mp e.symm
      omega
    have hw' : Win U (n + 1) p := Win.of_sorted hv.sorted hlt2 (by omega) (by omega)
    refine cornerCut_form hf hr hw' je (by omega) (by exact_mod_cast hp) ?_ (by omega) (by omega)
    intro j a b
    have : j = n + 1 := by push_cast at a; omega
    rw [this]

end Igakit
