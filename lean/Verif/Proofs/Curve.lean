import Verif.Proofs.Form

/-!
# Evaluation of a curve, and change of span
-/

set_option linter.unusedSectionVars false

namespace Igakit
open Spec

variable {K : Type*} [Field K] [LinearOrder K] [IsStrictOrderedRing K]
variable {E : Type*} [AddCommGroup E] [Module K E]

theorem curvePoint_eq_sum (jk : ℤ → K) (n : ℤ) (p : ℕ) (U : ℤ → K) (P : ℤ → E) (u : K) :
    curvePoint jk n p U P u = ∑ r ∈ Finset.range (p + 1),
      piece U (findSpan n p u U) p (findSpan n p u U - p + r) u • P (findSpan n p u U - p + r) := by
  unfold curvePoint
  simp only
  rw [forUp_sum (fun j => basisFuns jk (findSpan n p u U) u p U j • P (findSpan n p u U - p + j)),
    zero_add]
  apply Finset.sum_congr rfl
  intro r hr
  have := Finset.mem_range.mp hr
  rw [basisFuns_piece jk (findSpan n p u U) u p U r (by omega) (by omega)]

theorem win_of_valid {n : ℤ} {p : ℕ} {U : ℤ → K} (hv : ValidKnots n p U) {k : ℤ}
    (h1 : (p : ℤ) ≤ k) (h2 : k ≤ n) (hne : U k < U (k + 1)) : Win U k p :=
  Win.of_sorted hv.sorted hne (by omega) (by omega)

/-- The curve point is the diagonal of the form of its span. -/
theorem curvePoint_form (jk : ℤ → K) {n : ℤ} {p : ℕ} {U : ℤ → K} (hv : ValidKnots n p U)
    (P : ℤ → E) {u : K} (h1 : U p ≤ u) (h2 : u ≤ U (n + 1)) {f : Multiset K → E} (hf : IsForm p f)
    (hr : Rep p U P (findSpan n p u U - p) (findSpan n p u U) f) :
    curvePoint jk n p U P u = f (Multiset.replicate p u) := by
  rw [curvePoint_eq_sum]
  have hrg := findSpan_range (U := U) u (by omega : (0 : ℤ) ≤ p) hv.le
  exact sum_piece_form hf hr (win_of_valid hv hrg.1 hrg.2 (findSpan_inSpan hv h1 h2).ne) u

/-- Two forms representing the same control points on a nonempty span coincide. -/
theorem form_unique {p : ℕ} {f g : Multiset K → E} (hf : IsForm p f) (hg : IsForm p g)
    {U : ℤ → K} {P : ℤ → E} {k : ℤ} (hw : Win U k p) (h1 : Rep p U P (k - p) k f)
    (h2 : Rep p U P (k - p) k g) {m : Multiset K} (hm : m.card = p) : f m = g m := by
  have hlen : m.toList.length = p := by rw [Multiset.length_toList, hm]
  have a := db_form hf h1 hw m.toList k (by omega) (le_refl _) (by omega) (le_refl _)
  have b := db_form hg h2 hw m.toList k (by omega) (le_refl _) (by omega) (le_refl _)
  rw [a] at b
  simpa [hm] using b

/-- Pieces of adjacent nonempty spans agree on arguments that contain the knots between them. -/
theorem form_agree {p : ℕ} {f g : Multiset K → E} (hf : IsForm p f) (hg : IsForm p g)
    {U : ℤ → K} {P : ℤ → E} {k k' : ℤ} (hkk : k ≤ k') (_hle : k' ≤ k + p)
    (hw : Win U k p) (hw' : Win U k' p)
    (h1 : Rep p U P (k - p) k f) (h2 : Rep p U P (k' - p) k' g)
    {m : Multiset K} (hm : m.card + (k' - k).toNat = p) :
    f (m + kn U k (k' - k).toNat) = g (m + kn U k (k' - k).toNat) := by
  have hlen : (m.toList.length : ℤ) = p - (k' - k) := by rw [Multiset.length_toList]; omega
  have a := db_form hf h1 hw m.toList k (by omega) (le_refl _) (by omega) (le_refl _)
  have b := db_form hg h2 hw' m.toList k (by omega) (by omega) (by omega) (by omega)
  rw [a] at b
  have e : p - m.toList.length = (k' - k).toNat := by omega
  rw [e, Multiset.coe_toList] at b
  exact b

/-- At a knot of multiplicity at most `p` the two adjacent pieces have the same value. -/
theorem form_agree_knot {p : ℕ} {f g : Multiset K → E} (hf : IsForm p f) (hg : IsForm p g)
    {U : ℤ → K} {P : ℤ → E} {k k' : ℤ} (hkk : k ≤ k') (hle : k' ≤ k + p)
    (hw : Win U k p) (hw' : Win U k' p)
    (h1 : Rep p U P (k - p) k f) (h2 : Rep p U P (k' - p) k' g)
    {u : K} (hu : ∀ j, k < j → j ≤ k' → U j = u) :
    f (Multiset.replicate p u) = g (Multiset.replicate p u) := by
  have hkn : kn U k (k' - k).toNat = Multiset.replicate (k' - k).toNat u :=
    kn_const (fun l a b => hu _ (by omega) (by omega))
  have e : Multiset.replicate p u =
      Multiset.replicate (p - (k' - k).toNat) u + kn U k (k' - k).toNat := by
    rw [hkn, ← Multiset.replicate_add]; congr 1; omega
  rw [e]
  exact form_agree hf hg hkk hle hw hw' h1 h2 (by simp; omega)

/-- Transfer principle: if, on the spans containing `u`, every form of the old control points is a
form of the new ones, the curve points agree. -/
theorem curvePoint_transfer (jk jk' : ℤ → K) {n n' : ℤ} {p : ℕ} {U V : ℤ → K}
    (hv : ValidKnots n p U) (hv' : ValidKnots n' p V) (P Q : ℤ → E) {u : K}
    (h1 : U p ≤ u) (h2 : u ≤ U (n + 1)) (h1' : V p ≤ u) (h2' : u ≤ V (n' + 1))
    (h : ∀ f : Multiset K → E, IsForm p f →
      Rep p U P (findSpan n p u U - p) (findSpan n p u U) f →
      Rep p V Q (findSpan n' p u V - p) (findSpan n' p u V) f) :
    curvePoint jk' n' p V Q u = curvePoint jk n p U P u := by
  have hrg := findSpan_range (U := U) u (by omega : (0 : ℤ) ≤ p) hv.le
  obtain ⟨f, hf, hr⟩ := exists_form P
    (win_of_valid hv hrg.1 hrg.2 (findSpan_inSpan hv h1 h2).ne)
  rw [curvePoint_form jk hv P h1 h2 hf hr, curvePoint_form jk' hv' Q h1' h2' hf (h f hf hr)]

end Igakit
