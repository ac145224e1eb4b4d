import Verif.Model.BoundsApi
import Verif.Proofs.BoundsEval
import Verif.Proofs.BoundsKnots
import Verif.Proofs.BoundsRefine
import Verif.Proofs.BoundsRemove
import Verif.Proofs.BoundsElev
import Verif.Proofs.Nrb
import Verif.Spec.Elevate

set_option linter.unusedSectionVars false

/-!
# The checked wrappers and methods agree with the unchecked ones
-/

namespace Igakit
open Spec

section gen
variable {α β γ : Type}

theorem py_bind_congr {x : Res α} {f : α → Res β} {g : α → Run β} (h : ∀ a, x = .ok a → g a = py (f a)) :
    (py x >>= g) = py (x >>= f) := by
  cases x with
  | error e => rfl
  | ok a => exact h a rfl

theorem py_map_congr {x : Res α} (e : α → γ) {f : α → Res β} {g : γ → Run β} (h : ∀ a, x = .ok a → g (e a) = py (f a)) :
    (py (x >>= fun a => .ok (e a)) >>= g) = py (x >>= f) := by
  cases x with
  | error e => rfl
  | ok a => exact h a rfl

theorem ft_ok (a : α) : ft (.ok a : Chk α) = .ok a := rfl

theorem run_bind (a : α) (f : α → Run β) : ((.ok a : Run α) >>= f) = f a := rfl

end gen

variable {K : Type} [Field K] [LinearOrder K]
variable {E : Type} [AddCommGroup E] [Module K E]

theorem findSpanMultC_ok {n p : ℤ} (h0 : 0 ≤ p) (hpn : p ≤ n) (eps uu : K) (U : ℤ → K) :
    findSpanMultC eps n p uu ⟨0, n + p + 1, U⟩ = .ok (findSpan n p uu U, findMult eps (findSpan n p uu U) uu p U) := by
  obtain ⟨s1, s2⟩ := findSpan_range (U := U) uu h0 hpn
  unfold findSpanMultC
  rw [Arr.arg_ok le_rfl, ok_bind, findSpanC_ok h0 hpn le_rfl, ok_bind, findMultC_ok h0 s1 (by omega), ok_bind]

namespace BSp

theorem FindMultC_ok (eps : K) (p m : ℤ) (U : ℤ → K) (uu : K) (span : ℤ) (hs : span ≥ 0 → p ≤ span ∧ span ≤ m - (p + 1)) :
    FindMultC eps p m ⟨0, m, U⟩ uu span = py (FindMult eps p m U uu span) := by
  unfold FindMultC FindMult
  by_cases h : p ≥ 1 ∧ m ≥ 2 * p + 1
  · rw [if_pos h, if_pos h]
    by_cases hsp : span ≥ 0
    · obtain ⟨a, b⟩ := hs hsp
      simp only [if_pos hsp]
      rw [ok_bind, findMultC_ok (by omega) a (by omega)]
      rfl
    · obtain ⟨s1, s2⟩ := findSpan_range (n := m - (p + 1)) (p := p) (U := U) uu (by omega) (by omega)
      simp only [if_neg hsp]
      rw [findSpanC_ok (by omega) (by omega) (by omega), ok_bind, findMultC_ok (by omega) s1 (by omega)]
      rfl
  · rw [if_neg h, if_neg h]; rfl

theorem EvalBasisFunsC_ok (jk : ℤ → K) (p m : ℤ) (U : ℤ → K) (uu : K) (span : ℤ)
    (hs : span ≥ 0 → p ≤ span ∧ span + p ≤ m) :
    EvalBasisFunsC jk p m ⟨0, m, U⟩ uu span = py (EvalBasisFuns jk p m U uu span >>= fun N => .ok ⟨0, p, N⟩) := by
  unfold EvalBasisFunsC EvalBasisFuns
  by_cases h : p ≥ 1 ∧ m ≥ 2 * p + 1
  · rw [if_pos h, if_pos h]
    by_cases hsp : span ≥ 0
    · obtain ⟨a, b⟩ := hs hsp
      simp only [if_pos hsp]
      rw [ok_bind, basisFunsC_ok (by omega) a (by omega) le_rfl]
      rfl
    · obtain ⟨s1, s2⟩ := findSpan_range (n := m - (p + 1)) (p := p) (U := U) uu (by omega) (by omega)
      simp only [if_neg hsp]
      rw [findSpanC_ok (by omega) (by omega) (by omega), ok_bind, basisFunsC_ok (by omega) s1 (by omega) le_rfl]
      rfl
  · rw [if_neg h, if_neg h]; rfl

theorem EvalBasisFunsDersC_ok (jk : ℤ → K) (j2 ja jd : ℤ → ℤ → K) (p m : ℤ) (U : ℤ → K) (uu : K) (d span : ℤ)
    (hs : span ≥ 0 → p ≤ span ∧ span + p ≤ m) :
    EvalBasisFunsDersC jk j2 ja jd p m ⟨0, m, U⟩ uu d span =
      py (EvalBasisFunsDers jk j2 ja jd p m U uu d span >>= fun D => .ok ⟨0, p, 0, d, fun r l => D l r⟩) := by
  unfold EvalBasisFunsDersC EvalBasisFunsDers
  by_cases h : p ≥ 1 ∧ m ≥ 2 * p + 1 ∧ (d ≥ 0 ∧ d ≤ p)
  · rw [if_pos h, if_pos h]
    by_cases hsp : span ≥ 0
    · obtain ⟨a, b⟩ := hs hsp
      simp only [if_pos hsp]
      rw [ok_bind, dersBasisFunsC_ok (by omega) a (by omega) (by omega)]
      rfl
    · obtain ⟨s1, s2⟩ := findSpan_range (n := m - (p + 1)) (p := p) (U := U) uu (by omega) (by omega)
      simp only [if_neg hsp]
      rw [findSpanC_ok (by omega) (by omega) (by omega), ok_bind, dersBasisFunsC_ok (by omega) s1 (by omega) (by omega)]
      rfl
  · rw [if_neg h, if_neg h]; rfl

theorem countSpansLoop_ge (n : ℤ) (U : ℤ → K) : ∀ (fuel : ℕ) (i s : ℤ), s ≤ countSpansLoop n U fuel i s := by
  intro fuel
  induction fuel with
  | zero => intro i s; exact le_rfl
  | succ k ih =>
    intro i s
    unfold countSpansLoop
    split_ifs
    · exact le_trans (by omega) (ih _ (s + 1))
    · exact le_rfl

theorem countSpans_pos {n p : ℤ} (hpn : p ≤ n) (U : ℤ → K) : 1 ≤ countSpans n p U := by
  unfold countSpans
  rw [show (n + 1 - p).toNat = ((n - p).toNat) + 1 by omega]
  unfold countSpansLoop
  rw [if_pos hpn]
  exact countSpansLoop_ge n U _ _ (0 + 1)

theorem SpanIndexC_ok (eps : K) (ji : ℤ → ℤ) (p m : ℤ) (U : ℤ → K) :
    SpanIndexC eps ji p m ⟨0, m, U⟩ = py (SpanIndex eps ji p m U) := by
  unfold SpanIndexC SpanIndex
  by_cases h : p ≥ 1 ∧ m ≥ 2 * p + 1
  · rw [if_pos h, if_pos h]
    rw [countSpansC_ok (by omega) (by omega), ok_bind, spanIndexC_ok (by omega) (countSpans_pos (by omega) U), ok_bind]
    rfl
  · rw [if_neg h, if_neg h]; rfl

theorem GrevilleC_ok (jk : ℤ → K) (p m : ℤ) (U : ℤ → K) :
    GrevilleC jk p m ⟨0, m, U⟩ =
      py (Greville p m U >>= fun X => .ok ⟨0, m - (p + 1), fillRange jk 0 (m - (p + 1)) 0 X⟩) := by
  unfold GrevilleC Greville
  by_cases h : p ≥ 1 ∧ m ≥ 2 * p + 1
  · rw [if_pos h, if_pos h, grevilleC_ok (by omega)]; rfl
  · rw [if_neg h, if_neg h]; rfl

theorem InsertKnotC_ok [IsStrictOrderedRing K] (eps : K) (jk : ℤ → K) (je : ℤ → E) {n p : ℤ} (hpn : p ≤ n) (U : ℤ → K) (Pw : ℤ → E) (uu : K) (r : ℤ)
    (hr : r = 0 ∨ findMult eps (findSpan n p uu U) uu p U + r ≤ p) :
    InsertKnotC eps jk je n p ⟨0, n + p + 1, U⟩ ⟨0, n, Pw⟩ uu r =
      py (InsertKnot eps jk je n p U Pw uu r >>= fun VQ => .ok (⟨0, n + p + 1 + r, VQ.1⟩, ⟨0, n + r, VQ.2⟩)) := by
  unfold InsertKnotC InsertKnot
  by_cases h : n ≥ 1 ∧ p ≥ 1
  · rw [if_pos h, Arr.get_ok (by omega) (by omega), ft_ok, run_bind, Arr.get_ok (by omega) (by omega), ft_ok, run_bind]
    by_cases h2 : (uu ≥ U p ∧ uu ≤ U (n + 1)) ∧ (r ≥ 0 ∧ r ≤ p)
    · have h3 : n ≥ 1 ∧ p ≥ 1 ∧ (uu ≥ U p ∧ uu ≤ U (n + 1)) ∧ (r ≥ 0 ∧ r ≤ p) := ⟨h.1, h.2, h2⟩
      rw [if_pos h2, if_pos h3]
      by_cases h0 : r = 0
      · subst h0
        rw [if_pos rfl, if_pos rfl, copyC_ok, ok_bind, copyC_ok, ok_bind]
        simp only [add_zero]
        rfl
      · rw [if_neg h0, if_neg h0, findSpanMultC_ok (by omega) hpn, ok_bind]
        obtain ⟨s1, s2⟩ := findSpan_range (U := U) uu (by omega) hpn
        rw [insertKnotC_ok s1 s2 (findMult_nonneg _ _ _ _ _) h2.2.1 (hr.resolve_left h0)]
        rfl
    · rw [if_neg h2, if_neg (fun hh => h2 hh.2.2)]; rfl
  · rw [if_neg h, if_neg (fun hh => h ⟨hh.1, hh.2.1⟩)]; rfl

theorem RemoveKnotC_ok (eps : K) (jt : ℤ → E) (near : E → E → Prop) [DecidableRel near] {n p : ℤ} (hpn : p ≤ n) (U : ℤ → K)
    (Pw : ℤ → E) (uu : K) (r : ℤ)
    (hr : 1 ≤ r → U p < uu → uu < U (n + 1) → r ≤ findMult eps (findSpan n p uu U) uu p U ∧
      findMult eps (findSpan n p uu U) uu p U ≤ p ∧ p + r ≤ findSpan n p uu U) :
    RemoveKnotC eps jt near n p ⟨0, n + p + 1, U⟩ ⟨0, n, Pw⟩ uu r =
      py (RemoveKnot eps jt near n p U Pw uu r >>= fun VQ => .ok (VQ.1, ⟨0, n + p + 1, VQ.2.1⟩, ⟨0, n, VQ.2.2⟩)) := by
  unfold RemoveKnotC RemoveKnot
  by_cases h : n ≥ 1 ∧ p ≥ 1
  · rw [if_pos h, Arr.get_ok (by omega) (by omega), ft_ok, run_bind, Arr.get_ok (by omega) (by omega), ft_ok, run_bind]
    by_cases h2 : (uu ≥ U p ∧ uu ≤ U (n + 1)) ∧ (r ≥ 0 ∧ r ≤ p)
    · have h3 : n ≥ 1 ∧ p ≥ 1 ∧ (uu ≥ U p ∧ uu ≤ U (n + 1)) ∧ (r ≥ 0 ∧ r ≤ p) := ⟨h.1, h.2, h2⟩
      rw [if_pos h2, if_pos h3]
      by_cases h0 : r = 0
      · rw [if_pos h0, if_pos h0]; rfl
      rw [if_neg h0, if_neg h0]
      by_cases h5 : uu ≤ U p
      · rw [if_pos h5, if_pos h5]; rfl
      rw [if_neg h5, if_neg h5]
      by_cases h4 : uu ≥ U (n + 1)
      · rw [if_pos h4, if_pos h4]; rfl
      rw [if_neg h4, if_neg h4, findSpanMultC_ok (by omega) hpn, ok_bind]
      obtain ⟨s1, s2⟩ := findSpan_range (U := U) uu (by omega) hpn
      obtain ⟨r1, r2, r3⟩ := hr (by omega) (not_le.mp h5) (not_le.mp h4)
      dsimp only
      rw [removeKnotC_ok h.2 r1 r2 r3 s2 (by omega)]
      rfl
    · rw [if_neg h2, if_neg (fun hh => h2 hh.2.2)]; rfl
  · rw [if_neg h, if_neg (fun hh => h ⟨hh.1, hh.2.1⟩)]; rfl

theorem ClampC_ok [IsStrictOrderedRing K] {eps : K} (heps : 0 < eps) (je : ℤ → E) {n p : ℤ} (hpn : p ≤ n) (U : ℤ → K)
    (Pw : ℤ → E) (l r : Bool) :
    ClampC eps je n p ⟨0, n + p + 1, U⟩ ⟨0, n, Pw⟩ l r =
      py (Clamp eps je n p U Pw l r >>= fun VQ => .ok (⟨0, n + p + 1, VQ.1⟩, ⟨0, n, VQ.2⟩)) := by
  unfold ClampC Clamp
  by_cases h : n ≥ 1 ∧ p ≥ 1
  · rw [if_pos h, if_pos h, clampKnotC_ok heps h.2 hpn]; rfl
  · rw [if_neg h, if_neg h]; rfl

theorem UnclampC_ok [IsStrictOrderedRing K] {eps : K} (heps : 0 < eps) (je : ℤ → E) {n p C : ℤ} (hpn : p ≤ n) (hC0 : 0 ≤ C)
    (hC : C < p) (U : ℤ → K) (Pw : ℤ → E) (l r : Bool) :
    UnclampC eps je n p ⟨0, n + p + 1, U⟩ ⟨0, n, Pw⟩ C l r =
      py (Unclamp eps je n p U Pw C l r >>= fun VQ => .ok (⟨0, n + p + 1, VQ.1⟩, ⟨0, n, VQ.2⟩)) := by
  unfold UnclampC Unclamp
  by_cases h : n ≥ 1 ∧ p ≥ 1
  · rw [if_pos h, if_pos h, clampKnotC_ok heps h.2 hpn, ok_bind, unclampKnotC_ok hC hpn hC0]; rfl
  · rw [if_neg h, if_neg h]; rfl

theorem RefineKnotVectorC_ok (eps : K) (jk : ℤ → K) (je : ℤ → E) {n p r : ℤ} (hpn : p ≤ n) {U X : ℤ → K}
    (hX : ∀ j, 0 ≤ j → j ≤ r → ∀ i, n + 1 ≤ i → i ≤ n + p → X j ≤ U i) (Pw : ℤ → E) :
    RefineKnotVectorC eps jk je n p ⟨0, n + p + 1, U⟩ ⟨0, n, Pw⟩ r ⟨0, r, X⟩ =
      py (RefineKnotVector eps jk je n p U Pw r X >>= fun VQ =>
        .ok (⟨0, n + r + 1 + p + 1, VQ.1⟩, ⟨0, n + r + 1, VQ.2⟩)) := by
  unfold RefineKnotVectorC RefineKnotVector
  by_cases h : n ≥ 1 ∧ p ≥ 1 ∧ r > -2
  · rw [if_pos h, if_pos h, refineKnotVectorC_ok (by omega) hpn (by omega) hX]; rfl
  · rw [if_neg h, if_neg h]; rfl

theorem DegreeElevateC_ok [IsStrictOrderedRing K] {eps : K} (jk : ℤ → K) (je : ℤ → E) (jb : ℤ → ℤ → K) {n p : ℤ} {U : ℤ → K}
    (hU : ElevSafe eps n p U) (Pw : ℤ → E) {t : ℤ} (ht : t ≠ 0) :
    DegreeElevateC eps jk je jb n p ⟨0, n + p + 1, U⟩ ⟨0, n, Pw⟩ t =
      py (DegreeElevate eps jk je jb n p U Pw t >>= fun VQ =>
        .ok (VQ.1, ⟨0, n + t * countSpans n p U + p + t + 1, VQ.2.1⟩, ⟨0, n + t * countSpans n p U, VQ.2.2⟩)) := by
  have := hU.one_le
  unfold DegreeElevateC DegreeElevate
  by_cases h : n ≥ 1 ∧ p ≥ 1 ∧ t ≥ 0
  · rw [if_pos h, if_pos h, countSpansC_ok (by omega) (by omega), ok_bind]
    rw [degreeElevateC_ok hU (by omega) ?_, ok_bind]
    · rfl
    · have : spansFromC n U p ≤ countSpans n p U := by
        rw [C32_countSpans]
        unfold spansFromC
        split_ifs <;> omega
      have := mul_le_mul_of_nonneg_left this h.2.2
      omega
  · rw [if_neg h, if_neg h]; rfl

theorem ExtractC_ok [IsStrictOrderedRing K] {eps : K} (heps : 0 < eps) (je : ℤ → E) {n p : ℤ} (hpn : p ≤ n) (U : ℤ → K)
    (Pw : ℤ → E) (x : K) :
    ExtractC eps je n p ⟨0, n + p + 1, U⟩ ⟨0, n, Pw⟩ x = py (Extract eps je n p U Pw x) := by
  unfold ExtractC Extract
  by_cases h : n ≥ 1 ∧ p ≥ 1
  · rw [if_pos h, if_pos h, curvePntByCornerCutC_ok heps h.2 hpn]; rfl
  · rw [if_neg h, if_neg h]; rfl

end BSp

theorem iga_KnotVectorC_ok (jk : ℤ → K) (E p C : ℤ) (Ui Uf : K) (wrap : Bool) :
    iga_KnotVectorC jk E p C Ui Uf wrap =
      py (iga_KnotVector jk E p C Ui Uf wrap >>= fun V => .ok ⟨0, knotVectorM E p C, V⟩) := by
  by_cases h : E ≥ 1 ∧ p ≥ 1 ∧ (C ≥ 0 ∧ C < p)
  · obtain ⟨V, h1, h2⟩ := knotVectorC_ok h.1 h.2.1 h.2.2.1 h.2.2.2 jk Ui Uf wrap
    unfold iga_KnotVectorC
    rw [if_pos h, h1, h2]
    rfl
  · unfold iga_KnotVectorC iga_KnotVector
    rw [if_neg h, if_neg h]; rfl

/-- knots without gaps in the tolerance, clamped at the end, interior multiplicities at most `p` -/
theorem elevSafe_of [IsStrictOrderedRing K] {eps : K} (heps : 0 ≤ eps) {n p : ℤ} {U : ℤ → K} (hv : ValidKnots n p U)
    (hR : ClampedR n p U) (hm : MultLe n p U) (hg : Gaps eps n p U) : ElevSafe eps n p U := by
  have h1 := hv.one_le
  have h2 := hv.le
  refine ⟨h1, h2, heps, ne_of_lt hv.first, ?_, ?_, ?_⟩
  · have := hg n h2 le_rfl hv.last
    rw [abs_sub_comm]
    exact lt_of_lt_of_le this (le_abs_self _)
  · intro j a b
    rw [hR j a (by omega), hR (j + 1) (by omega) (by omega), sub_self, abs_zero]
    exact heps
  · intro i a b
    by_contra hcon
    push Not at hcon
    have heq : ∀ j, i ≤ j → j < i + p → U j = U (j + 1) := by
      intro j c d
      rcases (hv.sorted j (j + 1) (by omega) (by omega) (by omega)).lt_or_eq with hlt | he
      · have := hg j (by omega) (by omega) hlt
        have h' := hcon j c d
        rw [abs_sub_comm, abs_of_pos (by linarith)] at h'
        linarith
      · exact he
    have hall : ∀ k : ℕ, (k : ℤ) ≤ p → U (i + k) = U i := by
      intro k
      induction k with
      | zero => intro _; simp
      | succ k ih =>
        intro hk
        push_cast at hk ⊢
        rw [← add_assoc, ← heq (i + k) (by omega) (by omega), ih (by omega)]
    have hall' : ∀ j, i ≤ j → j ≤ i + p → U j = U i := by
      intro j c d
      have := hall (j - i).toNat (by omega)
      rwa [show i + ((j - i).toNat : ℤ) = j by omega] at this
    have hlo : U p < U i := lt_of_lt_of_le hv.first (hv.sorted (p + 1) i (by omega) (by omega) (by omega))
    have hhi : U i < U (n + 1) := by
      rw [← hall' (i + p) (by omega) le_rfl]
      exact lt_of_le_of_lt (hv.sorted (i + p) n (by omega) (by omega) (by omega)) hv.last
    have hcard := hm (U i) hlo hhi
    have : ((Finset.Icc i (i + p)).card : ℤ) ≤ mult U 0 (n + p + 1) (U i) := by
      unfold mult
      refine Int.ofNat_le.mpr (Finset.card_le_card ?_)
      intro x hx
      simp only [Finset.mem_Icc, Finset.mem_filter] at hx ⊢
      exact ⟨⟨by omega, by omega⟩, hall' x hx.1 hx.2⟩
    rw [Int.card_Icc] at this
    omega

/-- what `RemoveKnot` needs of an interior knot of exact multiplicity at most `p` -/
theorem removeSafe_of [IsStrictOrderedRing K] {eps : K} (heps : 0 < eps) {n p : ℤ} {U : ℤ → K} (hv : ValidKnots n p U)
    {uu : K} (h1 : U p < uu) (h2 : uu < U (n + 1)) (hsep : SepFrom eps uu U 0 (n + p + 1))
    (hm : (mult U 0 (n + p + 1) uu : ℤ) ≤ p) :
    findMult eps (findSpan n p uu U) uu p U = mult U 0 (n + p + 1) uu ∧
      p + findMult eps (findSpan n p uu U) uu p U ≤ findSpan n p uu U := by
  have a1 := hv.one_le
  have a2 := hv.le
  obtain ⟨k1, k2, k3, k4⟩ := findSpan_mid (by omega) a2 h1 h2
  have e := findMult_mid heps hv k1 k2 k3 k4 hsep (by omega)
  refine ⟨e, ?_⟩
  rw [e]
  have : (mult U 0 (n + p + 1) uu : ℤ) ≤ (Finset.Icc (p + 1) (findSpan n p uu U)).card := by
    unfold mult
    refine Int.ofNat_le.mpr (Finset.card_le_card ?_)
    intro x hx
    simp only [Finset.mem_Icc, Finset.mem_filter] at hx ⊢
    constructor
    · by_contra hc
      have := hv.sorted x p (by omega) (by omega) (by omega)
      rw [hx.2] at this
      exact absurd h1 (not_lt.mpr this)
    · by_contra hc
      have := hv.sorted (findSpan n p uu U + 1) x (by omega) (by omega) (by omega)
      rw [hx.2] at this
      exact absurd k4 (not_lt.mpr this)
  rw [Int.card_Icc] at this
  omega

end Igakit
