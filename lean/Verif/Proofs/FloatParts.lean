import Verif.Model.FloatParts
import Verif.Proofs.FloatRefine
import Verif.Proofs.Extract
import Verif.Proofs.Clamp

/-! # Corner cutting and clamping: the computation in floating point follows the exact one -/

set_option linter.unusedSectionVars false

namespace Igakit
open Spec

variable {K : Type} [Field K] [LinearOrder K] [IsStrictOrderedRing K]

namespace Fp

section sim

variable {rd : K → K} {Rel : ℕ → Fp K → K → Prop} (hmono : ∀ m a x, Rel m a x → Rel (m + 1) a x)
  (hstep : ∀ m u a b xF x yF y, a ≤ u → u < b → Rel m xF x → Rel m yF y →
    Rel (m + 1) (cutF rd u a b xF yF) ((u - a) / (b - a) * x + (1 - (u - a) / (b - a)) * y))
include hmono

theorem rel_le {m m' : ℕ} {a : Fp K} {x : K} (h : m ≤ m') (hr : Rel m a x) : Rel m' a x := by
  induction m', h using Nat.le_induction with
  | base => exact hr
  | succ q _ ih => exact hmono _ _ _ ih

include hstep

theorem cornerCutTail_rel {ι : Type} (c : ι) (jeF : ℤ → ι → Fp K) (je : ℤ → ι → K) {p : ℕ} {U : ℤ → K} {P : ℤ → ι → K} {uu : K}
    {k s : ℤ} (hs : s ≤ p) (hP : ∀ i, k - p ≤ i → i ≤ k - s → Rel 0 (some (P i c)) (P i c))
    (hU : ∀ i j : ℤ, 1 ≤ j → 0 ≤ i → i ≤ p - s - j → U (k - p + j + i) ≤ uu ∧ uu < U (i + k + 1)) :
    Rel (p - s).toNat (Fp.cornerCutTail rd jeF p U P uu k s c) (Igakit.cornerCutTail je p U P uu k s c) := by
  unfold Fp.cornerCutTail Igakit.cornerCutTail
  have key := forUp_rel (fun j (x : ℤ → ι → Fp K) (y : ℤ → ι → K) => 1 ≤ j ∧
      ∀ i, 0 ≤ i → i ≤ p - s → Rel (j - 1).toNat (x i c) (y i c))
    (lo := 1) (hi := (p : ℤ) - s)
    (f := fun j Rw => Fp.cutPass rd U uu k (k - p + j) (p - s - j) Rw)
    (g := fun j Rw => Igakit.cutPass U uu k (k - p + j) (p - s - j) Rw)
    (s := forUp 0 ((p : ℤ) - s) (fun i Rw => upd Rw i (fun c => some (P (k - p + i) c))) jeF)
    (t := forUp 0 ((p : ℤ) - s) (fun i Rw => upd Rw i (P (k - p + i))) je) (by omega)
    ⟨le_rfl, fun i a b => by
      rw [forUp_fill (fun i c => some (P (k - p + i) c)), if_pos (by omega), forUp_fill (fun i => P (k - p + i)), if_pos (by omega)]
      exact hP _ (by omega) (by omega)⟩
    (by
      rintro j x y a b ⟨-, ih⟩
      refine ⟨by omega, ?_⟩
      have := cutPass_rel hmono hstep c (U := U) (uu := uu) (k := k) (idx := k - p + j) (hi := p - s - j) (top := p - s)
        (by omega) (fun i i0 i1 => hU i j a i0 i1) ih
      rwa [show (j - 1).toNat + 1 = (j + 1 - 1).toNat by omega] at this)
  have := key.2 0 le_rfl (by omega)
  rwa [show ((p : ℤ) - s + 1 - 1).toNat = ((p : ℤ) - s).toNat by omega] at this

/-- the point found by corner cutting -/
theorem cornerCut_rel {ι : Type} (c : ι) {eps : K} (heps : 0 < eps) (hz : rd 0 = 0) (hE : ∀ x, eps ≤ |x| → eps ≤ |rd x|)
    (jeF : ℤ → ι → Fp K) (je : ℤ → ι → K) {n : ℤ} {p : ℕ} {U : ℤ → K} (hv : ValidKnots n p U) {P : ℤ → ι → K}
    (hP : ∀ i, 0 ≤ i → i ≤ n → Rel 0 (some (P i c)) (P i c)) {u : K} (h1 : U p ≤ u) (h2 : u ≤ U (n + 1))
    (hsep : SepFrom eps u U 0 (n + p + 1)) (hm : u < U (n + 1) → mult U 0 (n + p + 1) u ≤ p + 1)
    (hend : u = U (n + 1) → mult U 0 (n + p + 1) u = 1 ∨ p ≤ mult U 0 (n + p + 1) u) :
    Rel (p - mult U 0 (n + p + 1) u) (Fp.curvePntByCornerCut rd eps jeF n p U P u c)
      (Igakit.curvePntByCornerCut eps je n p U P u c) := by
  have hp := hv.one_le
  have hle := hv.le
  have hlast := hv.last
  have hlt : U p < U (n + 1) := lt_of_le_of_lt (hv.sorted p n (by omega) (by omega) (by omega)) hlast
  set s := mult U 0 (n + p + 1) u with hs
  have hn : p - s = ((p : ℤ) - s).toNat := by omega
  unfold Fp.curvePntByCornerCut Igakit.curvePntByCornerCut
  dsimp only
  rcases h1.eq_or_lt with h | h
  · subst h
    have hFm : Fp.findMult rd eps p (U p) p U = s := by
      rw [Fp.findMult_eq hz hE (fun j a b => hsep j (by omega) (by omega)), findMult_first heps hv hsep]
    rw [if_pos le_rfl, if_pos le_rfl, hFm, findMult_first heps hv hsep, ← hs]
    split_ifs with hc
    · exact rel_le hmono (Nat.zero_le _) (hP 0 le_rfl (by omega))
    · rw [hn]
      refine cornerCutTail_rel hmono hstep c jeF je (by omega) (fun i a b => hP i (by omega) (by omega)) (fun i j a b e => ?_)
      exact ⟨hv.sorted _ _ (by omega) (by omega) (by omega),
        hv.first.trans_le (hv.sorted _ _ (by omega) (by omega) (by omega))⟩
  rw [if_neg (not_le.mpr h), if_neg (not_le.mpr h)]
  rcases h2.eq_or_lt with h' | h'
  · have hc1 := hend h'
    rw [if_pos h'.ge, if_pos h'.ge]
    have hsep' : SepFrom eps (U (n + 1)) U 0 (n + p + 1) := by rw [← h']; exact hsep
    have hs' : mult U 0 (n + p + 1) (U (n + 1)) = s := by rw [hs, h']
    have hFm : Fp.findMult rd eps n (U (n + 1)) p U = s := by
      rw [Fp.findMult_eq hz hE (fun j a b => hsep' j (by omega) (by omega)), findMult_last heps hv hsep', hs']
    rw [hFm, findMult_last heps hv hsep', hs']
    split_ifs with hc
    · exact rel_le hmono (Nat.zero_le _) (hP n (by omega) le_rfl)
    · have hs1 : s = 1 := by omega
      have hb := block_right hv.sorted hv.last (le_refl _) (by omega) (by omega)
      have hlt2 : U (n + 1) < U (n + 1 + 1) := by
        refine lt_of_le_of_ne (hv.sorted _ _ (by omega) (by omega) (by omega)) (fun e => ?_)
        have := (hb (n + 1 + 1) (by omega) (by omega)).mp e.symm
        omega
      rw [hn]
      refine cornerCutTail_rel hmono hstep c jeF je (by omega) (fun i a b => hP i (by omega) (by omega)) (fun i j a b e => ?_)
      exact ⟨hv.sorted _ _ (by omega) (by omega) (by omega),
        hlt2.trans_le (hv.sorted _ _ (by omega) (by omega) (by omega))⟩
  · have hm := hm h'
    rw [if_neg (not_le.mpr h'), if_neg (not_le.mpr h')]
    obtain ⟨b1, b2, b3, b4⟩ := findSpan_mid (by omega) hle h h'
    have hFm : Fp.findMult rd eps (findSpan n p u U) u p U = s := by
      rw [Fp.findMult_eq hz hE (fun j a b => hsep j (by omega) (by omega)),
        findMult_mid heps hv b1 b2 b3 b4 hsep (by exact_mod_cast hm)]
    rw [hFm, findMult_mid heps hv b1 b2 b3 b4 hsep (by exact_mod_cast hm), ← hs]
    split_ifs with hc
    · exact rel_le hmono (Nat.zero_le _) (hP _ (by omega) (by omega))
    · rw [hn]
      refine cornerCutTail_rel hmono hstep c jeF je (by omega) (fun i a b => hP i (by omega) (by omega)) (fun i j a b e => ?_)
      exact ⟨(hv.sorted _ _ (by omega) (by omega) (by omega)).trans b3,
        b4.trans_le (hv.sorted _ _ (by omega) (by omega) (by omega))⟩

theorem kntIns_rel {ι : Type} (c : ι) (jeF : ℤ → ι → Fp K) (je : ℤ → ι → K) {n : ℤ} {p : ℕ} {U : ℤ → K} {m : ℕ}
    {PF : ℤ → ι → Fp K} {P : ℤ → ι → K} (hP : ∀ i, 0 ≤ i → i ≤ n → Rel m (PF i c) (P i c)) {uu : K} {k r : ℤ} (hr : 0 ≤ r)
    (hk : (p : ℤ) ≤ k) (hkn : k - p + r ≤ n) (hrn : r ≤ n)
    (hU : ∀ i j : ℤ, 1 ≤ j → 0 ≤ i → i ≤ r - j → U (k - p + j + i) ≤ uu ∧ uu < U (i + k + 1)) :
    ∀ i, 0 ≤ i → i ≤ n → Rel (m + r.toNat) (Fp.kntIns rd jeF n p U PF uu k r i c) (Igakit.kntIns je n p U P uu k r i c) := by
  unfold Fp.kntIns Igakit.kntIns
  dsimp only
  have key := forUp_rel (fun j (x : (ℤ → ι → Fp K) × (ℤ → ι → Fp K)) (y : (ℤ → ι → K) × (ℤ → ι → K)) => 1 ≤ j ∧
      (∀ i, 0 ≤ i → i ≤ r → Rel (m + (j - 1).toNat) (x.1 i c) (y.1 i c)) ∧
      (∀ i, 1 ≤ i → i < 2 * r → (i ≤ j - 1 ∨ 2 * r - (j - 1) ≤ i) → Rel (m + r.toNat) (x.2 i c) (y.2 i c)))
    (lo := 1) (hi := r)
    (f := fun j (RQ : (ℤ → ι → Fp K) × (ℤ → ι → Fp K)) =>
      let idx := k - p + j
      let Rw := Fp.cutPass rd U uu k idx (r - j) RQ.1
      let Qw := upd RQ.2 j (Rw 0)
      let Qw := upd Qw (r + r - j) (Rw (r - j))
      (Rw, Qw))
    (g := fun j (RQ : (ℤ → ι → K) × (ℤ → ι → K)) =>
      let idx := k - p + j
      let Rw := Igakit.cutPass U uu k idx (r - j) RQ.1
      let Qw := upd RQ.2 j (Rw 0)
      let Qw := upd Qw (r + r - j) (Rw (r - j))
      (Rw, Qw))
    (s := (fillRange jeF 0 r 0 (fun i => PF (k - p + i)), upd jeF 0 (PF (k - p))))
    (t := (fillRange je 0 r 0 (fun i => P (k - p + i)), upd je 0 (P (k - p)))) (by omega)
    ⟨le_rfl, fun i a b => by
      dsimp only
      rw [fillRange_in _ _ _ _ _ (by omega) (by omega), fillRange_in _ _ _ _ _ (by omega) (by omega)]
      exact hP _ (by omega) (by omega), fun i a b e => by omega⟩
    (by
      rintro j x y a b ⟨-, kR, kQ⟩
      have hR := cutPass_rel hmono hstep c (U := U) (uu := uu) (k := k) (idx := k - p + j) (hi := r - j) (top := r)
        (by omega) (fun i i0 i1 => hU i j a i0 i1) kR
      rw [show m + (j - 1).toNat + 1 = m + (j + 1 - 1).toNat by omega] at hR
      refine ⟨by omega, hR, fun i i0 i1 e => ?_⟩
      dsimp only
      by_cases g : i = r + r - j
      · rw [upd_eq _ _ g, upd_eq _ _ g]
        exact rel_le hmono (by omega) (hR _ (by omega) (by omega))
      · rw [upd_ne _ _ g, upd_ne _ _ g]
        by_cases g' : i = j
        · rw [upd_eq _ _ g', upd_eq _ _ g']
          exact rel_le hmono (by omega) (hR _ (by omega) (by omega))
        · rw [upd_ne _ _ g', upd_ne _ _ g']
          exact kQ i i0 i1 (by omega))
  obtain ⟨-, -, kQ⟩ := key
  intro i a b
  split_ifs with hc
  · by_cases h : i ≤ r - 1
    · rw [fillRange_in _ _ _ _ _ (by omega) (by omega), fillRange_in _ _ _ _ _ (by omega) (by omega)]
      exact kQ _ (by omega) (by omega) (by omega)
    · rw [fillRange_out _ _ _ _ _ (by omega), fillRange_out _ _ _ _ _ (by omega)]
      exact rel_le hmono (by omega) (hP i a b)
  · by_cases h : n - r + 1 ≤ i
    · rw [fillRange_in _ _ _ _ _ (by omega) (by omega), fillRange_in _ _ _ _ _ (by omega) (by omega)]
      exact kQ _ (by omega) (by omega) (by omega)
    · rw [fillRange_out _ _ _ _ _ (by omega), fillRange_out _ _ _ _ _ (by omega)]
      exact rel_le hmono (by omega) (hP i a b)

theorem clampLeft_rel {ι : Type} (c : ι) {eps : K} (heps : 0 < eps) (hz : rd 0 = 0) (hE : ∀ x, eps ≤ |x| → eps ≤ |rd x|)
    (jeF : ℤ → ι → Fp K) (je : ℤ → ι → K) {n : ℤ} {p : ℕ} {U : ℤ → K} (hv : ValidKnots n p U) {m : ℕ} {PF : ℤ → ι → Fp K}
    {P : ℤ → ι → K} (hP : ∀ i, 0 ≤ i → i ≤ n → Rel m (PF i c) (P i c)) (hsep : SepFrom eps (U p) U 0 (n + p + 1)) :
    (Fp.clampLeft rd eps jeF n p U PF).1 = (Igakit.clampLeft eps je n p U P).1 ∧
    ∀ i, 0 ≤ i → i ≤ n → Rel (m + (p - mult U 0 (n + p + 1) (U p))) ((Fp.clampLeft rd eps jeF n p U PF).2 i c)
      ((Igakit.clampLeft eps je n p U P).2 i c) := by
  have hp := hv.one_le
  have hle := hv.le
  refine ⟨rfl, fun i a b => ?_⟩
  unfold Fp.clampLeft Igakit.clampLeft
  dsimp only
  rw [Fp.findMult_eq hz hE (fun j a b => hsep j (by omega) (by omega)), findMult_first heps hv hsep]
  split_ifs with hc
  · have := kntIns_rel hmono hstep c jeF je (U := U) hP (uu := U p) (k := p) (r := p - mult U 0 (n + p + 1) (U p)) (by omega) le_rfl
      (by omega) (by omega) (fun i j a b e => ⟨hv.sorted _ _ (by omega) (by omega) (by omega),
        hv.first.trans_le (hv.sorted _ _ (by omega) (by omega) (by omega))⟩) i a b
    rwa [show ((p : ℤ) - mult U 0 (n + p + 1) (U p)).toNat = p - mult U 0 (n + p + 1) (U p) by omega] at this
  · exact rel_le hmono (by omega) (hP i a b)

theorem clampRight_rel {ι : Type} (c : ι) {eps : K} (heps : 0 < eps) (hz : rd 0 = 0) (hE : ∀ x, eps ≤ |x| → eps ≤ |rd x|)
    (jeF : ℤ → ι → Fp K) (je : ℤ → ι → K) {n : ℤ} {p : ℕ} {U : ℤ → K} (hv : ValidKnots n p U) {m : ℕ} {PF : ℤ → ι → Fp K}
    {P : ℤ → ι → K} (hP : ∀ i, 0 ≤ i → i ≤ n → Rel m (PF i c) (P i c)) (hsep : SepFrom eps (U (n + 1)) U 0 (n + p + 1)) :
    (Fp.clampRight rd eps jeF n p U PF).1 = (Igakit.clampRight eps je n p U P).1 ∧
    ∀ i, 0 ≤ i → i ≤ n → Rel (m + (p - mult U 0 (n + p + 1) (U (n + 1)))) ((Fp.clampRight rd eps jeF n p U PF).2 i c)
      ((Igakit.clampRight eps je n p U P).2 i c) := by
  have hp := hv.one_le
  have hle := hv.le
  have hb := block_right hv.sorted hv.last (le_refl _) (by omega) (by omega)
  have h1 : 1 ≤ mult U 0 (n + p + 1) (U (n + 1)) := one_le_mult (by omega) (by omega)
  refine ⟨rfl, fun i a b => ?_⟩
  unfold Fp.clampRight Igakit.clampRight
  dsimp only
  rw [Fp.findMult_eq hz hE (fun j a b => hsep j (by omega) (by omega)), findMult_last heps hv hsep]
  set s := mult U 0 (n + p + 1) (U (n + 1)) with hs
  split_ifs with hc
  · have hlt : U (n + 1) < U (n + s + 1) := by
      refine lt_of_le_of_ne (hv.sorted _ _ (by omega) (by omega) (by omega)) (fun e => ?_)
      have := (hb (n + s + 1) (by omega) (by omega)).mp e.symm
      omega
    have := kntIns_rel hmono hstep c jeF je (p := p) (U := U) hP (uu := U (n + 1)) (k := n + s) (r := p - s) (by omega) (by omega)
      (by omega) (by omega) (fun i j a b e => ⟨hv.sorted _ _ (by omega) (by omega) (by omega),
        hlt.trans_le (hv.sorted _ _ (by omega) (by omega) (by omega))⟩) i a b
    rwa [show ((p : ℤ) - s).toNat = p - s by omega] at this
  · exact rel_le hmono (by omega) (hP i a b)

/-- number of combinations made by clamping -/
def clampCost (n : ℤ) (p : ℕ) (U : ℤ → K) (l r : Bool) : ℕ :=
  (if l then p - mult U 0 (n + p + 1) (U p) else 0) + (if r then p - mult U 0 (n + p + 1) (U (n + 1)) else 0)

omit hmono hstep in
theorem clampLeft_mult {ι : Type} {eps : K} (je : ℤ → ι → K) {n : ℤ} {p : ℕ} {U : ℤ → K} (hv : ValidKnots n p U) (P : ℤ → ι → K) :
    mult (Igakit.clampLeft eps je n p U P).1 0 (n + p + 1) (U (n + 1)) = mult U 0 (n + p + 1) (U (n + 1)) := by
  have hp := hv.one_le
  have hle := hv.le
  have hlt : U p < U (n + 1) := lt_of_le_of_lt (hv.sorted p n (by omega) (by omega) (by omega)) hv.last
  unfold mult
  congr 1
  ext j
  simp only [Finset.mem_filter, Finset.mem_Icc]
  refine and_congr_right fun hj => ?_
  rw [clampLeft_knots]
  split_ifs with h
  · constructor
    · intro e
      exact absurd e hlt.ne
    · intro e
      have := hv.sorted j p (by omega) (by omega) (by omega)
      rw [e] at this
      exact absurd hlt (not_lt.mpr this)
  · rfl

theorem clampKnot_rel {ι : Type} (c : ι) {eps : K} (heps : 0 < eps) (hz : rd 0 = 0) (hE : ∀ x, eps ≤ |x| → eps ≤ |rd x|)
    (jeF : ℤ → ι → Fp K) (je : ℤ → ι → K) {n : ℤ} {p : ℕ} {U : ℤ → K} (hv : ValidKnots n p U)
    {P : ℤ → ι → K} (hP : ∀ i, 0 ≤ i → i ≤ n → Rel 0 (some (P i c)) (P i c)) (hsep : SepEnds eps n p U) (l r : Bool) :
    (Fp.clampKnot rd eps jeF n p U P l r).1 = (Igakit.clampKnot eps je n p U P l r).1 ∧
    ∀ i, 0 ≤ i → i ≤ n → Rel (clampCost n p U l r) ((Fp.clampKnot rd eps jeF n p U P l r).2 i c)
      ((Igakit.clampKnot eps je n p U P l r).2 i c) := by
  have hp := hv.one_le
  have hle := hv.le
  unfold Fp.clampKnot Igakit.clampKnot clampCost
  have L := clampLeft_rel hmono hstep c heps hz hE jeF je hv (PF := fun i c => some (P i c)) hP hsep.1
  cases l <;> cases r <;> simp only [if_true, if_false, Bool.false_eq_true]
  · exact ⟨trivial, fun i a b => by simpa using hP i a b⟩
  · exact clampRight_rel hmono hstep c heps hz hE jeF je hv (PF := fun i c => some (P i c)) hP hsep.2
  · simpa using L
  · have e2 : (Igakit.clampLeft eps je n p U P).1 (n + 1) = U (n + 1) := by
      rw [clampLeft_knots, if_neg (by omega)]
    have R := clampRight_rel hmono hstep c heps hz hE jeF je (clampLeft_valid je hv P) L.2
      (by rw [e2]; exact clampLeft_sep je hv P hsep.2)
    rw [e2, clampLeft_mult je hv P, ← L.1, zero_add] at R
    rw [← L.1]
    exact R

end sim

end Fp
end Igakit
