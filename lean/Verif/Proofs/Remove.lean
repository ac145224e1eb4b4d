import Verif.Model.Remove
import Verif.Proofs.Boehm
import Verif.Proofs.CurveForm
import Mathlib.Tactic.Module
import Mathlib.Tactic.Linarith

/-!
# Knot removal: one round of the algorithm, stages of the removal
-/

set_option linter.unusedSectionVars false

namespace Igakit
open Spec

variable {K : Type*} [Field K] [LinearOrder K] [IsStrictOrderedRing K]
variable {E : Type*} [AddCommGroup E] [Module K E]

/-! ## one round -/

/-- the points computed from the left -/
def remL (U : ℤ → K) (uu : K) (p t first : ℤ) (Pw : ℤ → E) : ℕ → E
  | 0 => Pw (first - 1)
  | c + 1 => (remAlfi U uu p t (first + c))⁻¹ •
      (Pw (first + c) - (1 - remAlfi U uu p t (first + c)) • remL U uu p t first Pw c)

/-- the points computed from the right -/
def remR (U : ℤ → K) (uu : K) (p t last : ℤ) (Pw : ℤ → E) : ℕ → E
  | 0 => Pw (last + 1)
  | c + 1 => (1 - remAlfj U uu p t (last - c))⁻¹ •
      (Pw (last - c) - remAlfj U uu p t (last - c) • remR U uu p t last Pw c)

theorem remSolve_spec (U : ℤ → K) (uu : K) (p t first last : ℤ) (Pw : ℤ → E) (ht : 0 ≤ t) {h : ℕ}
    (hh1 : last - first - 2 * h ≤ t) (hh2 : t - 1 ≤ last - first - 2 * h) :
    ∀ (fuel c : ℕ) (s : RemSt E), c ≤ h → h ≤ c + fuel → s.i = first + c → s.ii = 1 + c → s.j = last - c →
      s.jj = last + 1 - first - c → (∀ a : ℕ, a ≤ c → s.temp a = remL U uu p t first Pw a) →
      (∀ a : ℕ, a ≤ c → s.temp (last + 2 - first - a) = remR U uu p t last Pw a) →
      (remSolve U uu p t Pw fuel s).i = first + h ∧ (remSolve U uu p t Pw fuel s).ii = 1 + h ∧
      (remSolve U uu p t Pw fuel s).j = last - h ∧ (remSolve U uu p t Pw fuel s).jj = last + 1 - first - h ∧
      (∀ a : ℕ, a ≤ h → (remSolve U uu p t Pw fuel s).temp a = remL U uu p t first Pw a) ∧
      (∀ a : ℕ, a ≤ h → (remSolve U uu p t Pw fuel s).temp (last + 2 - first - a) = remR U uu p t last Pw a) := by
  intro fuel
  induction fuel with
  | zero =>
    intro c s h1 h2 e1 e2 e3 e4 e5 e6
    obtain rfl : c = h := by omega
    exact ⟨e1, e2, e3, e4, e5, e6⟩
  | succ fuel ih =>
    intro c s h1 h2 e1 e2 e3 e4 e5 e6
    unfold remSolve
    by_cases hc : s.j - s.i > t
    · rw [if_pos hc]
      have hch : c < h := by omega
      have key := ih (c + 1) (remBody U uu p t Pw s) (by omega) (by omega)
      refine key (by simp [remBody]; omega) (by simp [remBody]; omega) (by simp [remBody]; omega)
        (by simp [remBody]; omega) ?_ ?_
      · intro a ha
        simp only [remBody]
        by_cases hac : a ≤ c
        · rw [upd_ne _ _ (by omega), upd_ne _ _ (by omega)]; exact e5 a hac
        · obtain rfl : a = c + 1 := by omega
          rw [upd_ne _ _ (by omega), upd_eq _ _ (by omega), e1, e2, show 1 + (c : ℤ) - 1 = (c : ℕ) by ring,
            e5 c (le_refl _)]
          rfl
      · intro a ha
        simp only [remBody]
        by_cases hac : a ≤ c
        · rw [upd_ne _ _ (by omega), upd_ne _ _ (by omega)]; exact e6 a hac
        · obtain rfl : a = c + 1 := by omega
          rw [upd_eq _ _ (by push_cast; omega), upd_ne _ _ (by omega), e3,
            show s.jj + 1 = last + 2 - first - (c : ℕ) by omega, e6 c (le_refl _)]
          rfl
    · rw [if_neg hc]
      obtain rfl : c = h := by omega
      exact ⟨e1, e2, e3, e4, e5, e6⟩

theorem remStore_spec (t off : ℤ) (temp : ℤ → E) (ht : 0 ≤ t) :
    ∀ (fuel : ℕ) (i j : ℤ) (Pw : ℤ → E) (h : ℕ), j - i - 2 * h ≤ t → t - 1 ≤ j - i - 2 * h → h ≤ fuel → ∀ x : ℤ,
      remStore t off temp fuel i j Pw x =
        if i ≤ x ∧ x < i + h ∨ j - h < x ∧ x ≤ j then temp (x - off) else Pw x := by
  intro fuel
  induction fuel with
  | zero =>
    intro i j Pw h h1 h2 h3 x
    rw [if_neg (by omega)]; rfl
  | succ fuel ih =>
    intro i j Pw h h1 h2 h3 x
    unfold remStore
    by_cases hc : j - i > t
    · rw [if_pos hc, ih (i + 1) (j - 1) _ (h - 1) (by omega) (by omega) (by omega) x]
      by_cases hx : x = j
      · rw [if_neg (by omega), if_pos (by omega), upd_eq _ _ hx, hx]
      · by_cases hx2 : x = i
        · rw [if_neg (by omega), if_pos (by omega), upd_ne _ _ hx, upd_eq _ _ hx2, hx2]
        · rw [upd_ne _ _ hx, upd_ne _ _ hx2]
          by_cases hy : i ≤ x ∧ x < i + h ∨ j - h < x ∧ x ≤ j
          · rw [if_pos hy, if_pos (by omega)]
          · rw [if_neg hy, if_neg (by omega)]
    · rw [if_neg hc, if_neg (by omega)]

/-- Summary of one round with `e = p - s`: `h = (e+t+1)/2` points are computed from each side. -/
theorem rem_round (U : ℤ → K) (uu : K) (p t first last : ℤ) (near : E → E → Prop) (Pw temp : ℤ → E) (ht : 0 ≤ t)
    {h : ℕ} (hh1 : last - first - 2 * h ≤ t) (hh2 : t - 1 ≤ last - first - 2 * h) :
    (remFlag U uu p t near Pw (remSolved U uu p t first last Pw temp) ↔
      if last - first - 2 * h < t then near (remL U uu p t first Pw h) (remR U uu p t last Pw h)
      else near (Pw (first + h)) (remAlfi U uu p t (first + h) • remR U uu p t last Pw h +
        (1 - remAlfi U uu p t (first + h)) • remL U uu p t first Pw h)) ∧
    (∀ c : ℕ, c < h → remStore t (first - 1) (remSolved U uu p t first last Pw temp).temp
      (last + 1 - first).toNat first last Pw (first + c) = remL U uu p t first Pw (c + 1)) ∧
    (∀ c : ℕ, c < h → remStore t (first - 1) (remSolved U uu p t first last Pw temp).temp
      (last + 1 - first).toNat first last Pw (last - c) = remR U uu p t last Pw (c + 1)) ∧
    (∀ x, x < first ∨ (first + h ≤ x ∧ x ≤ last - h) ∨ last < x →
      remStore t (first - 1) (remSolved U uu p t first last Pw temp).temp
      (last + 1 - first).toNat first last Pw x = Pw x) := by
  obtain ⟨f1, f2, f3, f4, f5, f6⟩ := remSolve_spec U uu p t first last Pw ht hh1 hh2 (last + 1 - first).toNat 0
    ⟨upd (upd temp 0 (Pw (first - 1))) (last + 1 - (first - 1)) (Pw (last + 1)), first, 1, last, last - (first - 1)⟩
    (by omega) (by omega) (by simp) (by simp) (by simp) (by simp; ring)
    (by
      intro a ha
      obtain rfl : a = 0 := by omega
      dsimp only
      rw [upd_ne _ _ (by push_cast; omega), upd_eq _ _ (by simp)]
      rfl)
    (by
      intro a ha
      obtain rfl : a = 0 := by omega
      dsimp only
      rw [upd_eq _ _ (by push_cast; omega)]
      rfl)
  have e0 : remSolve U uu p t Pw (last + 1 - first).toNat
      ⟨upd (upd temp 0 (Pw (first - 1))) (last + 1 - (first - 1)) (Pw (last + 1)), first, 1, last,
        last - (first - 1)⟩ = remSolved U uu p t first last Pw temp := rfl
  rw [e0] at f1 f2 f3 f4 f5 f6
  generalize remSolved U uu p t first last Pw temp = s at *
  have st := remStore_spec t (first - 1) s.temp ht (last + 1 - first).toNat first last Pw h hh1 hh2 (by omega)
  refine ⟨?_, ?_, ?_, ?_⟩
  · unfold remFlag
    rw [f1, f2, f3, f4]
    by_cases hc : last - first - 2 * (h : ℤ) < t
    · rw [if_pos (by omega), if_pos hc, show 1 + (h : ℤ) - 1 = (h : ℕ) by ring,
        show last + 1 - first - (h : ℤ) + 1 = last + 2 - first - (h : ℕ) by ring, f5 h (le_refl _), f6 h (le_refl _)]
    · rw [if_neg (by omega), if_neg hc, show 1 + (h : ℤ) - 1 = (h : ℕ) by ring,
        show 1 + (h : ℤ) + t + 1 = last + 2 - first - (h : ℕ) by omega, f5 h (le_refl _), f6 h (le_refl _)]
  · intro c hc
    rw [st, if_pos (by omega), show first + (c : ℤ) - (first - 1) = ((c + 1 : ℕ) : ℤ) by push_cast; ring,
      f5 _ (by omega)]
  · intro c hc
    rw [st, if_pos (by omega), show last - (c : ℤ) - (first - 1) = last + 2 - first - ((c + 1 : ℕ) : ℤ) by
      push_cast; ring, f6 _ (by omega)]
  · intro x hx
    rw [st, if_neg (by omega)]

/-! ## the stages -/

/-- the situation in which knots are removed: `uu` is an inner knot, its copies are `r-s+1, ..., r` -/
structure RemCtx (n : ℤ) (p : ℕ) (U : ℤ → K) (uu : K) (r s : ℤ) : Prop where
  valid : ValidKnots n p U
  rp : (p : ℤ) ≤ r - s
  rn : r ≤ n
  s1 : 1 ≤ s
  sp : s ≤ p
  left : ∀ j, 0 ≤ j → j ≤ r - s → U j < uu
  blk : ∀ j, r - s < j → j ≤ r → U j = uu
  right : ∀ j, r < j → j ≤ n + p + 1 → uu < U j

/-- the knots after the removal of `t` copies -/
def remKv (U : ℤ → K) (r t : ℤ) : ℤ → K := fun z => if z ≤ r - t then U z else U (z + t)

/-- the control points before removal number `t + 1`, from those after it -/
def remIns (U : ℤ → K) (uu : K) (p r s t : ℤ) (C : ℤ → E) : ℤ → E := fun y =>
  if y < r - p - t then C y
  else if y ≤ r - s then remAlfi U uu p t y • C y + (1 - remAlfi U uu p t y) • C (y - 1)
  else C (y - 1)

variable {n : ℤ} {p : ℕ} {U : ℤ → K} {uu : K} {r s : ℤ}

namespace RemCtx

theorem lo (h : RemCtx n p U uu r s) {t : ℤ} (ht : t ≤ s) : remKv U r t p = U p := by
  have := h.rp
  unfold remKv; rw [if_pos (by omega)]

theorem hi (h : RemCtx n p U uu r s) {t : ℤ} : remKv U r t (n - t + 1) = U (n + 1) := by
  have := h.rn
  unfold remKv; rw [if_neg (by omega)]; congr 1; ring

theorem validKv (h : RemCtx n p U uu r s) {t : ℤ} (ht0 : 0 ≤ t) (ht : t ≤ s) :
    ValidKnots (n - t) p (remKv U r t) := by
  have h1 := h.rp
  have h2 := h.rn
  have h3 := h.s1
  have h4 := h.valid.one_le
  have hs := h.valid.sorted
  refine ⟨h4, by omega, ?_, ?_, ?_⟩
  · intro i j a b c
    unfold remKv
    split_ifs with c1 c2 c2
    · exact hs i j a b (by omega)
    · exact hs i (j + t) a (by omega) (by omega)
    · omega
    · exact hs (i + t) (j + t) (by omega) (by omega) (by omega)
  · rw [h.lo ht]
    unfold remKv
    split_ifs with c
    · exact h.valid.first
    · exact lt_of_lt_of_le h.valid.first (hs _ _ (by omega) (by omega) (by omega))
  · rw [h.hi]
    unfold remKv
    split_ifs with c
    · have : n - t = r - t ∨ n - t < r - t := by omega
      have hle : U (n - t) ≤ uu := by
        rw [← h.blk r (by omega) (le_refl _)]
        exact hs _ _ (by omega) (by omega) (by omega)
      exact lt_of_le_of_lt hle (h.right _ (by omega) (by omega))
    · rw [show n - t + t = n by ring]; exact h.valid.last

theorem alf (h : RemCtx n p U uu r s) {t y : ℤ} (ht0 : 0 ≤ t) (ht : t < s) (hy1 : r - p - t ≤ y) (hy2 : y ≤ r - s) :
    0 < remAlfi U uu p t y ∧ remAlfi U uu p t y < 1 := by
  have h1 := h.rp
  have h2 := h.rn
  have a := h.left y (by omega) hy2
  have b := h.right (y + (p + 1) + t) (by omega) (by omega)
  unfold remAlfi
  constructor
  · exact div_pos (by linarith) (by linarith)
  · rw [div_lt_one (by linarith)]; linarith

/-- the new curve is the curve of the reinserted points -/
theorem ins_curve (h : RemCtx n p U uu r s) {t : ℤ} (ht0 : 0 ≤ t) (ht : t < s) (C : ℤ → E) {x : K}
    (hx1 : U p ≤ x) (hx2 : x ≤ U (n + 1)) :
    curve (n - t) p (remKv U r t) (remIns U uu p r s t C) x = curve (n - (t + 1)) p (remKv U r (t + 1)) C x := by
  have h1 := h.rp
  have h2 := h.rn
  have h3 := h.s1
  have h4 := h.valid.one_le
  have hv := h.validKv (t := t + 1) (by omega) (by omega)
  have hv' := h.validKv (t := t) (by omega) (by omega)
  have T1 : ∀ z, z ≤ r - t - 1 → remKv U r (t + 1) z = U z := fun z hz => by
    unfold remKv; rw [if_pos (by omega)]
  have T2 : ∀ z, r - t - 1 < z → remKv U r (t + 1) z = U (z + t + 1) := fun z hz => by
    unfold remKv; rw [if_neg (by omega)]; congr 1; ring
  have R := (IsRefn.refl hv.sorted C).step (T' := remKv U r t) (C' := remIns U uu p r s t C) (by omega)
    (i := r - t - 1) (x := uu) (by omega) (by omega)
    (by
      rw [T1 _ (le_refl _)]
      by_cases e : r - t - 1 ≤ r - s
      · exact (h.left _ (by omega) e).le
      · exact (h.blk _ (by omega) (by omega)).le)
    (by rw [T2 _ (by omega)]; exact (h.right _ (by omega) (by omega)).le)
    (by intro z a b; rw [T1 z b]; unfold remKv; rw [if_pos (by omega)])
    (by unfold remKv; rw [if_pos (by omega)]; exact h.blk _ (by omega) (by omega))
    (by
      intro z a b
      rw [T2 _ (by omega)]
      unfold remKv
      split_ifs with c
      · omega
      · congr 1; ring)
    (by intro y a b; unfold remIns; rw [if_pos (by omega)])
    (by
      intro y a b _
      rw [T1 y b, T2 _ (by omega)]
      unfold remIns
      rw [if_neg (by omega)]
      split_ifs with c
      · unfold remAlfi
        rw [show y + (p : ℤ) + t + 1 = y + (p + 1) + t by ring]
      · rw [h.blk y (by omega) (by omega), sub_self, zero_div, zero_smul, sub_zero, one_smul, zero_add])
    (by intro y a b; unfold remIns; rw [if_neg (by omega), if_neg (by omega)])
  have e : n - (t + 1) + 1 = n - t := by ring
  rw [e] at R
  refine R.curve_eq hv hv' ?_ ?_ ?_ ?_
  · rw [h.lo (by omega), h.lo (by omega)]
  · rw [h.hi, h.hi]
  · rw [h.lo (by omega)]; exact hx1
  · rw [h.hi]; exact hx2

end RemCtx

/-! ## the loop -/

theorem remAlfj_eq (U : ℤ → K) (uu : K) (p t y : ℤ) : remAlfj U uu p t (y + t) = remAlfi U uu p t y := by
  unfold remAlfj remAlfi
  rw [show y + t - t = y by ring, show y + t + (p + 1) = y + (p + 1) + t by ring]

theorem remL_eq {U : ℤ → K} {uu : K} {p t first : ℤ} (Pw : ℤ → E) {c : ℕ}
    (h : remAlfi U uu p t (first + c) ≠ 0) : Pw (first + c) =
      remAlfi U uu p t (first + c) • remL U uu p t first Pw (c + 1) +
        (1 - remAlfi U uu p t (first + c)) • remL U uu p t first Pw c := by
  rw [remL, smul_smul, mul_inv_cancel₀ h, one_smul]
  abel

theorem remR_eq {U : ℤ → K} {uu : K} {p t last : ℤ} (Pw : ℤ → E) {c : ℕ}
    (h : 1 - remAlfj U uu p t (last - c) ≠ 0) : Pw (last - c) =
      remAlfj U uu p t (last - c) • remR U uu p t last Pw c +
        (1 - remAlfj U uu p t (last - c)) • remR U uu p t last Pw (c + 1) := by
  rw [remR, smul_smul, mul_inv_cancel₀ h, one_smul]
  abel

/-- last index of the left part of the storage at stage `t` -/
def remA (p : ℕ) (r s t : ℤ) : ℤ := r - p - t + (p - s + t) / 2
/-- first index of the right part (before the shift by `t`) -/
def remB (p : ℕ) (r s t : ℤ) : ℤ := r - s - (p - s + t) / 2

/-- the storage represents the net `Q` at stage `t` -/
def RemView (n : ℤ) (p : ℕ) (r s t : ℤ) (Pw Q : ℤ → E) : Prop :=
  (∀ i, 0 ≤ i → i ≤ remA p r s t → Pw i = Q i) ∧ (∀ i, remB p r s t ≤ i → i ≤ n - t → Pw (i + t) = Q i)

theorem remIns_lo {U : ℤ → K} {uu : K} {p r s t : ℤ} {C : ℤ → E} {y : ℤ} (h : y < r - p - t) :
    remIns U uu p r s t C y = C y := by unfold remIns; rw [if_pos h]
theorem remIns_mid {U : ℤ → K} {uu : K} {p r s t : ℤ} {C : ℤ → E} {y : ℤ} (h : r - p - t ≤ y) (h' : y ≤ r - s) :
    remIns U uu p r s t C y = remAlfi U uu p t y • C y + (1 - remAlfi U uu p t y) • C (y - 1) := by
  unfold remIns; rw [if_neg (by omega), if_pos h']
theorem remIns_hi {U : ℤ → K} {uu : K} {p r s t : ℤ} {C : ℤ → E} {y : ℤ} (h : r - p - t ≤ y) (h' : r - s < y) :
    remIns U uu p r s t C y = C (y - 1) := by unfold remIns; rw [if_neg (by omega), if_neg (by omega)]

/-- If the net comes from `num` insertions then all `num` removals succeed and give the nets back. -/
theorem remLoop_exact (h : RemCtx n p U uu r s) {near : E → E → Prop} (hnear : ∀ x, near x x)
    (Qc : ℕ → ℤ → E) {num : ℕ} (hnum : num ≤ s)
    (hc : ∀ t : ℕ, t < num → ∀ y, 0 ≤ y → y ≤ n - t → Qc t y = remIns U uu p r s t (Qc (t + 1)) y) :
    ∀ (k t : ℕ) (Pw temp : ℤ → E), t + k = num → RemView n p r s t Pw (Qc t) →
      ∃ Pw', remLoop U uu p near k t (r - p - t) (r - s + t) Pw temp = ((num : ℤ), Pw') ∧
        RemView n p r s num Pw' (Qc num) := by
  have h1 := h.rp
  have h2 := h.rn
  have h3 := h.s1
  have h4 := h.sp
  intro k
  induction k with
  | zero =>
    intro t Pw temp e hv
    obtain rfl : t = num := by omega
    exact ⟨Pw, rfl, hv⟩
  | succ k ih =>
    intro t Pw temp e hv
    have ht : (t : ℤ) < s := by omega
    obtain ⟨hq, hqe⟩ : ∃ hq : ℕ, (hq : ℤ) = (p - s + t + 1) / 2 := ⟨((p - s + t + 1) / 2).toNat, by omega⟩
    obtain ⟨r1, r2, r3, r4⟩ := rem_round U uu p t (r - p - t) (r - s + t) near Pw temp (by omega) (h := hq)
      (by omega) (by omega)
    obtain ⟨v1, v2⟩ := hv
    unfold remA at v1
    unfold remB at v2
    have hL : ∀ c : ℕ, c ≤ hq → remL U uu p t (r - p - t) Pw c = Qc (t + 1) (r - p - t - 1 + c) := by
      intro c
      induction c with
      | zero =>
        intro _
        rw [remL, v1 _ (by omega) (by omega), hc t (by omega) _ (by omega) (by omega), remIns_lo (by omega)]
        congr 1; simp
      | succ c ihc =>
        intro hcc
        have ha := h.alf (t := t) (y := r - p - t + c) (by omega) ht (by omega) (by omega)
        have e1 := v1 (r - p - t + c) (by omega) (by omega)
        rw [hc t (by omega) _ (by omega) (by omega), remIns_mid (by omega) (by omega)] at e1
        rw [remL, ihc (by omega), e1, show r - p - t + (c : ℤ) - 1 = r - p - t - 1 + c by ring, add_sub_cancel_right,
          smul_smul, inv_mul_cancel₀ ha.1.ne', one_smul]
        congr 1; push_cast; ring
    have hR : ∀ c : ℕ, c ≤ hq → remR U uu p t (r - s + t) Pw c = Qc (t + 1) (r - s - c) := by
      intro c
      induction c with
      | zero =>
        intro _
        rw [remR, show r - s + (t : ℤ) + 1 = r - s + 1 + t by ring, v2 _ (by omega) (by omega),
          hc t (by omega) _ (by omega) (by omega), remIns_hi (by omega) (by omega)]
        congr 1; simp
      | succ c ihc =>
        intro hcc
        have ha := h.alf (t := t) (y := r - s - c) (by omega) ht (by omega) (by omega)
        have e1 := v2 (r - s - c) (by omega) (by omega)
        rw [hc t (by omega) _ (by omega) (by omega), remIns_mid (by omega) (by omega)] at e1
        rw [remR, ihc (by omega), show r - s + (t : ℤ) - c = r - s - c + t by ring, e1, remAlfj_eq,
          add_sub_cancel_left, smul_smul, inv_mul_cancel₀ (by linarith [ha.2]), one_smul]
        congr 1; push_cast; ring
    have hflag : remFlag U uu p t near Pw (remSolved U uu p t (r - p - t) (r - s + t) Pw temp) := by
      rw [r1]
      split_ifs with c
      · rw [hL _ (le_refl _), hR _ (le_refl _), show r - (p : ℤ) - t - 1 + hq = r - s - hq by omega]
        exact hnear _
      · rw [hL _ (le_refl _), hR _ (le_refl _), v1 _ (by omega) (by omega), hc t (by omega) _ (by omega) (by omega),
          remIns_mid (by omega) (by omega), show r - s - (hq : ℤ) = r - p - t + hq by omega,
          show r - (p : ℤ) - t - 1 + hq = r - p - t + hq - 1 by ring]
        exact hnear _
    unfold remLoop
    rw [if_pos hflag]
    have key := ih (t + 1) (remStore t (r - p - t - 1) (remSolved U uu p t (r - p - t) (r - s + t) Pw temp).temp
      (r - s + t + 1 - (r - p - t)).toNat (r - p - t) (r - s + t) Pw)
      (remSolved U uu p t (r - p - t) (r - s + t) Pw temp).temp (by omega) ?_
    · push_cast at key
      rw [show r - (p : ℤ) - (t + 1) = r - p - t - 1 by ring, show r - s + ((t : ℤ) + 1) = r - s + t + 1 by ring] at key
      exact key
    · constructor
      · intro i i1 i2
        unfold remA at i2
        push_cast at i2
        by_cases c : i < r - p - t
        · rw [r4 i (Or.inl c), v1 i i1 (by omega), hc t (by omega) _ i1 (by omega), remIns_lo c]
        · have := r2 (i - (r - p - t)).toNat (by omega)
          rw [show r - (p : ℤ) - t + ((i - (r - p - t)).toNat : ℤ) = i by omega, hL _ (by omega)] at this
          rw [this]; congr 1; push_cast; omega
      · intro i i1 i2
        unfold remB at i1
        push_cast at i1 i2
        push_cast
        by_cases c : i < r - s
        · have := r3 (r - s - 1 - i).toNat (by omega)
          rw [show r - s + (t : ℤ) - ((r - s - 1 - i).toNat : ℤ) = i + (t + 1) by omega, hR _ (by omega)] at this
          rw [this]; congr 1; push_cast; omega
        · rw [r4 _ (Or.inr (Or.inr (by omega))), show i + ((t : ℤ) + 1) = i + 1 + t by ring,
            v2 _ (by omega) (by omega), hc t (by omega) _ (by omega) (by omega), remIns_hi (by omega) (by omega)]
          congr 1; ring

/-! ## the final shifts -/

theorem remIdx_eq (fout : ℤ) {t : ℤ} (ht : 1 ≤ t) : remIdx fout t = (fout + t / 2, fout - (t - 1) / 2) := by
  unfold remIdx
  have key := forUp_inv (lo := 1) (hi := t - 1) (s := (fout, fout))
    (f := fun k (ij : ℤ × ℤ) => if k % 2 = 1 then (ij.1 + 1, ij.2) else (ij.1, ij.2 - 1))
    (I := fun k ij => ij = (fout + k / 2, fout - (k - 1) / 2)) (by omega) (by simp) (by
      rintro i ij h1 h2 rfl
      split_ifs with c
      · ext <;> dsimp only <;> omega
      · ext <;> dsimp only <;> omega)
  rw [key]
  ext <;> dsimp only <;> omega

theorem remShift_eq (n : ℤ) (ij : ℤ × ℤ) (Pw : ℤ → E) (h : ij.2 ≤ ij.1) (hn : ij.1 ≤ n) (x : ℤ) :
    remShift n ij Pw x = if ij.2 ≤ x ∧ x < ij.2 + (n - ij.1) then Pw (x + (ij.1 + 1 - ij.2)) else Pw x := by
  unfold remShift
  have key := forUp_inv (lo := ij.1 + 1) (hi := n) (s := (Pw, ij.2))
    (f := fun k (s : (ℤ → E) × ℤ) => (upd s.1 s.2 (s.1 k), s.2 + 1))
    (I := fun k s => s.2 = ij.2 + (k - (ij.1 + 1)) ∧ ∀ x, s.1 x =
      if ij.2 ≤ x ∧ x < ij.2 + (k - (ij.1 + 1)) then Pw (x + (ij.1 + 1 - ij.2)) else Pw x) (by omega)
    ⟨by simp, fun x => by rw [if_neg (by omega)]⟩ (by
      rintro k st h1 h2 ⟨g1, g2⟩
      refine ⟨by dsimp only; omega, fun x => ?_⟩
      dsimp only
      by_cases hx : x = st.2
      · rw [upd_eq _ _ hx, g2, if_neg (by omega), if_pos (by omega)]
        congr 1; omega
      · rw [upd_ne _ _ hx, g2]
        by_cases hy : ij.2 ≤ x ∧ x < ij.2 + (k - (ij.1 + 1))
        · rw [if_pos hy, if_pos (by omega)]
        · rw [if_neg hy, if_neg (by omega)])
  rw [key.2]
  congr 1
  rw [show n + 1 - (ij.1 + 1) = n - ij.1 by ring]

theorem remKnots_eq (U : ℤ → K) (r m t : ℤ) (ht : 1 ≤ t) (hrm : r ≤ m) (x : ℤ) (hx : x ≤ m - t) :
    forUp (r + 1) m (fun k U => upd U (k - t) (U k)) U x = remKv U r t x := by
  have key := forUp_inv (lo := r + 1) (hi := m) (s := U) (f := fun k U => upd U (k - t) (U k))
    (I := fun k V => ∀ x, V x = if r - t < x ∧ x < k - t then U (x + t) else U x) (by omega)
    (fun x => by rw [if_neg (by omega)]) (by
      intro k V h1 h2 g x
      by_cases hx : x = k - t
      · rw [upd_eq _ _ hx, g, if_neg (by omega), if_pos (by omega)]; congr 1; omega
      · rw [upd_ne _ _ hx, g]
        by_cases hy : r - t < x ∧ x < k - t
        · rw [if_pos hy, if_pos (by omega)]
        · rw [if_neg hy, if_neg (by omega)])
  rw [key]
  unfold remKv
  by_cases hy : x ≤ r - t
  · rw [if_pos hy, if_neg (by omega)]
  · rw [if_neg hy, if_pos (by omega)]

/-- the returned net in terms of the storage: a left and a right part with a common boundary index -/
theorem remShift_final (p : ℕ) (r s t : ℤ) (Pw : ℤ → E) (hrp : (p : ℤ) ≤ r - s) (hrn : r ≤ n)
    (hsp : s ≤ p) (ht : 1 ≤ t) (hts : t ≤ s) :
    (∀ i, 0 ≤ i → i ≤ n - t → remShift n (remIdx (Int.tdiv (2 * r - s - p) 2) t) Pw i =
        if i ≤ remA p r s t then Pw i else Pw (i + t)) ∨
    (∀ i, 0 ≤ i → i ≤ n - t → remShift n (remIdx (Int.tdiv (2 * r - s - p) 2) t) Pw i =
        if i < remB p r s t then Pw i else Pw (i + t)) := by
  rw [Int.tdiv_eq_ediv_of_nonneg (by omega), remIdx_eq _ ht]
  have key := fun i => remShift_eq n ((2 * r - s - p) / 2 + t / 2, (2 * r - s - p) / 2 - (t - 1) / 2) Pw
    (by dsimp only; omega) (by dsimp only; omega) i
  dsimp only at key
  unfold remA remB
  by_cases c : (p - s) % 2 = 1 ∧ t % 2 = 1
  · refine Or.inr fun i i1 i2 => ?_
    rw [key]
    by_cases ci : i < r - s - (p - s + t) / 2
    · rw [if_neg (by omega), if_pos ci]
    · rw [if_pos (by omega), if_neg ci]; congr 1; omega
  · refine Or.inl fun i i1 i2 => ?_
    rw [key]
    by_cases ci : i ≤ r - p - t + (p - s + t) / 2
    · rw [if_neg (by omega), if_pos ci]
    · rw [if_pos (by omega), if_neg ci]; congr 1; omega

end Igakit
