import Verif.Proofs.Curve
import Verif.Proofs.FindMult

/-!
# Knot insertion (Boehm, NURBS book A5.1)
-/

set_option linter.unusedSectionVars false

namespace Igakit
open Spec

variable {K : Type*} [Field K] [LinearOrder K]
variable {E : Type*} [AddCommGroup E] [Module K E]

/-- corner cutting: closed form of one pass -/
theorem cutPass_spec (U : ℤ → K) (uu : K) (k idx hi : ℤ) (Rw : ℤ → E) (i : ℤ) :
    cutPass U uu k idx hi Rw i =
      if 0 ≤ i ∧ i ≤ hi then
        ((uu - U (idx + i)) / (U (i + k + 1) - U (idx + i))) • Rw (i + 1) +
          (1 - (uu - U (idx + i)) / (U (i + k + 1) - U (idx + i))) • Rw i
      else Rw i := by
  by_cases hhi : hi < 0
  · unfold cutPass
    rw [forUp_empty (by omega), if_neg (by omega)]
  · have := forUp_inv (f := fun i Rw =>
      let alpha := (uu - U (idx + i)) / (U (i + k + 1) - U (idx + i))
      upd Rw i (alpha • Rw (i + 1) + (1 - alpha) • Rw i))
      (fun j (R : ℤ → E) => ∀ i, R i = if 0 ≤ i ∧ i < j then
          ((uu - U (idx + i)) / (U (i + k + 1) - U (idx + i))) • Rw (i + 1) +
          (1 - (uu - U (idx + i)) / (U (i + k + 1) - U (idx + i))) • Rw i
        else Rw i) (lo := 0) (hi := hi) (s := Rw) (by omega)
      (by intro i; rw [if_neg (by omega)])
      (by
        intro j R h1 h2 ih i
        by_cases hij : i = j
        · subst hij
          simp only [upd_same]
          rw [ih (i + 1), ih i, if_neg (by omega), if_neg (by omega), if_pos (by omega)]
        · simp only [upd_ne _ _ hij]
          rw [ih i]
          by_cases hc : 0 ≤ i ∧ i < j
          · rw [if_pos hc, if_pos (by omega)]
          · rw [if_neg hc, if_neg (by omega)])
    have h := this i
    unfold cutPass
    rw [h]
    by_cases hc : 0 ≤ i ∧ i ≤ hi
    · rw [if_pos hc, if_pos (by omega)]
    · rw [if_neg hc, if_neg (by omega)]

/-- corner cutting table: `rt j i` is the point with `j` arguments `uu` and the knots
`U(k-p+j+i+1 .. k+i)` -/
def rt (U : ℤ → K) (P : ℤ → E) (p : ℕ) (uu : K) (k : ℤ) : ℕ → ℤ → E
  | 0, i => P (k - p + i)
  | j + 1, i =>
    ((uu - U (k - p + (j + 1 : ℕ) + i)) / (U (i + k + 1) - U (k - p + (j + 1 : ℕ) + i))) •
      rt U P p uu k j (i + 1) +
    (1 - (uu - U (k - p + (j + 1 : ℕ) + i)) / (U (i + k + 1) - U (k - p + (j + 1 : ℕ) + i))) •
      rt U P p uu k j i

variable [IsStrictOrderedRing K]

theorem rt_form_r {p : ℕ} {f : Multiset K → E} (hf : IsForm p f) {U : ℤ → K} {P : ℤ → E}
    {lo hi k : ℤ} (hr : Rep p U P lo hi f) {r : ℤ} (_hrp : r ≤ p)
    (hw : ∀ a b, k - p < a → a ≤ k - p + r → k < b → b ≤ k + r → U b - U a ≠ 0) (uu : K) :
    ∀ (j : ℕ) (i : ℤ), j ≤ p → 0 ≤ i → i + j ≤ r → lo ≤ k - p + i → k - p + i + j ≤ hi →
      rt U P p uu k j i = f (Multiset.replicate j uu + kn U (k - p + j + i) (p - j)) := by
  intro j
  induction j with
  | zero =>
    intro i h1 h2 h3 h4 h5
    simp only [rt, Multiset.replicate_zero, zero_add, Nat.sub_zero, Nat.cast_zero, add_zero]
    exact hr _ h4 (by simpa using h5)
  | succ j ih =>
    intro i h1 h2 h3 h4 h5
    push_cast at h5 h3
    rw [rt, ih (i + 1) (by omega) (by omega) (by omega) (by omega) (by omega),
      ih i (by omega) h2 (by omega) h4 (by omega)]
    set q := p - (j + 1) with hq
    have hpq : p - j = q + 1 := by omega
    rw [hpq]
    have e1 : kn U (k - p + j + (i + 1)) (q + 1) =
        U (i + k + 1) ::ₘ kn U (k - p + (j + 1 : ℕ) + i) q := by
      rw [kn_succ_last]
      congr 2
      · omega
      · push_cast; ring
    have e2 : kn U (k - p + j + i) (q + 1) =
        U (k - p + (j + 1 : ℕ) + i) ::ₘ kn U (k - p + (j + 1 : ℕ) + i) q := by
      rw [kn_succ_first]
      congr 2
      · push_cast; ring
      · push_cast; ring
    rw [e1, e2, Multiset.replicate_succ, Multiset.cons_add, Multiset.add_cons, Multiset.add_cons]
    have hne : U (i + k + 1) - U (k - p + (j + 1 : ℕ) + i) ≠ 0 :=
      hw _ _ (by push_cast; omega) (by push_cast; omega) (by omega) (by omega)
    rw [hf.interp' (by simp; omega) hne uu]

theorem rt_form {p : ℕ} {f : Multiset K → E} (hf : IsForm p f) {U : ℤ → K} {P : ℤ → E}
    {lo hi k : ℤ} (hr : Rep p U P lo hi f) (hw : Win U k p) (uu : K)
    (j : ℕ) (i : ℤ) (h1 : j ≤ p) (h2 : 0 ≤ i) (h3 : i + j ≤ p) (h4 : lo ≤ k - p + i)
    (h5 : k - p + i + j ≤ hi) :
    rt U P p uu k j i = f (Multiset.replicate j uu + kn U (k - p + j + i) (p - j)) :=
  rt_form_r hf hr (le_refl _) (fun a b x y z w => hw.sub_ne (by omega) (by omega) z w) uu j i h1 h2 h3
    h4 h5

/-- closed form of the control points computed by `InsertKnot` -/
theorem insertKnotQ_closed (je : ℤ → E) (n : ℤ) (p : ℕ) (U : ℤ → K) (P : ℤ → E) (uu : K)
    (k s r : ℤ) (_hs : 0 ≤ s) (hr : 0 ≤ r) (hrs : r + s ≤ p) (_hk : (p : ℤ) ≤ k) (_hkn : k ≤ n) :
    (∀ i, 0 ≤ i → i ≤ k - p → insertKnotQ je n p U P uu k s r i = P i) ∧
    (∀ j, 1 ≤ j → j ≤ r →
      insertKnotQ je n p U P uu k s r (k - p + j) = rt U P p uu k j.toNat 0) ∧
    (∀ i, k - p + r < i → i < k - s →
      insertKnotQ je n p U P uu k s r i = rt U P p uu k r.toNat (i - (k - p + r))) ∧
    (∀ j, 1 ≤ j → j ≤ r → insertKnotQ je n p U P uu k s r (k + r - j - s) =
      rt U P p uu k j.toNat (p - j - s)) ∧
    (∀ i, k - s ≤ i → i ≤ n → insertKnotQ je n p U P uu k s r (i + r) = P i) := by
  set body := (fun j (RQ : (ℤ → E) × (ℤ → E)) =>
    let idx := k - p + j
    let Rw := cutPass U uu k idx (p - j - s) RQ.1
    let Qw := upd RQ.2 idx (Rw 0)
    let Qw := upd Qw (k + r - j - s) (Rw (p - j - s))
    (Rw, Qw)) with hbody
  set Q0 := fillRange (fillRange je 0 (k - p) 0 (fun i => P i)) (k - s) n r (fun i => P i) with hQ0
  set R0 := fillRange je 0 (p - s) 0 (fun i => P (k - p + i)) with hR0
  have inv := forUp_inv (f := body)
    (fun j RQ =>
      (∀ i, 0 ≤ i → i ≤ p - s - (j - 1) → RQ.1 i = rt U P p uu k (j - 1).toNat i) ∧
      (∀ i, 0 ≤ i → i ≤ k - p → RQ.2 i = P i) ∧
      (∀ j', 1 ≤ j' → j' ≤ j - 1 → RQ.2 (k - p + j') = rt U P p uu k j'.toNat 0) ∧
      (∀ j', 1 ≤ j' → j' ≤ j - 1 →
        RQ.2 (k + r - j' - s) = rt U P p uu k j'.toNat (p - j' - s)) ∧
      (∀ i, k - s ≤ i → i ≤ n → RQ.2 (i + r) = P i))
    (lo := 1) (hi := r) (s := (R0, Q0)) (by omega)
    (by
      refine ⟨?_, ?_, ?_, ?_, ?_⟩
      · intro i a b
        simp only [hR0, fillRange, sub_zero]
        rw [if_pos (by omega)]
        simp [rt]
      · intro i a b
        simp only [hQ0, fillRange, sub_zero]
        by_cases hc : k - s ≤ i - r ∧ i - r ≤ n
        · rw [if_pos hc]
          have : r = 0 := by omega
          subst this; simp
        · rw [if_neg hc, if_pos (by omega)]
      · intro j' a b; omega
      · intro j' a b; omega
      · intro i a b
        simp only [hQ0, fillRange, add_sub_cancel_right]
        rw [if_pos (by omega)])
    (by
      rintro j ⟨R, Q⟩ h1 h2 ⟨a1, a2, a3, a4, a5⟩
      simp only at a1 a2 a3 a4 a5
      have e : j + 1 - 1 = j := by ring
      rw [e]
      obtain ⟨q, hq⟩ : ∃ q : ℕ, (q : ℤ) = j - 1 := ⟨(j - 1).toNat, by omega⟩
      have hq1 : (j - 1).toNat = q := by omega
      have hq2 : j.toNat = q + 1 := by omega
      rw [hq1] at a1
      rw [hq2]
      have hR : ∀ i, 0 ≤ i → i ≤ p - s - j → cutPass U uu k (k - p + j) (p - j - s) R i =
          rt U P p uu k (q + 1) i := by
        intro i x1 x2
        rw [cutPass_spec, if_pos (by omega), a1 i x1 (by omega), a1 (i + 1) (by omega) (by omega), rt]
        have : ((q + 1 : ℕ) : ℤ) = j := by push_cast; omega
        rw [this]
      simp only [hbody]
      refine ⟨hR, ?_, ?_, ?_, ?_⟩
      · intro i x1 x2
        rw [upd_ne _ _ (by omega), upd_ne _ _ (by omega)]
        exact a2 i x1 x2
      · intro j' x1 x2
        by_cases hjj : j' = j
        · subst hjj
          rw [hq2]
          by_cases hov : k - p + j' = k + r - j' - s
          · rw [upd_eq _ _ hov, hR _ (by omega) (by omega)]
            congr 1; omega
          · rw [upd_ne _ _ hov, upd_same, hR _ (by omega) (by omega)]
        · rw [upd_ne _ _ (by omega), upd_ne _ _ (by omega)]
          exact a3 j' x1 (by omega)
      · intro j' x1 x2
        by_cases hjj : j' = j
        · subst hjj
          rw [hq2, upd_same, hR _ (by omega) (by omega)]
        · rw [upd_ne _ _ (by omega), upd_ne _ _ (by omega)]
          exact a4 j' x1 (by omega)
      · intro i x1 x2
        rw [upd_ne _ _ (by omega), upd_ne _ _ (by omega)]
        exact a5 i x1 x2)
  obtain ⟨b1, b2, b3, b4, b5⟩ := inv
  have e : r + 1 - 1 = r := by ring
  rw [e] at b1 b3 b4
  -- final loop
  have fin : ∀ i, insertKnotQ je n p U P uu k s r i =
      if k - p + r < i ∧ i < k - s then (forUp 1 r body (R0, Q0)).1 (i - (k - p + r))
      else (forUp 1 r body (R0, Q0)).2 i := by
    intro i
    by_cases hemp : k - s - 1 < k - p + r + 1
    · have : insertKnotQ je n p U P uu k s r i = (forUp 1 r body (R0, Q0)).2 i := by
        unfold insertKnotQ
        simp only
        rw [forUp_empty (by omega)]
      rw [this, if_neg (by omega)]
    · have := forUp_inv (f := fun i (Qw : ℤ → E) =>
          upd Qw i ((forUp 1 r body (R0, Q0)).1 (i - (k - p + r))))
        (fun j (Q : ℤ → E) => ∀ i, Q i = if k - p + r < i ∧ i < j then
            (forUp 1 r body (R0, Q0)).1 (i - (k - p + r))
          else (forUp 1 r body (R0, Q0)).2 i)
        (lo := k - p + r + 1) (hi := k - s - 1) (s := (forUp 1 r body (R0, Q0)).2) (by omega)
        (by intro i; rw [if_neg (by omega)])
        (by
          intro j Q h1 h2 ih i
          by_cases hij : i = j
          · subst hij
            simp only [upd_same]
            rw [if_pos (by omega)]
          · rw [upd_ne _ _ hij, ih i]
            by_cases hc : k - p + r < i ∧ i < j
            · rw [if_pos hc, if_pos (by omega)]
            · rw [if_neg hc, if_neg (by omega)])
      have h := this i
      have e2 : k - s - 1 + 1 = k - s := by ring
      rw [e2] at h
      exact h
  refine ⟨?_, ?_, ?_, ?_, ?_⟩
  · intro i x1 x2
    rw [fin, if_neg (by omega)]; exact b2 i x1 x2
  · intro j x1 x2
    rw [fin, if_neg (by omega)]; exact b3 j x1 x2
  · intro i x1 x2
    rw [fin, if_pos ⟨x1, x2⟩, b1 _ (by omega) (by omega)]
  · intro j x1 x2
    rw [fin, if_neg (by omega)]; exact b4 j x1 x2
  · intro i x1 x2
    rw [fin, if_neg (by omega)]; exact b5 i x1 x2

/-- entries of the new knot vector -/
theorem insertKnotV_lo (jk : ℤ → K) (n p : ℤ) (U : ℤ → K) (uu : K) (k r : ℤ) (hr : 0 ≤ r)
    (i : ℤ) (h1 : 0 ≤ i) (h2 : i ≤ k) : insertKnotV jk n p U uu k r i = U i := by
  simp only [insertKnotV, fillRange, sub_zero]
  rw [if_neg (by omega), if_neg (by omega), if_pos (by omega)]

theorem insertKnotV_mid (jk : ℤ → K) (n p : ℤ) (U : ℤ → K) (uu : K) (k r : ℤ)
    (i : ℤ) (h1 : k < i) (h2 : i ≤ k + r) : insertKnotV jk n p U uu k r i = uu := by
  simp only [insertKnotV, fillRange, sub_zero]
  rw [if_neg (by omega), if_pos (by omega)]

theorem insertKnotV_hi (jk : ℤ → K) (n p : ℤ) (U : ℤ → K) (uu : K) (k r : ℤ)
    (i : ℤ) (h1 : k + r < i) (h2 : i ≤ n + p + 1 + r) :
    insertKnotV jk n p U uu k r i = U (i - r) := by
  simp only [insertKnotV, fillRange, sub_zero]
  rw [if_pos (by omega)]

end Igakit
