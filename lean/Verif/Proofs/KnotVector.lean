import Verif.Model.Iga
import Verif.Spec.Knots
import Mathlib.Tactic.Linarith
import Mathlib.Tactic.FieldSimp
import Mathlib.Tactic.LinearCombination

/-! # Closed form of the knot vectors built by `KnotVector` -/

set_option linter.unusedSectionVars false

namespace Igakit
open Spec

variable {K : Type*} [Field K] [LinearOrder K] [IsStrictOrderedRing K]

/-- rounding up division -/
def cdiv (a b : ℤ) : ℤ := (a + b - 1) / b

theorem cdiv_eq {a b i : ℤ} (hb : 0 < b) (h1 : (i - 1) * b < a) (h2 : a ≤ i * b) : cdiv a b = i := by
  unfold cdiv
  have : a + b - 1 = (a - 1 - (i - 1) * b) + i * b := by ring
  rw [this, Int.add_mul_ediv_right _ _ hb.ne', Int.ediv_eq_zero_of_lt (by omega) (by nlinarith)]
  omega

theorem cdiv_bounds (a : ℤ) {b : ℤ} (hb : 0 < b) : (cdiv a b - 1) * b < a ∧ a ≤ cdiv a b * b := by
  unfold cdiv
  have h1 := Int.mul_ediv_add_emod (a + b - 1) b
  have h2 := Int.emod_nonneg (a + b - 1) hb.ne'
  have h3 := Int.emod_lt_of_pos (a + b - 1) hb
  constructor <;> nlinarith

theorem cdiv_mono {a a' b : ℤ} (hb : 0 < b) (h : a ≤ a') : cdiv a b ≤ cdiv a' b :=
  Int.ediv_le_ediv hb (by omega)

theorem cdiv_add_mul (a b k : ℤ) (hb : 0 < b) : cdiv (a + k * b) b = cdiv a b + k := by
  obtain ⟨h1, h2⟩ := cdiv_bounds a hb
  apply cdiv_eq hb <;> nlinarith

theorem knotVectorInner_spec (jk : ℤ → K) {E p C : ℤ} (hE : 1 ≤ E) (hC : C < p) (Ui dU : K) :
    ∀ x, p + 1 ≤ x → x < p + 1 + (E - 1) * (p - C) →
      (knotVectorInner jk E p C Ui dU).2 x = Ui + (cdiv (x - p) (p - C) : ℤ) * dU := by
  have hq : 0 < p - C := by omega
  have main := forUp_inv (lo := 1) (hi := E - 1) (s := (p + 1, jk))
    (f := fun i s => forUp 1 (p - C) (fun _ (s : ℤ × (ℤ → K)) =>
      (s.1 + 1, upd s.2 s.1 (Ui + (i : K) * dU))) s)
    (I := fun i s => s.1 = p + 1 + (i - 1) * (p - C) ∧
      ∀ x, p + 1 ≤ x → x < p + 1 + (i - 1) * (p - C) → s.2 x = Ui + (cdiv (x - p) (p - C) : ℤ) * dU)
    (by omega) ⟨by ring, fun x h1 h2 => by nlinarith⟩ (by
      intro i s hi1 hi2 hs
      have inner := forUp_inv (lo := 1) (hi := p - C) (s := s)
        (f := fun _ (s : ℤ × (ℤ → K)) => (s.1 + 1, upd s.2 s.1 (Ui + (i : K) * dU)))
        (I := fun j s => s.1 = p + (i - 1) * (p - C) + j ∧
          ∀ x, p + 1 ≤ x → x < p + (i - 1) * (p - C) + j → s.2 x = Ui + (cdiv (x - p) (p - C) : ℤ) * dU)
        (by omega) ⟨by rw [hs.1]; ring, fun x h1 h2 => hs.2 x h1 (by linarith)⟩ (by
          intro j s hj1 hj2 hs
          refine ⟨by show s.1 + 1 = _; rw [hs.1]; ring, ?_⟩
          intro x h1 h2
          by_cases hx : x = s.1
          · show upd s.2 s.1 _ x = _
            rw [upd_eq _ _ hx, cdiv_eq (i := i) hq]
            · rw [hx, hs.1]; linarith
            · rw [hx, hs.1]; nlinarith
          · show upd s.2 s.1 _ x = _
            rw [upd_ne _ _ hx]
            exact hs.2 x h1 (by omega))
      refine ⟨by rw [inner.1]; ring, ?_⟩
      intro x h1 h2
      exact inner.2 x h1 (by linarith))
  intro x h1 h2
  exact main.2 x h1 (by linarith)

theorem knotVectorEnds_spec {p m : ℤ} (hp : 0 ≤ p) (hm : 2 * p + 1 ≤ m) (Ui Uf : K) (U : ℤ → K) :
    (∀ x, 0 ≤ x → x ≤ p → knotVectorEnds p m Ui Uf U x = Ui) ∧
    (∀ x, m - p ≤ x → x ≤ m → knotVectorEnds p m Ui Uf U x = Uf) ∧
    (∀ x, p < x → x < m - p → knotVectorEnds p m Ui Uf U x = U x) := by
  have main := forUp_inv (lo := 0) (hi := p) (s := U)
    (f := fun k U => upd (upd U k Ui) (m - k) Uf)
    (I := fun k V => (∀ x, 0 ≤ x → x < k → V x = Ui) ∧ (∀ x, m - k < x → x ≤ m → V x = Uf) ∧
      (∀ x, p < x → x < m - p → V x = U x))
    (by omega) ⟨fun x h1 h2 => by omega, fun x h1 h2 => by omega, fun x h1 h2 => rfl⟩ (by
      intro k V hk1 hk2 hV
      refine ⟨?_, ?_, ?_⟩
      · intro x h1 h2
        rw [upd_ne _ _ (by omega)]
        by_cases hx : x = k
        · rw [upd_eq _ _ hx]
        · rw [upd_ne _ _ hx]; exact hV.1 x h1 (by omega)
      · intro x h1 h2
        by_cases hx : x = m - k
        · rw [upd_eq _ _ hx]
        · rw [upd_ne _ _ hx, upd_ne _ _ (by omega)]; exact hV.2.1 x (by omega) h2
      · intro x h1 h2
        rw [upd_ne _ _ (by omega), upd_ne _ _ (by omega)]; exact hV.2.2 x h1 h2)
  exact ⟨fun x h1 h2 => main.1 x h1 (by omega), fun x h1 h2 => main.2.1 x (by omega) h2, main.2.2⟩

/-- `m - p - 1` of the knot vector -/
theorem knotVectorM_eq (E p C : ℤ) : knotVectorM E p C = p + 1 + (E - 1) * (p - C) + p := by
  unfold knotVectorM; ring

/-- not wrapped: closed form on all of `0..m` -/
theorem knotVector_open (jk : ℤ → K) {E p C : ℤ} (hE : 1 ≤ E) (hp : 1 ≤ p) (hC : C < p) (Ui Uf : K) :
    let U := knotVectorEnds p (knotVectorM E p C) Ui Uf
      (knotVectorInner jk E p C Ui ((Uf - Ui) / (E : K))).2
    (∀ x, 0 ≤ x → x ≤ p → U x = Ui) ∧
    (∀ x, p ≤ x → x ≤ p + 1 + (E - 1) * (p - C) →
      U x = Ui + (cdiv (x - p) (p - C) : ℤ) * ((Uf - Ui) / (E : K))) ∧
    (∀ x, p + 1 + (E - 1) * (p - C) ≤ x → x ≤ knotVectorM E p C → U x = Uf) := by
  intro U
  have hq : 0 < p - C := by omega
  have hEq : 0 ≤ (E - 1) * (p - C) := mul_nonneg (by omega) hq.le
  have hm := knotVectorM_eq E p C
  obtain ⟨h1, h2, h3⟩ := knotVectorEnds_spec (m := knotVectorM E p C) (by omega : 0 ≤ p) (by omega) Ui Uf
    (knotVectorInner jk E p C Ui ((Uf - Ui) / (E : K))).2
  refine ⟨h1, ?_, fun x a b => h2 x (by omega) b⟩
  intro x a b
  rcases eq_or_lt_of_le a with e | a'
  · rw [show U x = Ui from h1 x (by omega) (by omega), cdiv_eq (i := 0) hq (by linarith) (by linarith)]
    simp
  · rcases eq_or_lt_of_le b with e | b'
    · have hEK : (E : K) ≠ 0 := by exact_mod_cast (by omega : E ≠ 0)
      rw [show U x = Uf from h2 x (by omega) (by omega), cdiv_eq (i := E) hq (by rw [e]; linarith) (by rw [e]; nlinarith)]
      field_simp; ring
    · rw [show U x = _ from h3 x a' (by omega)]
      exact knotVectorInner_spec jk hE hC _ _ x (by omega) b'

/-- wrapped: the same closed form holds on all of `0..m` -/
theorem knotVector_wrap (jk : ℤ → K) {E p C : ℤ} (hE : 1 ≤ E) (hp : 1 ≤ p) (hC0 : 0 ≤ C) (hC : C < p)
    (Ui Uf : K) :
    let U := knotVectorWrap p C (knotVectorM E p C) Ui Uf (knotVectorEnds p (knotVectorM E p C) Ui Uf
      (knotVectorInner jk E p C Ui ((Uf - Ui) / (E : K))).2)
    ∀ x, 0 ≤ x → x ≤ knotVectorM E p C →
      U x = Ui + (cdiv (x - p) (p - C) : ℤ) * ((Uf - Ui) / (E : K)) := by
  intro U
  have hq : 0 < p - C := by omega
  have hEK : (E : K) ≠ 0 := by exact_mod_cast (by omega : E ≠ 0)
  have hm := knotVectorM_eq E p C
  set dU := (Uf - Ui) / (E : K) with hdU
  have hEd : (E : K) * dU = Uf - Ui := by rw [hdU]; field_simp
  obtain ⟨g1, g2, g3⟩ := knotVector_open jk hE hp hC Ui Uf
  set m := knotVectorM E p C with hmdef
  have hEq : 0 ≤ (E - 1) * (p - C) := mul_nonneg (by omega) hq.le
  have hEqq : E * (p - C) = (E - 1) * (p - C) + (p - C) := by ring
  have main := forUp_inv (lo := 0) (hi := C)
    (s := knotVectorEnds p m Ui Uf (knotVectorInner jk E p C Ui dU).2)
    (f := fun k U =>
      let U := upd U (C - k) (Ui - Uf + U (m - (p + 1) - k))
      upd U (m - C + k) (Uf - Ui + U (p + 1 + k)))
    (I := fun k V => ∀ x, C - k < x → x < m - C + k → V x = Ui + (cdiv (x - p) (p - C) : ℤ) * dU)
    (by omega) (by
      intro x h1 h2
      rcases le_or_gt x p with h | h
      · rw [g1 x (by omega) h, cdiv_eq (i := 0) hq (by omega) (by omega)]
        simp
      · rcases le_or_gt x (p + 1 + (E - 1) * (p - C)) with h' | h'
        · exact g2 x h.le h'
        · rw [g3 x h'.le (by omega), cdiv_eq (i := E) hq (by linarith) (by linarith), hEd]
          ring) (by
      intro k V hk1 hk2 hV x h1 h2
      dsimp only
      have left : Ui - Uf + V (m - (p + 1) - k) = Ui + (cdiv (C - k - p) (p - C) : ℤ) * dU := by
        rw [hV _ (by omega) (by omega)]
        have : m - (p + 1) - k - p = (C - k - p) + E * (p - C) := by omega
        rw [this, cdiv_add_mul _ _ _ hq]
        push_cast
        linear_combination hEd
      have right : ∀ V' : ℤ → K, (∀ x, C - k ≤ x → x < m - C + k →
          V' x = Ui + (cdiv (x - p) (p - C) : ℤ) * dU) →
          Uf - Ui + V' (p + 1 + k) = Ui + (cdiv (m - C + k - p) (p - C) : ℤ) * dU := by
        intro V' hV'
        rw [hV' _ (by omega) (by omega)]
        have : m - C + k - p = (p + 1 + k - p) + E * (p - C) := by omega
        rw [this, cdiv_add_mul _ _ _ hq]
        push_cast
        linear_combination -hEd
      have hV' : ∀ x, C - k ≤ x → x < m - C + k →
          upd V (C - k) (Ui - Uf + V (m - (p + 1) - k)) x = Ui + (cdiv (x - p) (p - C) : ℤ) * dU := by
        intro x a b
        by_cases hx : x = C - k
        · rw [upd_eq _ _ hx, left, hx]
        · rw [upd_ne _ _ hx]; exact hV x (by omega) b
      by_cases hx : x = m - C + k
      · rw [upd_eq _ _ hx, right _ hV', hx]
      · rw [upd_ne _ _ hx]; exact hV' x (by omega) (by omega))
  intro x h1 h2
  exact main x (by omega) (by omega)

end Igakit
