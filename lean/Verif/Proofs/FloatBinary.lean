import Verif.Spec.Float
import Mathlib.Data.Int.Log
import Mathlib.Data.Rat.Floor
import Mathlib.Algebra.Order.Field.Power
import Mathlib.Tactic.Linarith
import Mathlib.Tactic.Positivity
import Mathlib.Tactic.FieldSimp

/-! # Binary floating point rounding: the hypotheses of the floating point theorems can be met -/

set_option linter.unusedSectionVars false

namespace Igakit
namespace Ex

/-- the multiple of `2^e` nearest to `x`, ties away from zero -/
def rnd (e : ℤ) (x : ℚ) : ℚ :=
  if 0 ≤ x then (⌊x / 2 ^ e + 1 / 2⌋ : ℚ) * 2 ^ e else -((⌊(-x) / 2 ^ e + 1 / 2⌋ : ℚ) * 2 ^ e)

/-- binary floating point numbers with `t` bits and unbounded exponents -/
def fl (t : ℕ) (x : ℚ) : ℚ := rnd (Int.log 2 |x| + 1 - t) x

/-- binary floating point numbers with `t` bits and smallest positive number `2^emin`; doubles are `t = 53`, `emin = -1074` -/
def flMin (t : ℕ) (emin : ℤ) (x : ℚ) : ℚ := rnd (max (Int.log 2 |x| + 1 - t) emin) x

/-- the numbers `flMin` rounds to -/
def IsFloat (t : ℕ) (emin : ℤ) (x : ℚ) : Prop := ∃ m e : ℤ, emin ≤ e ∧ |m| ≤ 2 ^ t ∧ x = m * 2 ^ e

theorem rnd_zero (e : ℤ) : rnd e 0 = 0 := by
  have : ⌊(0 : ℚ) / 2 ^ e + 1 / 2⌋ = 0 := by rw [zero_div]; norm_num
  unfold rnd
  rw [if_pos le_rfl, this]
  simp

theorem rnd_err (e : ℤ) (x : ℚ) : |rnd e x - x| ≤ 2 ^ e / 2 := by
  have key : ∀ y : ℚ, |(⌊y / 2 ^ e + 1 / 2⌋ : ℚ) * 2 ^ e - y| ≤ 2 ^ e / 2 := by
    intro y
    have hp : (0 : ℚ) < 2 ^ e := by positivity
    have e1 := Int.floor_le (y / 2 ^ e + 1 / 2)
    have e2 := Int.lt_floor_add_one (y / 2 ^ e + 1 / 2)
    have e3 : y = y / 2 ^ e * 2 ^ e := by field_simp
    generalize hq : y / 2 ^ e = q at *
    rw [e3, ← sub_mul, abs_mul, abs_of_pos hp, mul_comm,
      show (2 : ℚ) ^ e / 2 = 2 ^ e * (1 / 2) by ring]
    refine mul_le_mul_of_nonneg_left ?_ hp.le
    rw [abs_le]
    constructor <;> linarith
  unfold rnd
  split_ifs with h
  · exact key x
  · have := key (-x)
    rw [abs_sub_comm] at this
    rw [show -((⌊(-x) / 2 ^ e + 1 / 2⌋ : ℚ) * 2 ^ e) - x = -x - (⌊(-x) / 2 ^ e + 1 / 2⌋ : ℚ) * 2 ^ e by ring]
    exact this

/-- rounding with unbounded exponents has relative error at most `2^-t` -/
theorem fl_relErr (t : ℕ) : RelErr ((2 : ℚ) ^ (-(t : ℤ))) (fl t) := by
  intro x
  rcases eq_or_ne x 0 with rfl | hx
  · rw [fl, rnd_zero]
    simp
  · have h := rnd_err (Int.log 2 |x| + 1 - t) x
    have hl : (2 : ℚ) ^ Int.log 2 |x| ≤ |x| := by
      exact_mod_cast Int.zpow_log_le_self (b := 2) (by norm_num) (abs_pos.mpr hx)
    refine h.trans ?_
    rw [show Int.log 2 |x| + 1 - (t : ℤ) = -(t : ℤ) + Int.log 2 |x| + 1 by ring, zpow_add₀ (by norm_num),
      zpow_add₀ (by norm_num), zpow_one, mul_div_assoc, div_self (by norm_num : (2 : ℚ) ≠ 0), mul_one]
    exact mul_le_mul_of_nonneg_left hl (by positivity)

theorem rnd_mono_same (e : ℤ) {x y : ℚ} (hx : 0 ≤ x) (h : x ≤ y) : rnd e x ≤ rnd e y := by
  unfold rnd
  rw [if_pos hx, if_pos (hx.trans h)]
  have hp : (0 : ℚ) < 2 ^ e := by positivity
  refine mul_le_mul_of_nonneg_right ?_ hp.le
  have : x / 2 ^ e + 1 / 2 ≤ y / 2 ^ e + 1 / 2 := by
    have := div_le_div_of_nonneg_right h hp.le
    linarith
  exact_mod_cast Int.floor_le_floor this

theorem rnd_exact (e m : ℤ) : rnd e (m * 2 ^ e) = m * 2 ^ e := by
  have hp : (2 : ℚ) ^ e ≠ 0 := by positivity
  have key : ∀ k : ℤ, ⌊(k : ℚ) * 2 ^ e / 2 ^ e + 1 / 2⌋ = k := by
    intro k
    rw [mul_div_assoc, div_self hp, mul_one, Int.floor_intCast_add]
    norm_num
  unfold rnd
  split_ifs with h
  · rw [key]
  · rw [show -((m : ℚ) * 2 ^ e) = ((-m : ℤ) : ℚ) * 2 ^ e by push_cast; ring, key]
    push_cast
    ring

theorem rnd_neg (e : ℤ) (x : ℚ) : rnd e (-x) = -rnd e x := by
  rcases lt_trichotomy x 0 with h | h | h
  · unfold rnd
    rw [if_pos (by linarith), if_neg (by linarith), neg_neg]
  · rw [h, neg_zero, rnd_zero, neg_zero]
  · unfold rnd
    rw [if_neg (by linarith), if_pos (by linarith), neg_neg]

/-- the exponent `flMin` rounds to -/
def expo (t : ℕ) (emin : ℤ) (x : ℚ) : ℤ := max (Int.log 2 |x| + 1 - t) emin

theorem flMin_eq (t : ℕ) (emin : ℤ) (x : ℚ) : flMin t emin x = rnd (expo t emin x) x := rfl

theorem two_pow_split (a b : ℤ) (h : b ≤ a) : (2 : ℚ) ^ a = ((2 ^ (a - b).toNat : ℤ) : ℚ) * 2 ^ b := by
  push_cast
  rw [← zpow_natCast, ← zpow_add₀ (by norm_num)]
  congr 1
  omega

/-- a multiple of `2^b` is kept by a finer rounding -/
theorem rnd_exact_le (e : ℤ) (m b : ℤ) (h : e ≤ b) : rnd e (m * 2 ^ b) = m * 2 ^ b := by
  rw [two_pow_split b e h, ← mul_assoc, ← Int.cast_mul, rnd_exact]

theorem flMin_exact {t : ℕ} (ht : 1 ≤ t) {emin : ℤ} {x : ℚ} (hx : IsFloat t emin x) : flMin t emin x = x := by
  obtain ⟨m, e, he, hm, rfl⟩ := hx
  rcases eq_or_ne m 0 with rfl | hm0
  · rw [flMin, Int.cast_zero, zero_mul, rnd_zero]
  rw [flMin_eq]
  have hx0 : (0 : ℚ) < |(m : ℚ) * 2 ^ e| := abs_pos.mpr (mul_ne_zero (by exact_mod_cast hm0) (by positivity))
  have habs : |(m : ℚ) * 2 ^ e| = (|m| : ℤ) * 2 ^ e := by
    rw [abs_mul, abs_of_pos (by positivity : (0 : ℚ) < 2 ^ e)]
    push_cast
    rfl
  rcases hm.lt_or_eq with h | h
  · apply rnd_exact_le
    unfold expo
    refine max_le ?_ he
    have : Int.log 2 |(m : ℚ) * 2 ^ e| < t + e := by
      rw [← Int.lt_zpow_iff_log_lt (by norm_num) hx0, habs]
      push_cast
      rw [zpow_add₀ (by norm_num), zpow_natCast]
      refine mul_lt_mul_of_pos_right ?_ (by positivity)
      exact_mod_cast h
    omega
  · have hlog : Int.log 2 |(m : ℚ) * 2 ^ e| = t + e := by
      have e1 : |(m : ℚ) * 2 ^ e| = ((2 : ℕ) : ℚ) ^ ((t : ℤ) + e) := by
        rw [habs, h]
        push_cast
        rw [zpow_add₀ (by norm_num), zpow_natCast]
      rw [e1, Int.log_zpow (by norm_num)]
    have hx1 : expo t emin ((m : ℚ) * 2 ^ e) = e + 1 := by
      unfold expo
      rw [hlog]
      omega
    rw [hx1]
    have h2 : m = 2 ^ t ∨ m = -2 ^ t := by
      rcases abs_choice m with h' | h' <;> omega
    obtain ⟨s, rfl⟩ : ∃ s, t = s + 1 := ⟨t - 1, by omega⟩
    obtain ⟨k, hk⟩ : ∃ k : ℤ, m = k * 2 := by
      rcases h2 with h2 | h2
      · exact ⟨2 ^ s, by rw [h2, pow_succ]⟩
      · exact ⟨-2 ^ s, by rw [h2, pow_succ]; ring⟩
    have e2 : (m : ℚ) * 2 ^ e = k * 2 ^ (e + 1) := by
      rw [hk, zpow_add₀ (by norm_num)]
      push_cast
      ring
    rw [e2, rnd_exact]

theorem flMin_mem_nonneg {t : ℕ} (emin : ℤ) {x : ℚ} (hx : 0 ≤ x) :
    ∃ m : ℤ, 0 ≤ m ∧ m ≤ 2 ^ t ∧ flMin t emin x = m * 2 ^ (expo t emin x) := by
  rw [flMin_eq]
  have hp : (0 : ℚ) < 2 ^ expo t emin x := by positivity
  have hq : (0 : ℚ) ≤ x / 2 ^ expo t emin x := div_nonneg hx hp.le
  refine ⟨⌊x / 2 ^ expo t emin x + 1 / 2⌋, Int.floor_nonneg.mpr (by linarith), ?_, by unfold rnd; rw [if_pos hx]⟩
  have hlt : x / 2 ^ expo t emin x < 2 ^ t := by
    rw [div_lt_iff₀ hp]
    have h1 : x < (2 : ℚ) ^ (Int.log 2 |x| + 1) := by
      have := Int.lt_zpow_succ_log_self (b := 2) (by norm_num) |x|
      rw [abs_of_nonneg hx] at this ⊢
      exact_mod_cast this
    refine h1.trans_le ?_
    rw [← zpow_natCast, ← zpow_add₀ (by norm_num)]
    exact zpow_le_zpow_right₀ (by norm_num) (by unfold expo; omega)
  have : ⌊x / 2 ^ expo t emin x + 1 / 2⌋ < 2 ^ t + 1 := by
    rw [Int.floor_lt]
    push_cast
    linarith
  omega

theorem flMin_neg (t : ℕ) (emin : ℤ) (x : ℚ) : flMin t emin (-x) = -flMin t emin x := by
  unfold flMin
  rw [abs_neg, rnd_neg]

theorem flMin_mem (t : ℕ) (emin : ℤ) (x : ℚ) : IsFloat t emin (flMin t emin x) := by
  rcases le_total 0 x with h | h
  · obtain ⟨m, h1, h2, h3⟩ := flMin_mem_nonneg (t := t) emin h
    exact ⟨m, _, le_max_right _ _, by rwa [abs_of_nonneg h1], h3⟩
  · obtain ⟨m, h1, h2, h3⟩ := flMin_mem_nonneg (t := t) emin (neg_nonneg.mpr h)
    refine ⟨-m, expo t emin (-x), le_max_right _ _, by rwa [abs_neg, abs_of_nonneg h1], ?_⟩
    rw [flMin_neg] at h3
    push_cast
    linarith

theorem flMin_mono_nonneg {t : ℕ} (ht : 1 ≤ t) (emin : ℤ) {x y : ℚ} (hx : 0 ≤ x) (h : x ≤ y) :
    flMin t emin x ≤ flMin t emin y := by
  rcases eq_or_lt_of_le hx with rfl | hx0
  · have h0 : flMin t emin 0 = 0 := by rw [flMin, rnd_zero]
    rw [h0]
    obtain ⟨m, h1, -, h3⟩ := flMin_mem_nonneg (t := t) emin h
    rw [h3]
    have : (0 : ℚ) ≤ m := by exact_mod_cast h1
    positivity
  have hlog : Int.log 2 |x| ≤ Int.log 2 |y| := by
    rw [abs_of_nonneg hx, abs_of_nonneg (hx.trans h)]
    exact Int.log_mono_right hx0 h
  have hle : expo t emin x ≤ expo t emin y := by unfold expo; omega
  rcases hle.eq_or_lt with he | he
  · rw [flMin_eq, flMin_eq, he]
    exact rnd_mono_same _ hx h
  · -- `2^(t + expo x)` lies between
    obtain ⟨m, -, h2, h3⟩ := flMin_mem_nonneg (t := t) emin hx
    have a1 : flMin t emin x ≤ 2 ^ ((t : ℤ) + expo t emin x) := by
      rw [h3, zpow_add₀ (by norm_num), zpow_natCast]
      refine mul_le_mul_of_nonneg_right ?_ (by positivity)
      exact_mod_cast h2
    refine a1.trans ?_
    -- a power of two, a multiple of the spacing at `y`, not above `y`
    have a2 : (t : ℤ) + expo t emin x ≤ Int.log 2 |y| := by
      unfold expo at he ⊢
      omega
    have a3 : (2 : ℚ) ^ Int.log 2 |y| ≤ y := by
      have := Int.zpow_log_le_self (b := 2) (by norm_num) (abs_pos.mpr (hx0.trans_le h).ne')
      rw [abs_of_nonneg (hx.trans h)] at this ⊢
      exact_mod_cast this
    have a4 : expo t emin y ≤ Int.log 2 |y| := by
      unfold expo at he ⊢
      omega
    calc (2 : ℚ) ^ ((t : ℤ) + expo t emin x) ≤ 2 ^ Int.log 2 |y| := zpow_le_zpow_right₀ (by norm_num) a2
      _ = rnd (expo t emin y) (2 ^ Int.log 2 |y|) := by
        have := rnd_exact_le (expo t emin y) 1 (Int.log 2 |y|) a4
        rw [Int.cast_one, one_mul] at this
        exact this.symm
      _ ≤ rnd (expo t emin y) y := rnd_mono_same _ (by positivity) a3
      _ = flMin t emin y := rfl

theorem flMin_nonneg {t : ℕ} (ht : 1 ≤ t) (emin : ℤ) {x : ℚ} (hx : 0 ≤ x) : 0 ≤ flMin t emin x := by
  have := flMin_mono_nonneg ht emin le_rfl hx
  rwa [show flMin t emin 0 = 0 by rw [flMin, rnd_zero]] at this

theorem flMin_mono {t : ℕ} (ht : 1 ≤ t) (emin : ℤ) : Monotone (flMin t emin) := by
  intro x y h
  rcases le_total 0 x with hx | hx
  · exact flMin_mono_nonneg ht emin hx h
  · rcases le_total 0 y with hy | hy
    · have a := flMin_nonneg ht emin (neg_nonneg.mpr hx)
      rw [flMin_neg] at a
      have b := flMin_nonneg ht emin hy
      linarith
    · have := flMin_mono_nonneg ht emin (neg_nonneg.mpr hy) (neg_le_neg h)
      rw [flMin_neg, flMin_neg] at this
      linarith

/-- rounding to binary floating point numbers, with gradual underflow -/
theorem flMin_rounds {t : ℕ} (ht : 1 ≤ t) {emin : ℤ} (he : emin ≤ 0) : Rounds (IsFloat t emin) (flMin t emin) where
  mem := flMin_mem t emin
  exact := fun _ => flMin_exact ht
  mono := flMin_mono ht emin
  zero := ⟨0, 0, he, by simp, by simp⟩
  one := ⟨1, 0, he, by rw [abs_one]; exact one_le_pow₀ (by norm_num), by simp⟩
  apart := by
    rintro x y ⟨m, e, h1, -, rfl⟩ ⟨m', e', h1', -, rfl⟩ hlt
    rw [two_pow_split e emin h1, two_pow_split e' emin h1', ← mul_assoc, ← mul_assoc, ← sub_mul] at *
    have hp : (0 : ℚ) < 2 ^ emin := by positivity
    have hlt' := lt_of_mul_lt_mul_right hlt hp.le
    have h3 : m * 2 ^ (e - emin).toNat < m' * 2 ^ (e' - emin).toNat := by exact_mod_cast hlt'
    have h4 : ((2 : ℚ) ^ emin) ≤ (m' * ((2 ^ (e' - emin).toNat : ℤ) : ℚ) - m * ((2 ^ (e - emin).toNat : ℤ) : ℚ)) * 2 ^ emin := by
      refine le_mul_of_one_le_left hp.le ?_
      have : (1 : ℤ) ≤ m' * 2 ^ (e' - emin).toNat - m * 2 ^ (e - emin).toNat := by omega
      exact_mod_cast this
    have h5 : flMin t emin (2 ^ emin) = 2 ^ emin :=
      flMin_exact ht ⟨1, emin, le_rfl, by rw [abs_one]; exact one_le_pow₀ (by norm_num), by simp⟩
    exact (hp.trans_eq h5.symm).trans_le (flMin_mono ht emin h4)

/-- unbounded exponents are the limit of smaller and smaller `emin` -/
theorem fl_eq_flMin (t : ℕ) {emin : ℤ} {x : ℚ} (h : emin ≤ Int.log 2 |x| + 1 - t) : fl t x = flMin t emin x := by
  unfold fl flMin
  rw [max_eq_left h]

theorem fl_mono {t : ℕ} (ht : 1 ≤ t) : Monotone (fl t) := by
  intro x y h
  rw [fl_eq_flMin t (emin := min (Int.log 2 |x| + 1 - t) (Int.log 2 |y| + 1 - t)) (min_le_left _ _),
    fl_eq_flMin t (emin := min (Int.log 2 |x| + 1 - t) (Int.log 2 |y| + 1 - t)) (min_le_right _ _)]
  exact flMin_mono ht _ h

theorem fl_neg (t : ℕ) (x : ℚ) : fl t (-x) = -fl t x := by
  unfold fl
  rw [abs_neg, rnd_neg]

/-- powers of two are floating point numbers -/
theorem fl_pow {t : ℕ} (ht : 1 ≤ t) (e : ℤ) : fl t (2 ^ e) = 2 ^ e := by
  unfold fl
  have h : Int.log 2 |(2 : ℚ) ^ e| = e := by
    rw [abs_of_pos (by positivity)]
    exact_mod_cast Int.log_zpow (R := ℚ) (b := 2) (by norm_num) e
  rw [h]
  have := rnd_exact_le (e + 1 - t) 1 e (by omega)
  rwa [Int.cast_one, one_mul] at this

theorem fl_one {t : ℕ} (ht : 1 ≤ t) : fl t 1 = 1 := by
  have := fl_pow ht 0
  rwa [zpow_zero] at this

/-- rounding does not cross a power of two -/
theorem fl_ge {t : ℕ} (ht : 1 ≤ t) (e : ℤ) {x : ℚ} (h : 2 ^ e ≤ |x|) : 2 ^ e ≤ |fl t x| := by
  rcases le_total 0 x with hx | hx
  · rw [abs_of_nonneg hx] at h
    have := fl_mono ht h
    rw [fl_pow ht] at this
    exact this.trans (le_abs_self _)
  · rw [abs_of_nonpos hx] at h
    have := fl_mono ht h
    rw [fl_pow ht, fl_neg] at this
    exact this.trans (neg_le_abs _)

end Ex
end Igakit
