import Verif.Proofs.FloatBinary

/-! # Binary floating point numbers without bounds for the exponent -/

namespace Igakit
namespace Ex

/-- numbers with `t` binary digits -/
def IsFl (t : ℕ) (x : ℚ) : Prop := ∃ m e : ℤ, |m| ≤ 2 ^ t ∧ x = m * 2 ^ e

theorem isFl_of {t : ℕ} {emin : ℤ} {x : ℚ} (h : IsFloat t emin x) : IsFl t x := by
  obtain ⟨m, e, -, h1, h2⟩ := h
  exact ⟨m, e, h1, h2⟩

theorem fl_mem (t : ℕ) (x : ℚ) : IsFl t (fl t x) := by
  rw [fl_eq_flMin t le_rfl]
  exact isFl_of (flMin_mem t _ x)

theorem fl_exact {t : ℕ} (ht : 1 ≤ t) {x : ℚ} (h : IsFl t x) : fl t x = x := by
  obtain ⟨m, e, h1, h2⟩ := h
  rw [fl_eq_flMin t (min_le_right e _)]
  exact flMin_exact ht ⟨m, e, min_le_left _ _, h1, h2⟩

/-- the hypotheses about rounding hold for `fl t` -/
theorem fl_rounds {t : ℕ} (ht : 1 ≤ t) : Rounds (IsFl t) (fl t) where
  mem := fl_mem t
  exact := fun _ h => fl_exact ht h
  mono := fl_mono ht
  zero := ⟨0, 0, by positivity, by simp⟩
  one := ⟨1, 0, by rw [abs_one]; exact one_le_pow₀ (by norm_num), by simp⟩
  apart := by
    intro x y _ _ h
    have e := abs_le.mp (fl_relErr t (y - x))
    rw [abs_of_pos (by linarith : 0 < y - x)] at e
    have h2 : (2 : ℚ) ^ (-(t : ℤ)) < 1 := by
      rw [zpow_neg, zpow_natCast]
      exact inv_lt_one_of_one_lt₀ (one_lt_pow₀ (by norm_num) (by omega))
    have : (2 : ℚ) ^ (-(t : ℤ)) * (y - x) < 1 * (y - x) := mul_lt_mul_of_pos_right h2 (by linarith)
    linarith [e.1]

/-- Sterbenz: the difference of two numbers that differ by at most a factor of two is exact -/
theorem isFloat_sub {t : ℕ} {emin : ℤ} {x y : ℚ} (hx : IsFloat t emin x) (hy : IsFloat t emin y) (h1 : y / 2 ≤ x) (h2 : x ≤ y) :
    IsFloat t emin (y - x) := by
  obtain ⟨m, e, a1, a2, a3⟩ := hx
  obtain ⟨k, f, b1, b2, b3⟩ := hy
  rcases le_total e f with h | h
  · refine ⟨k * 2 ^ (f - e).toNat - m, e, a1, ?_, ?_⟩
    · have hp : (0 : ℚ) < 2 ^ e := by positivity
      have hc : y - x = ((k * 2 ^ (f - e).toNat - m : ℤ) : ℚ) * 2 ^ e := by
        rw [a3, b3, two_pow_split f e h]
        push_cast
        ring
      have c0 : 0 ≤ k * 2 ^ (f - e).toNat - m := by
        have : (0 : ℚ) ≤ ((k * 2 ^ (f - e).toNat - m : ℤ) : ℚ) * 2 ^ e := by rw [← hc]; linarith
        exact_mod_cast nonneg_of_mul_nonneg_left this hp
      have c1 : k * 2 ^ (f - e).toNat - m ≤ m := by
        have : ((k * 2 ^ (f - e).toNat - m : ℤ) : ℚ) * 2 ^ e ≤ (m : ℚ) * 2 ^ e := by rw [← hc, ← a3]; linarith
        exact_mod_cast le_of_mul_le_mul_right this hp
      rw [abs_of_nonneg c0]
      exact c1.trans ((le_abs_self m).trans a2)
    · rw [a3, b3, two_pow_split f e h]
      push_cast
      ring
  · refine ⟨k - m * 2 ^ (e - f).toNat, f, b1, ?_, ?_⟩
    · have hp : (0 : ℚ) < 2 ^ f := by positivity
      have hc : y - x = ((k - m * 2 ^ (e - f).toNat : ℤ) : ℚ) * 2 ^ f := by
        rw [a3, b3, two_pow_split e f h]
        push_cast
        ring
      have c0 : 0 ≤ k - m * 2 ^ (e - f).toNat := by
        have : (0 : ℚ) ≤ ((k - m * 2 ^ (e - f).toNat : ℤ) : ℚ) * 2 ^ f := by rw [← hc]; linarith
        exact_mod_cast nonneg_of_mul_nonneg_left this hp
      have c1 : k - m * 2 ^ (e - f).toNat ≤ k := by
        have : ((k - m * 2 ^ (e - f).toNat : ℤ) : ℚ) * 2 ^ f ≤ (k : ℚ) * 2 ^ f := by rw [← hc, ← b3]; linarith
        exact_mod_cast le_of_mul_le_mul_right this hp
      rw [abs_of_nonneg c0]
      exact c1.trans ((le_abs_self k).trans b2)
    · rw [a3, b3, two_pow_split e f h]
      push_cast
      ring

theorem isFl_float {t : ℕ} {x y : ℚ} (hx : IsFl t x) (hy : IsFl t y) : ∃ emin, IsFloat t emin x ∧ IsFloat t emin y := by
  obtain ⟨m, e, a2, a3⟩ := hx
  obtain ⟨k, f, b2, b3⟩ := hy
  exact ⟨min e f, ⟨m, e, min_le_left _ _, a2, a3⟩, ⟨k, f, min_le_right _ _, b2, b3⟩⟩

theorem isFl_sub {t : ℕ} {x y : ℚ} (hx : IsFl t x) (hy : IsFl t y) (h1 : y / 2 ≤ x) (h2 : x ≤ y) : IsFl t (y - x) := by
  obtain ⟨emin, a, b⟩ := isFl_float hx hy
  exact isFl_of (isFloat_sub a b h1 h2)

theorem isFl_half {t : ℕ} {x : ℚ} (hx : IsFl t x) : IsFl t (x / 2) := by
  obtain ⟨m, e, h1, h2⟩ := hx
  exact ⟨m, e - 1, h1, by rw [h2, zpow_sub_one₀ (by norm_num)]; ring⟩

theorem isFl_int {t : ℕ} {m : ℤ} (h : |m| ≤ 2 ^ t) : IsFl t m := ⟨m, 0, h, by simp⟩

end Ex
end Igakit
