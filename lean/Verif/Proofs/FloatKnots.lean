import Verif.Model.FloatKnots
import Verif.Proofs.Float
import Verif.Proofs.FloatBinary
import Verif.Proofs.KnotVector
import Mathlib.Algebra.Order.BigOperators.Group.Finset
import Mathlib.Algebra.Order.Interval.Finset.Basic
import Mathlib.Data.Int.Interval

/-! # Rounding errors of knot vectors -/

set_option linter.unusedSectionVars false

namespace Igakit
open Spec

variable {K : Type} [Field K] [LinearOrder K] [IsStrictOrderedRing K]

namespace Fp

/-! ## relative errors of numbers of either sign -/

/-- `x` is `y` with a relative error of `c` roundings -/
def Rel (ρ : K) (c : ℕ) (x y : K) : Prop := |x - y| ≤ (ρ ^ c - 1) * |y|

section rel
variable {ρ : K} (hρ : 1 ≤ ρ)
include hρ

theorem Rel.refl (x : K) : Rel ρ 0 x x := by
  unfold Rel
  simp

theorem Rel.abs_le {c : ℕ} {x y : K} (h : Rel ρ c x y) : |x| ≤ ρ ^ c * |y| := by
  have h' : |x - y| ≤ (ρ ^ c - 1) * |y| := h
  have := abs_add_le (x - y) y
  rw [sub_add_cancel] at this
  linarith

theorem Rel.mul {c c' : ℕ} {x y x' y' : K} (h : Rel ρ c x y) (h' : Rel ρ c' x' y') : Rel ρ (c + c') (x * x') (y * y') := by
  have b := h'.abs_le hρ
  unfold Rel at h h' ⊢
  have hc : (1 : K) ≤ ρ ^ c := one_le_pow₀ hρ
  calc |x * x' - y * y'| = |(x - y) * x' + y * (x' - y')| := by congr 1; ring
    _ ≤ |(x - y) * x'| + |y * (x' - y')| := abs_add_le _ _
    _ = |x - y| * |x'| + |y| * |x' - y'| := by rw [abs_mul, abs_mul]
    _ ≤ (ρ ^ c - 1) * |y| * (ρ ^ c' * |y'|) + |y| * ((ρ ^ c' - 1) * |y'|) :=
        add_le_add (mul_le_mul h b (abs_nonneg _) (mul_nonneg (by linarith) (abs_nonneg _)))
          (mul_le_mul_of_nonneg_left h' (abs_nonneg _))
    _ = (ρ ^ (c + c') - 1) * |y * y'| := by rw [abs_mul, pow_add]; ring

theorem Rel.trans {c c' : ℕ} {x y z : K} (h : Rel ρ c x y) (h' : Rel ρ c' y z) : Rel ρ (c + c') x z := by
  have b := h'.abs_le hρ
  unfold Rel at h h' ⊢
  have hc : (1 : K) ≤ ρ ^ c := one_le_pow₀ hρ
  calc |x - z| = |(x - y) + (y - z)| := by congr 1; ring
    _ ≤ |x - y| + |y - z| := abs_add_le _ _
    _ ≤ (ρ ^ c - 1) * (ρ ^ c' * |z|) + (ρ ^ c' - 1) * |z| :=
        add_le_add (h.trans (mul_le_mul_of_nonneg_left b (by linarith))) h'
    _ = _ := by rw [pow_add]; ring

end rel

section rounded
variable {δ : K} {rd : K → K} (h0 : 0 ≤ δ) (h1 : δ < 1) (hr : RelErr δ rd)
include h0 h1 hr

theorem rd_rel (x : K) : Rel (growth δ) 1 (rd x) x := by
  unfold Rel
  rw [pow_one]
  have := le_growth h0 h1
  exact (hr x).trans (mul_le_mul_of_nonneg_right (by linarith) (abs_nonneg _))

/-- a sum of a number and of a number known up to `m` roundings -/
theorem rd_add_err {c : ℕ} {x y z : K} (h : Rel (growth δ) c x y) :
    |rd (z + x) - (z + y)| ≤ δ * |z + y| + (growth δ ^ (c + 1) - 1) * |y| := by
  have hl := le_growth h0 h1
  have hg := one_le_growth h0 h1
  have hc : (1 : K) ≤ growth δ ^ c := one_le_pow₀ hg
  unfold Rel at h
  have e1 := hr (z + x)
  have e2 : |z + x| ≤ |z + y| + |x - y| := by
    have := abs_add_le (z + y) (x - y)
    rwa [show z + y + (x - y) = z + x by ring] at this
  have e3 : |rd (z + x) - (z + y)| ≤ |rd (z + x) - (z + x)| + |x - y| := by
    have := abs_add_le (rd (z + x) - (z + x)) (x - y)
    rwa [show rd (z + x) - (z + x) + (x - y) = rd (z + x) - (z + y) by ring] at this
  have e4 : δ * |z + x| ≤ δ * (|z + y| + |x - y|) := mul_le_mul_of_nonneg_left e2 h0
  have e5 : (1 + δ) * |x - y| ≤ (1 + δ) * ((growth δ ^ c - 1) * |y|) := mul_le_mul_of_nonneg_left h (by linarith)
  have e6 : (1 + δ) * (growth δ ^ c - 1) ≤ growth δ ^ (c + 1) - 1 := by
    rw [pow_succ]
    nlinarith
  have e7 := mul_le_mul_of_nonneg_right e6 (abs_nonneg y)
  nlinarith

end rounded

/-! ## evenly spaced knots -/

/-- the values of the interior knots of `KnotVector`, whatever they are -/
theorem inner_val (jk : ℤ → K) {E p C : ℤ} (hE : 1 ≤ E) (hC : C < p) (w : ℤ → K) :
    ∀ x, p + 1 ≤ x → x < p + 1 + (E - 1) * (p - C) →
      (forUp 1 (E - 1) (fun i s => forUp 1 (p - C) (fun _ (s : ℤ × (ℤ → K)) =>
        (s.1 + 1, upd s.2 s.1 (w i))) s) (p + 1, jk)).2 x = w (cdiv (x - p) (p - C)) := by
  have hq : 0 < p - C := by omega
  have main := forUp_inv (lo := 1) (hi := E - 1) (s := (p + 1, jk))
    (f := fun i s => forUp 1 (p - C) (fun _ (s : ℤ × (ℤ → K)) =>
      (s.1 + 1, upd s.2 s.1 (w i))) s)
    (I := fun i s => s.1 = p + 1 + (i - 1) * (p - C) ∧
      ∀ x, p + 1 ≤ x → x < p + 1 + (i - 1) * (p - C) → s.2 x = w (cdiv (x - p) (p - C)))
    (by omega) ⟨by ring, fun x h1 h2 => by nlinarith⟩ (by
      intro i s hi1 hi2 hs
      have inner := forUp_inv (lo := 1) (hi := p - C) (s := s)
        (f := fun _ (s : ℤ × (ℤ → K)) => (s.1 + 1, upd s.2 s.1 (w i)))
        (I := fun j s => s.1 = p + (i - 1) * (p - C) + j ∧
          ∀ x, p + 1 ≤ x → x < p + (i - 1) * (p - C) + j → s.2 x = w (cdiv (x - p) (p - C)))
        (by omega) ⟨by rw [hs.1]; ring, fun x h1 h2 => hs.2 x h1 (by linarith)⟩ (by
          intro j s hj1 hj2 hs
          refine ⟨by show s.1 + 1 = _; rw [hs.1]; ring, ?_⟩
          intro x h1 h2
          by_cases hx : x = s.1
          · show upd s.2 s.1 _ x = _
            rw [upd_eq _ _ hx, cdiv_eq (i := i) hq]
            · rw [hx, hs.1]; linarith
            · rw [hx, hs.1]; nlinarith
          · show upd s.2 s.1 _ x = _
            rw [upd_ne _ _ hx]
            exact hs.2 x h1 (by omega))
      refine ⟨by rw [inner.1]; ring, ?_⟩
      intro x h1 h2
      exact inner.2 x h1 (by linarith))
  intro x h1 h2
  exact main.2 x h1 (by linarith)

/-- the knot vector that is not wrapped: `Ui`, the interior knots, `Uf` -/
theorem open_val (rd : K → K) (jk : ℤ → K) {E p C : ℤ} (hE : 1 ≤ E) (hp : 1 ≤ p) (hC : C < p) (Ui Uf : K) :
    let U := knotVectorEnds p (knotVectorM E p C) Ui Uf (knotVectorInner rd jk E p C Ui Uf).2
    (∀ x, 0 ≤ x → x ≤ p → U x = Ui) ∧
    (∀ x, p + 1 ≤ x → x ≤ p + (E - 1) * (p - C) → U x = evenKnot rd Ui Uf E (cdiv (x - p) (p - C))) ∧
    (∀ x, p + (E - 1) * (p - C) + 1 ≤ x → x ≤ p + (E - 1) * (p - C) + p + 1 → U x = Uf) := by
  intro U
  have hq : 0 < p - C := by omega
  have hEq : 0 ≤ (E - 1) * (p - C) := mul_nonneg (by omega) hq.le
  have hm := knotVectorM_eq E p C
  obtain ⟨h1, h2, h3⟩ := knotVectorEnds_spec (m := knotVectorM E p C) (by omega : 0 ≤ p) (by omega) Ui Uf
    (knotVectorInner rd jk E p C Ui Uf).2
  refine ⟨h1, ?_, fun x a b => h2 x (by omega) (by omega)⟩
  intro x a b
  rw [show U x = _ from h3 x (by omega) (by omega)]
  exact inner_val jk hE hC (evenKnot rd Ui Uf E) x a (by omega)

section even
variable {F : K → Prop} {δ : K} {rd : K → K}

/-- monotone in the number -/
theorem evenKnot_mono (hm : Monotone rd) (hz : rd 0 = 0) {Ui Uf : K} (hlt : Ui ≤ Uf) {E : ℤ} (hE : 1 ≤ E) {i j : ℤ} (hij : i ≤ j) :
    evenKnot rd Ui Uf E i ≤ evenKnot rd Ui Uf E j := by
  have hEK : (0 : K) < (E : K) := by exact_mod_cast (by omega : 0 < E)
  have h1 : 0 ≤ rd (Uf - Ui) := by rw [← hz]; exact hm (by linarith)
  have h2 : 0 ≤ rd (rd (Uf - Ui) / E) := by rw [← hz]; exact hm (div_nonneg h1 hEK.le)
  have h3 : (i : K) ≤ (j : K) := by exact_mod_cast hij
  exact hm (add_le_add le_rfl (hm (mul_le_mul_of_nonneg_right h3 h2)))

/-- the first one -/
theorem evenKnot_zero (hr : Rounds F rd) {Ui : K} (hi : F Ui) (Uf : K) (E : ℤ) : evenKnot rd Ui Uf E 0 = Ui := by
  unfold evenKnot
  rw [Int.cast_zero, zero_mul, hr.exact 0 hr.zero, add_zero, hr.exact _ hi]

variable (h0 : 0 ≤ δ) (h1 : δ < 1) (he : RelErr δ rd)
include h0 h1 he

/-- distance from the first knot before the last rounding -/
theorem even_rel {Ui Uf : K} (hlt : Ui ≤ Uf) {E : ℤ} (hE : 1 ≤ E) {i : ℤ} (hi : 0 ≤ i) :
    Near (growth δ) 3 (rd ((i : K) * rd (rd (Uf - Ui) / (E : K)))) ((i : K) * ((Uf - Ui) / (E : K))) := by
  have hg := one_le_growth h0 h1
  have hEK : (0 : K) < (E : K) := by exact_mod_cast (by omega : 0 < E)
  have hiK : (0 : K) ≤ (i : K) := by exact_mod_cast hi
  obtain ⟨a1, a2⟩ := rd_near h0 h1 he (x := Uf - Ui) (by linarith)
  have b1 : Near (growth δ) 1 (rd (Uf - Ui) / (E : K)) ((Uf - Ui) / E) := by
    constructor
    · rw [mul_div_assoc']; exact div_le_div_of_nonneg_right a1.1 hEK.le
    · rw [mul_div_assoc']; exact div_le_div_of_nonneg_right a1.2 hEK.le
  obtain ⟨c1, c2⟩ := rd_near h0 h1 he (x := rd (Uf - Ui) / (E : K)) (div_nonneg a2 hEK.le)
  have d1 := c1.trans hg b1
  have e1 : Near (growth δ) 2 ((i : K) * rd (rd (Uf - Ui) / (E : K))) ((i : K) * ((Uf - Ui) / (E : K))) := by
    constructor
    · calc _ ≤ (i : K) * (growth δ ^ 2 * ((Uf - Ui) / E)) := mul_le_mul_of_nonneg_left d1.1 hiK
        _ = _ := by ring
    · calc _ ≤ (i : K) * (growth δ ^ 2 * rd (rd (Uf - Ui) / E)) := mul_le_mul_of_nonneg_left d1.2 hiK
        _ = _ := by ring
  exact (rd_near h0 h1 he (mul_nonneg hiK c2)).1.trans hg e1

/-- not beyond the last knot -/
theorem evenKnot_le (hr : Rounds F rd) {Ui Uf : K} (hlt : Ui ≤ Uf) (hf : F Uf) {E : ℤ} (hE : 1 ≤ E) {i : ℤ} (hi : 0 ≤ i)
    (hg : growth δ ^ 3 * i ≤ E) : evenKnot rd Ui Uf E i ≤ Uf := by
  have hEK : (0 : K) < (E : K) := by exact_mod_cast (by omega : 0 < E)
  have h := (even_rel h0 h1 he hlt hE hi).1
  unfold evenKnot
  rw [← hr.exact Uf hf]
  have : growth δ ^ 3 * ((i : K) * ((Uf - Ui) / (E : K))) ≤ Uf - Ui := by
    rw [show growth δ ^ 3 * ((i : K) * ((Uf - Ui) / (E : K))) = (growth δ ^ 3 * i) * (Uf - Ui) / E by ring, div_le_iff₀ hEK,
      mul_comm (Uf - Ui)]
    exact mul_le_mul_of_nonneg_right hg (by linarith)
  refine hr.mono ?_
  rw [hr.exact Uf hf]
  linarith

theorem evenKnot_err {Ui Uf : K} (hlt : Ui ≤ Uf) {E : ℤ} (hE : 1 ≤ E) {i : ℤ} (hi : 0 ≤ i) :
    |evenKnot rd Ui Uf E i - (Ui + (i : K) * ((Uf - Ui) / (E : K)))| ≤
      δ * |Ui + (i : K) * ((Uf - Ui) / (E : K))| + (growth δ ^ 4 - 1) * ((i : K) * ((Uf - Ui) / (E : K))) := by
  have hg := one_le_growth h0 h1
  have hEK : (0 : K) < (E : K) := by exact_mod_cast (by omega : 0 < E)
  have hiK : (0 : K) ≤ (i : K) := by exact_mod_cast hi
  have hpos : 0 ≤ (i : K) * ((Uf - Ui) / (E : K)) := mul_nonneg hiK (div_nonneg (by linarith) hEK.le)
  have h : Rel (growth δ) 3 (rd ((i : K) * rd (rd (Uf - Ui) / (E : K)))) ((i : K) * ((Uf - Ui) / (E : K))) := by
    unfold Rel
    rw [abs_of_nonneg hpos]
    exact (even_rel h0 h1 he hlt hE hi).abs hg hpos
  have := rd_add_err h0 h1 he (z := Ui) h
  rwa [abs_of_nonneg hpos] at this

end even

/-! ## remap -/

section remap
variable {F : K → Prop} {δ : K} {rd : K → K}

theorem remapKnot_mono (hr : Rounds F rd) {a b c d : K} (hab : a ≤ b) (hcd : c ≤ d) {u v : K} (h : u ≤ v) :
    remapKnot rd a b c d u ≤ remapKnot rd a b c d v := by
  have hz := hr.exact 0 hr.zero
  have h1 : 0 ≤ rd (b - a) := by rw [← hz]; exact hr.mono (by linarith)
  have h2 : 0 ≤ rd (d - c) := by rw [← hz]; exact hr.mono (by linarith)
  have h3 : 0 ≤ rd (rd (d - c) / rd (b - a)) := by rw [← hz]; exact hr.mono (div_nonneg h2 h1)
  have h4 : rd (u - a) ≤ rd (v - a) := hr.mono (by linarith)
  exact hr.mono (add_le_add (hr.mono (mul_le_mul_of_nonneg_right h4 h3)) le_rfl)

theorem remapKnot_start (hr : Rounds F rd) {a b c d : K} (hc : F c) : remapKnot rd a b c d a = c := by
  unfold remapKnot
  rw [sub_self, hr.exact 0 hr.zero, zero_mul, hr.exact 0 hr.zero, zero_add, hr.exact c hc]

/-- if the lengths of the domains and their quotient are floating point numbers, the end is exact -/
theorem remapKnot_end (hr : Rounds F rd) {a b c d : K} (hab : a < b) (hd : F d) (l1 : F (b - a)) (l2 : F (d - c))
    (l3 : F ((d - c) / (b - a))) : remapKnot rd a b c d b = d := by
  have hne : b - a ≠ 0 := by linarith
  unfold remapKnot
  rw [hr.exact _ l1, hr.exact _ l2, hr.exact _ l3, mul_div_cancel₀ _ hne, hr.exact _ l2, sub_add_cancel, hr.exact d hd]

variable (h0 : 0 ≤ δ) (h1 : δ < 1) (he : RelErr δ rd)
include h0 h1 he

theorem remapKnot_err {a b c d : K} (hab : a < b) (hcd : c < d) (u : K) :
    |remapKnot rd a b c d u - ((u - a) * ((d - c) / (b - a)) + c)| ≤
      δ * |(u - a) * ((d - c) / (b - a)) + c| + (growth δ ^ 6 - 1) * |(u - a) * ((d - c) / (b - a))| := by
  have hg := one_le_growth h0 h1
  obtain ⟨a1, a2⟩ := rd_near h0 h1 he (x := d - c) (by linarith)
  obtain ⟨b1, b2⟩ := rd_near h0 h1 he (x := b - a) (by linarith)
  have b3 := b1.pos hg (by linarith)
  have q1 := a1.div hg b1 a2 (by linarith) b3 (by linarith)
  have q2 := (rd_near h0 h1 he (x := rd (d - c) / rd (b - a)) (div_nonneg a2 b3.le)).1.trans hg q1
  have hs : 0 < (d - c) / (b - a) := div_pos (by linarith) (by linarith)
  have s1 : Rel (growth δ) 3 (rd (rd (d - c) / rd (b - a))) ((d - c) / (b - a)) := by
    unfold Rel
    rw [abs_of_pos hs]
    exact q2.abs hg hs.le
  have m1 := (rd_rel h0 h1 he (u - a)).mul hg s1
  have m2 := (rd_rel h0 h1 he (rd (u - a) * rd (rd (d - c) / rd (b - a)))).trans hg m1
  have := rd_add_err h0 h1 he (z := c) m2
  unfold remapKnot
  rw [add_comm _ c, add_comm _ c]
  exact this

end remap

/-! ## reverse -/

section reverse
variable {F : K → Prop} {δ : K} {rd : K → K}

theorem kntRev_sorted (hm : Monotone rd) {p len : ℤ} {U : ℤ → K} (hs : SortedOn U 0 (len - 1)) :
    SortedOn (kntRev rd p len U) 0 (len - 1) := by
  intro i j h1 h2 h3
  exact hm (sub_le_sub_left (hs _ _ (by omega) (by omega) (by omega)) _)

theorem kntRev_err (h0 : 0 ≤ δ) (h1 : δ < 1) (he : RelErr δ rd) (p len : ℤ) (U : ℤ → K) (j : ℤ) :
    |kntRev rd p len U j - (U (len - 1 - p) + U p - U (len - 1 - j))| ≤
      δ * |U (len - 1 - p) + U p - U (len - 1 - j)| + (growth δ ^ 2 - 1) * |U (len - 1 - p) + U p| := by
  have := rd_add_err h0 h1 he (z := -U (len - 1 - j)) (rd_rel h0 h1 he (U (len - 1 - p) + U p))
  unfold kntRev
  rw [show len + (-p - 1) = len - 1 - p by ring]
  rw [show U (len - 1 - p) + U p - U (len - 1 - j) = -U (len - 1 - j) + (U (len - 1 - p) + U p) by ring,
    show rd (U (len - 1 - p) + U p) - U (len - 1 - j) = -U (len - 1 - j) + rd (U (len - 1 - p) + U p) by ring]
  exact this

/-- two numbers far enough apart are not rounded to the same number -/
theorem rd_lt (he : RelErr δ rd) {x y : K} (h : δ * (|x| + |y|) < y - x) : rd x < rd y := by
  have a := abs_le.mp (he x)
  have b := abs_le.mp (he y)
  linarith [a.2, b.1]

/-- reversing with respect to `[0, h]` three times is the same as once: after the first time the small knots are
multiples of the spacing of the floating point numbers below `h` -/
theorem rev_thrice (hr : Rounds F rd) (hst : ∀ x y, F x → F y → y / 2 ≤ x → x ≤ y → F (y - x)) {h x : K} (hh : F h) (hh2 : F (h / 2))
    (hx : F x) (hx0 : 0 ≤ x) (hxh : x ≤ h) : rd (h - rd (h - rd (h - x))) = rd (h - x) := by
  rcases le_total (h / 2) x with c | c
  · have e := hr.exact _ (hst x h hx hh c hxh)
    rw [e, sub_sub_cancel, hr.exact x hx, e]
  · have l : h / 2 ≤ rd (h - x) := by
      rw [← hr.exact _ hh2]
      exact hr.mono (by linarith)
    have u : rd (h - x) ≤ h := by
      conv_rhs => rw [← hr.exact _ hh]
      exact hr.mono (by linarith)
    rw [hr.exact _ (hst _ _ (hr.mem _) hh l u), sub_sub_cancel, hr.exact _ (hr.mem _)]

/-- reversing twice restores the knots of the second half -/
theorem rev_twice (hr : Rounds F rd) (hst : ∀ x y, F x → F y → y / 2 ≤ x → x ≤ y → F (y - x)) {h x : K} (hh : F h)
    (hx : F x) (c : h / 2 ≤ x) (hxh : x ≤ h) : rd (h - rd (h - x)) = x := by
  rw [hr.exact _ (hst x h hx hh c hxh), sub_sub_cancel, hr.exact x hx]

end reverse

/-! ## wrapping -/

section wrap
variable {rd : K → K}

/-- what the loop that wraps the ends does -/
theorem wrap_val (rd : K → K) {E p C m : ℤ} (hE : 1 ≤ E) (hC0 : 0 ≤ C) (hC : C < p) (hm : m = p + 1 + (E - 1) * (p - C) + p)
    (Ui Uf : K) (U : ℤ → K) :
    let V := knotVectorWrap rd p C m Ui Uf U
    (∀ x, C < x → x < m - C → V x = U x) ∧
    (∀ x, 0 ≤ x → x ≤ C → V x = rd (rd (Ui - Uf) + V (x + E * (p - C)))) ∧
    (∀ x, m - C ≤ x → x ≤ m → V x = rd (rd (Uf - Ui) + V (x - E * (p - C)))) := by
  intro V
  have hq : 0 < p - C := by omega
  have hEq : 0 ≤ (E - 1) * (p - C) := mul_nonneg (by omega) hq.le
  have hS : E * (p - C) = (E - 1) * (p - C) + (p - C) := by ring
  set S := E * (p - C) with hSdef
  have main := forUp_inv (lo := 0) (hi := C) (s := U)
    (f := fun k U =>
      let U := upd U (C - k) (rd (rd (Ui - Uf) + U (m - (p + 1) - k)))
      upd U (m - C + k) (rd (rd (Uf - Ui) + U (p + 1 + k))))
    (I := fun k V => (∀ x, C < x → x < m - C → V x = U x) ∧
      (∀ x, C - k < x → x ≤ C → V x = rd (rd (Ui - Uf) + V (x + S))) ∧
      (∀ x, m - C ≤ x → x < m - C + k → V x = rd (rd (Uf - Ui) + V (x - S))))
    (by omega) ⟨fun _ _ _ => rfl, fun x a b => by omega, fun x a b => by omega⟩ (by
      rintro k V hk1 hk2 ⟨i1, i2, i3⟩
      dsimp only
      have out : ∀ x, C - k < x → x < m - C + k →
          upd (upd V (C - k) (rd (rd (Ui - Uf) + V (m - (p + 1) - k)))) (m - C + k)
            (rd (rd (Uf - Ui) + upd V (C - k) (rd (rd (Ui - Uf) + V (m - (p + 1) - k))) (p + 1 + k))) x = V x := by
        intro x a b
        rw [upd_ne _ _ (by omega), upd_ne _ _ (by omega)]
      refine ⟨fun x a b => ?_, fun x a b => ?_, fun x a b => ?_⟩
      · rw [out x (by omega) (by omega)]
        exact i1 x a b
      · by_cases hx : x = C - k
        · rw [out (x + S) (by omega) (by omega), upd_ne _ _ (by omega), upd_eq _ _ hx]
          rw [show m - (p + 1) - k = x + S by omega]
        · rw [out x (by omega) (by omega), out (x + S) (by omega) (by omega)]
          exact i2 x (by omega) b
      · by_cases hx : x = m - C + k
        · rw [out (x - S) (by omega) (by omega), upd_eq _ _ hx, upd_ne _ _ (by omega)]
          rw [show p + 1 + k = x - S by omega]
        · rw [out x (by omega) (by omega), out (x - S) (by omega) (by omega)]
          exact i3 x a (by omega))
  exact ⟨main.1, fun x a b => main.2.1 x (by omega) b, fun x a b => main.2.2 x a (by omega)⟩

theorem sortedOn_of_succ {U : ℤ → K} {lo hi : ℤ} (h : ∀ x, lo ≤ x → x < hi → U x ≤ U (x + 1)) : SortedOn U lo hi := by
  intro i j h1 h2 h3
  obtain ⟨k, rfl⟩ := Int.le.dest h2
  induction k with
  | zero => simp
  | succ k ih =>
    push_cast at h3 ⊢
    have := ih (by omega) (by omega)
    have := h (i + k) (by omega) (by omega)
    rw [show i + (k + 1 : ℤ) = i + k + 1 by ring]
    linarith

/-- the wrapped knot vector is sorted when the ends fit -/
theorem wrap_sorted (hmo : Monotone rd) {E p C m : ℤ} (hE : 1 ≤ E) (hC0 : 0 ≤ C) (hC : C < p)
    (hm : m = p + 1 + (E - 1) * (p - C) + p) {Ui Uf : K} {U : ℤ → K} (hs : SortedOn U 0 m)
    (hlo : rd (rd (Ui - Uf) + U (m - (p + 1))) ≤ U (C + 1)) (hhi : U (m - C - 1) ≤ rd (rd (Uf - Ui) + U (p + 1))) :
    SortedOn (knotVectorWrap rd p C m Ui Uf U) 0 m := by
  have hq : 0 < p - C := by omega
  have hEq : 0 ≤ (E - 1) * (p - C) := mul_nonneg (by omega) hq.le
  have hS : E * (p - C) = (E - 1) * (p - C) + (p - C) := by ring
  obtain ⟨w1, w2, w3⟩ := wrap_val rd hE hC0 hC hm Ui Uf U
  set V := knotVectorWrap rd p C m Ui Uf U
  set S := E * (p - C) with hSdef
  have mid : ∀ x, C < x → x + 1 < m - C → V x ≤ V (x + 1) := by
    intro x a b
    rw [w1 x a (by omega), w1 (x + 1) (by omega) b]
    exact hs _ _ (by omega) (by omega) (by omega)
  have dn : ∀ k : ℕ, ∀ x, 0 ≤ x → x = C - k → V x ≤ V (x + 1) := by
    intro k
    induction k using Nat.strong_induction_on with
    | _ k ih =>
      intro x a b
      by_cases hk : k = 0
      · subst hk
        have hx : x = C := by omega
        rw [w2 x a (by omega), w1 (x + 1) (by omega) (by omega), w1 (x + S) (by omega) (by omega), hx,
          show C + S = m - (p + 1) by omega]
        exact hlo
      · rw [w2 x a (by omega), w2 (x + 1) (by omega) (by omega)]
        refine hmo (add_le_add le_rfl ?_)
        rw [show x + 1 + S = x + S + 1 by ring]
        rcases le_or_gt (x + S) C with h | h
        · exact ih (C - (x + S)).toNat (by omega) _ (by omega) (by omega)
        · exact mid _ h (by omega)
  have up : ∀ k : ℕ, ∀ x, x < m → x + 1 = m - C + k → V x ≤ V (x + 1) := by
    intro k
    induction k using Nat.strong_induction_on with
    | _ k ih =>
      intro x a b
      by_cases hk : k = 0
      · subst hk
        have hx : x = m - C - 1 := by omega
        rw [w3 (x + 1) (by omega) (by omega), w1 x (by omega) (by omega), w1 (x + 1 - S) (by omega) (by omega), hx,
          show m - C - 1 + 1 - S = p + 1 by omega]
        exact hhi
      · rw [w3 x (by omega) (by omega), w3 (x + 1) (by omega) (by omega)]
        refine hmo (add_le_add le_rfl ?_)
        rw [show x + 1 - S = x - S + 1 by ring]
        rcases le_or_gt (m - C) (x - S + 1) with h | h
        · exact ih (x - S + 1 - (m - C)).toNat (by omega) _ (by omega) (by omega)
        · exact mid _ (by omega) h
  refine sortedOn_of_succ fun x a b => ?_
  rcases le_or_gt x C with h | h
  · exact dn (C - x).toNat x a (by omega)
  · rcases le_or_gt (m - C) (x + 1) with h' | h'
    · exact up (x + 1 - (m - C)).toNat x b (by omega)
    · exact mid x h h'

end wrap

/-! ## Greville abscissae -/

section greville
variable {F : K → Prop} {δ : K} {rd : K → K}

theorem fsum_mono (hm : Monotone rd) {U V : ℤ → K} {i i' : ℤ} {p : ℕ} (h : ∀ j : ℤ, 1 ≤ j → j ≤ p → U (i + j) ≤ V (i' + j)) :
    forUp 1 (p : ℤ) (fun j s => rd (s + U (i + j))) 0 ≤ forUp 1 (p : ℤ) (fun j s => rd (s + V (i' + j))) 0 := by
  by_cases hp : p = 0
  · subst hp
    rw [forUp_empty (by simp), forUp_empty (by simp)]
  · exact forUp_rel (I := fun _ (a b : K) => a ≤ b) (lo := 1) (hi := (p : ℤ)) (by omega) le_rfl
      (fun j a b h1 h2 hab => hm (add_le_add hab (h j h1 h2)))

/-- partial sums between the multiples of bounds of the knots, if those multiples are floating point numbers -/
theorem fsum_between (hr : Rounds F rd) {U : ℤ → K} {i : ℤ} {p : ℕ} {lo hi : K}
    (hF : ∀ j : ℕ, j ≤ p → F (j * lo) ∧ F (j * hi)) (h : ∀ j : ℤ, 1 ≤ j → j ≤ p → lo ≤ U (i + j) ∧ U (i + j) ≤ hi) :
    p * lo ≤ forUp 1 (p : ℤ) (fun j s => rd (s + U (i + j))) 0 ∧
      forUp 1 (p : ℤ) (fun j s => rd (s + U (i + j))) 0 ≤ p * hi := by
  have main := forUp_inv (lo := 1) (hi := (p : ℤ)) (s := (0 : K)) (f := fun j s => rd (s + U (i + j)))
    (I := fun j s => ((j - 1 : ℤ) : K) * lo ≤ s ∧ s ≤ ((j - 1 : ℤ) : K) * hi) (by omega) (by simp) (by
      rintro j s h1 h2 ⟨a, b⟩
      obtain ⟨c, d⟩ := h j h1 h2
      obtain ⟨f1, f2⟩ := hF j.toNat (by omega)
      have hj : ((j.toNat : ℕ) : K) = (j : K) := by
        have : ((j.toNat : ℤ) : K) = (j : K) := by rw [Int.toNat_of_nonneg (by omega)]
        exact_mod_cast this
      rw [hj] at f1 f2
      push_cast at a b ⊢
      constructor
      · rw [show ((j : K) + 1 - 1) * lo = rd (j * lo) by rw [hr.exact _ f1]; ring]
        exact hr.mono (by linarith)
      · rw [show ((j : K) + 1 - 1) * hi = rd (j * hi) by rw [hr.exact _ f2]; ring]
        exact hr.mono (by linarith))
  push_cast at main
  simpa using main

theorem greville_between (hr : Rounds F rd) {U : ℤ → K} {i : ℤ} {p : ℕ} (hp : 1 ≤ p) {lo hi : K}
    (hF : ∀ j : ℕ, j ≤ p → F (j * lo) ∧ F (j * hi)) (h : ∀ j : ℤ, 1 ≤ j → j ≤ p → lo ≤ U (i + j) ∧ U (i + j) ≤ hi) :
    lo ≤ greville rd p U i ∧ greville rd p U i ≤ hi := by
  have hpK : (0 : K) < (p : K) := by exact_mod_cast hp
  obtain ⟨a, b⟩ := fsum_between hr hF h
  obtain ⟨f1, f2⟩ := hF 1 hp
  rw [Nat.cast_one, one_mul] at f1 f2
  unfold greville
  constructor
  · rw [← hr.exact lo f1]
    refine hr.mono ?_
    push_cast
    rw [le_div_iff₀ hpK, mul_comm]
    exact a
  · rw [← hr.exact hi f2]
    refine hr.mono ?_
    push_cast
    rw [div_le_iff₀ hpK, mul_comm]
    exact b

theorem fsum_err (h0 : 0 ≤ δ) (h1 : δ < 1) (he : RelErr δ rd) (U : ℤ → K) (i : ℤ) (p : ℕ) :
    |forUp 1 (p : ℤ) (fun j s => rd (s + U (i + j))) 0 - ∑ j ∈ Finset.Icc 1 (p : ℤ), U (i + j)| ≤
      (growth δ ^ p - 1) * ∑ j ∈ Finset.Icc 1 (p : ℤ), |U (i + j)| := by
  have hl := le_growth h0 h1
  have hg := one_le_growth h0 h1
  have main := forUp_inv (lo := 1) (hi := (p : ℤ)) (s := (0 : K)) (f := fun j s => rd (s + U (i + j)))
    (I := fun j s => |s - ∑ j ∈ Finset.Ico 1 j, U (i + j)| ≤ (growth δ ^ (j - 1).toNat - 1) * ∑ j ∈ Finset.Ico 1 j, |U (i + j)|)
    (by omega) (by simp) (by
      intro j s a b hs
      have hins : Finset.Ico 1 (j + 1) = insert j (Finset.Ico 1 j) := by
        ext x
        simp only [Finset.mem_Ico, Finset.mem_insert]
        omega
      rw [hins, Finset.sum_insert (by simp), Finset.sum_insert (by simp), show (j + 1 - 1).toNat = (j - 1).toNat + 1 by omega]
      set A := ∑ j ∈ Finset.Ico 1 j, U (i + j) with hA
      set B := ∑ j ∈ Finset.Ico 1 j, |U (i + j)| with hB
      have hAB : |A| ≤ B := Finset.abs_sum_le_sum_abs _ _
      have hG : (1 : K) ≤ growth δ ^ (j - 1).toNat := one_le_pow₀ hg
      set G := growth δ ^ (j - 1).toNat
      have e1 := he (s + U (i + j))
      have e2 : |s + U (i + j)| ≤ |s - A| + |A| + |U (i + j)| := by
        have := abs_add_le (s - A + A) (U (i + j))
        have := abs_add_le (s - A) A
        rw [sub_add_cancel] at *
        linarith
      have e3 : |rd (s + U (i + j)) - (U (i + j) + A)| ≤ |rd (s + U (i + j)) - (s + U (i + j))| + |s - A| := by
        have := abs_add_le (rd (s + U (i + j)) - (s + U (i + j))) (s - A)
        rwa [show rd (s + U (i + j)) - (s + U (i + j)) + (s - A) = rd (s + U (i + j)) - (U (i + j) + A) by ring] at this
      have hu := abs_nonneg (U (i + j))
      have e4 : δ * |s + U (i + j)| ≤ δ * (G * B + |U (i + j)|) := mul_le_mul_of_nonneg_left (by linarith) h0
      have hB0 : 0 ≤ B := (abs_nonneg _).trans hAB
      have e5 : (1 + δ) * (G * B) ≤ growth δ * (G * B) := mul_le_mul_of_nonneg_right (by linarith) (mul_nonneg (by linarith) hB0)
      have e6 : (1 + δ) * |U (i + j)| ≤ growth δ * G * |U (i + j)| := by
        refine mul_le_mul_of_nonneg_right ?_ hu
        nlinarith
      rw [pow_succ]
      nlinarith)
  have hI : Finset.Ico 1 ((p : ℤ) + 1) = Finset.Icc 1 (p : ℤ) := by
    ext x
    simp only [Finset.mem_Ico, Finset.mem_Icc]
    omega
  rw [hI, show ((p : ℤ) + 1 - 1).toNat = p by omega] at main
  exact main

theorem greville_err (h0 : 0 ≤ δ) (h1 : δ < 1) (he : RelErr δ rd) (U : ℤ → K) (i : ℤ) {p : ℕ} (hp : 1 ≤ p) :
    |greville rd p U i - (∑ j ∈ Finset.Icc 1 (p : ℤ), U (i + j)) / p| ≤
      (growth δ ^ (p + 1) - 1) * ((∑ j ∈ Finset.Icc 1 (p : ℤ), |U (i + j)|) / p) := by
  have hl := le_growth h0 h1
  have hg := one_le_growth h0 h1
  have hpK : (0 : K) < (p : K) := by exact_mod_cast hp
  have h := fsum_err h0 h1 he U i p
  set A := ∑ j ∈ Finset.Icc 1 (p : ℤ), U (i + j) with hA
  set B := ∑ j ∈ Finset.Icc 1 (p : ℤ), |U (i + j)| with hB
  have hAB : |A| ≤ B := Finset.abs_sum_le_sum_abs _ _
  have hB0 : 0 ≤ B := (abs_nonneg _).trans hAB
  have hG : (1 : K) ≤ growth δ ^ p := one_le_pow₀ hg
  unfold greville
  push_cast
  set s := forUp 1 (p : ℤ) (fun j s => rd (s + U (i + j))) 0
  have e1 := he (s / p)
  have e2 : |s| ≤ growth δ ^ p * B := by
    have := abs_add_le (s - A) A
    rw [sub_add_cancel] at this
    linarith
  have e3 : |rd (s / p) - A / p| ≤ |rd (s / p) - s / p| + |s - A| / p := by
    have := abs_add_le (rd (s / p) - s / p) ((s - A) / p)
    rw [abs_div (s - A), abs_of_pos hpK] at this
    rwa [show rd (s / p) - s / p + (s - A) / p = rd (s / p) - A / p by ring] at this
  have e4 : δ * |s / p| ≤ δ * (growth δ ^ p * B / p) := by
    rw [abs_div, abs_of_pos hpK]
    exact mul_le_mul_of_nonneg_left (div_le_div_of_nonneg_right e2 hpK.le) h0
  have e5 : |s - A| / p ≤ (growth δ ^ p - 1) * B / p := div_le_div_of_nonneg_right h hpK.le
  have e6 : (1 + δ) * (growth δ ^ p * (B / p)) ≤ growth δ * (growth δ ^ p * (B / p)) :=
    mul_le_mul_of_nonneg_right (by linarith) (mul_nonneg (by linarith) (div_nonneg hB0 hpK.le))
  rw [pow_succ]
  calc _ ≤ δ * (growth δ ^ p * B / p) + (growth δ ^ p - 1) * B / p := by linarith
    _ = (1 + δ) * (growth δ ^ p * (B / p)) - B / p := by ring
    _ ≤ growth δ * (growth δ ^ p * (B / p)) - B / p := by linarith
    _ = _ := by ring

end greville

end Fp
end Igakit
