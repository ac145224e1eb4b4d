import Verif.Model.FloatRotate
import Verif.Props.FloatCompose

/-!
# Property C104: rounding errors of rotations, and of chains of matrices which are rounded themselves
-/

set_option linter.unusedSectionVars false

namespace Igakit
open Spec Transform

variable {K : Type} [Field K] [LinearOrder K] [IsStrictOrderedRing K] {d : ℕ}

/-- `x'` is within `m` roundings of `x`, measured by `A`, which is at least the size of `x` -/
structure Carried (δ : K) (m : ℕ) (x' x A : K) : Prop where
  le : |x| ≤ A
  err : |x' - x| ≤ (growth δ ^ m - 1) * A

namespace Carried
variable {δ : K} {m n : ℕ} {x' x A y' y B : K}

theorem nonneg (h : Carried δ m x' x A) : 0 ≤ A := (abs_nonneg _).trans h.le

theorem exact (δ x : K) : Carried δ 0 x x |x| := ⟨le_rfl, by simp⟩

theorem neg (h : Carried δ m x' x A) : Carried δ m (-x') (-x) A :=
  ⟨by rw [abs_neg]; exact h.le, by rw [← neg_sub', abs_neg]; exact h.err⟩

theorem mono (h0 : 0 ≤ δ) (hδ : δ < 1) (h : Carried δ m x' x A) (hmn : m ≤ n) : Carried δ n x' x A :=
  ⟨h.le, h.err.trans (mul_le_mul_of_nonneg_right (Fp.growth_sub h0 hδ hmn) h.nonneg)⟩

theorem size (h : Carried δ m x' x A) : |x'| ≤ growth δ ^ m * A := by
  have := abs_add_le (x' - x) x
  rw [sub_add_cancel] at this
  linarith [h.le, h.err]

theorem add (h : Carried δ m x' x A) (g : Carried δ m y' y B) : Carried δ m (x' + y') (x + y) (A + B) := by
  refine ⟨(abs_add_le _ _).trans (add_le_add h.le g.le), ?_⟩
  have := abs_add_le (x' - x) (y' - y)
  rw [show x' + y' - (x + y) = (x' - x) + (y' - y) by ring]
  linarith [h.err, g.err]

theorem mul (h0 : 0 ≤ δ) (hδ : δ < 1) (h : Carried δ m x' x A) (g : Carried δ n y' y B) :
    Carried δ (m + n) (x' * y') (x * y) (A * B) := by
  have hA := h.nonneg
  have hB := g.nonneg
  have g1 := Fp.growth_pow h0 hδ m
  refine ⟨by rw [abs_mul]; exact mul_le_mul h.le g.le (abs_nonneg _) hA, ?_⟩
  have e : x' * y' - x * y = x' * (y' - y) + (x' - x) * y := by ring
  have t1 : |x' * (y' - y)| ≤ growth δ ^ m * A * ((growth δ ^ n - 1) * B) := by
    rw [abs_mul]
    exact mul_le_mul h.size g.err (abs_nonneg _) (mul_nonneg (by linarith) hA)
  have t2 : |(x' - x) * y| ≤ (growth δ ^ m - 1) * A * B := by
    rw [abs_mul]
    exact mul_le_mul h.err g.le (abs_nonneg _) (mul_nonneg (by linarith) hA)
  have t3 := abs_add_le (x' * (y' - y)) ((x' - x) * y)
  have t4 : (growth δ ^ (m + n) - 1) * (A * B) = growth δ ^ m * A * ((growth δ ^ n - 1) * B) + (growth δ ^ m - 1) * A * B := by
    rw [pow_add]
    ring
  rw [e, t4]
  linarith

theorem rd {r : K → K} (h0 : 0 ≤ δ) (hδ : δ < 1) (hr : RelErr δ r) (h : Carried δ m x' x A) : Carried δ (m + 1) (r x') x A :=
  ⟨h.le, Fp.err_rd h0 hδ hr h.err h.le⟩

end Carried

/-- four products in any order, both factors carrying roundings -/
theorem dot_both {δ : K} {rd : K → K} (h0 : 0 ≤ δ) (hδ : δ < 1) (hr : RelErr δ rd) {a a' A b b' B : Fin 4 → K} {x : K} {p m : ℕ}
    (h : Fp.Dot rd [(a' 0, b' 0), (a' 1, b' 1), (a' 2, b' 2), (a' 3, b' 3)] x) (ha : ∀ k, Carried δ p (a' k) (a k) (A k))
    (hb : ∀ k, Carried δ m (b' k) (b k) (B k)) : Carried δ (p + m + 5) x (∑ k, a k * b k) (∑ k, A k * B k) := by
  have hs : Carried δ (p + m) (∑ k, a' k * b' k) (∑ k, a k * b k) (∑ k, A k * B k) := by
    simp only [Fin.sum_univ_four]
    exact ((((ha 0).mul h0 hδ (hb 0)).add ((ha 1).mul h0 hδ (hb 1))).add ((ha 2).mul h0 hδ (hb 2))).add
      ((ha 3).mul h0 hδ (hb 3))
  have hd := C99_dot h0 hδ hr h
  have e1 : dotSum [(a' 0, b' 0), (a' 1, b' 1), (a' 2, b' 2), (a' 3, b' 3)] = ∑ k, a' k * b' k := by
    simp only [dotSum, List.map, List.sum_cons, List.sum_nil, Fin.sum_univ_four]
    ring
  have e2 : dotAbs [(a' 0, b' 0), (a' 1, b' 1), (a' 2, b' 2), (a' 3, b' 3)] = ∑ k, |a' k * b' k| := by
    simp only [dotAbs, List.map, List.sum_cons, List.sum_nil, Fin.sum_univ_four]
    ring
  rw [e1, e2, show (List.length [(a' 0, b' 0), (a' 1, b' 1), (a' 2, b' 2), (a' 3, b' 3)]) + 1 = 5 from rfl] at hd
  have f1 : ∑ k, |a' k * b' k| ≤ growth δ ^ (p + m) * ∑ k, A k * B k := by
    rw [Finset.mul_sum]
    exact Finset.sum_le_sum fun k _ => ((ha k).mul h0 hδ (hb k)).size
  have g5 := Fp.growth_pow h0 hδ 5
  have f2 := mul_le_mul_of_nonneg_left f1 (sub_nonneg.2 g5)
  refine ⟨hs.le, ?_⟩
  have f3 := abs_sub_le x (∑ k, a' k * b' k) (∑ k, a k * b k)
  have f4 : (growth δ ^ (p + m + 5) - 1) * ∑ k, A k * B k =
      (growth δ ^ 5 - 1) * (growth δ ^ (p + m) * ∑ k, A k * B k) + (growth δ ^ (p + m) - 1) * ∑ k, A k * B k := by
    rw [pow_add (growth δ) (p + m) 5]
    ring
  rw [f4]
  linarith [hs.err]

/-- a matrix passed to `compose`: the rounded one, the exact one, its measure, and the number of roundings -/
structure Step (K : Type) where
  rounded : Mat4 K
  exact : Mat4 K
  size : Mat4 K
  m : ℕ

/-- C104: a chain of matrices which carry errors themselves: the errors add up -/
theorem C104_chain {δ : K} {rd : K → K} (h0 : 0 ≤ δ) (hδ : δ < 1) (hr : RelErr δ rd) (l : List (Step K)) {B : Mat4 K}
    (hl : ∀ s ∈ l, ∀ i j, Carried δ s.m (s.rounded i j) (s.exact i j) (s.size i j))
    (h : ChainF rd (l.map Step.rounded) B) (i j : Fin 4) :
    Carried δ (5 * l.length + (l.map Step.m).sum) (B i j) ((l.map Step.exact).prod i j) ((l.map Step.size).prod i j) := by
  induction l generalizing B i j with
  | nil =>
    cases h
    show Carried δ 0 ((1 : Mat4 K) i j) ((1 : Mat4 K) i j) ((1 : Mat4 K) i j)
    have := Carried.exact δ ((1 : Mat4 K) i j)
    rwa [abs_of_nonneg (by rw [Matrix.one_apply]; split_ifs <;> simp)] at this
  | cons s l ih =>
    rw [List.map_cons] at h
    cases h with
    | @cons _ A _ _ hA hc =>
      have k1 := ih (fun t ht => hl t (List.mem_cons_of_mem _ ht)) hA
      have := dot_both (a' := fun k => s.rounded i k) (b' := fun k => A k j) h0 hδ hr (hc i j)
        (fun k => hl s List.mem_cons_self i k) (fun k => k1 k j)
      rw [List.map_cons, List.map_cons, List.map_cons, List.prod_cons, List.prod_cons, List.sum_cons, Matrix.mul_apply,
        Matrix.mul_apply, List.length_cons,
        show 5 * (l.length + 1) + (s.m + (l.map Step.m).sum) = s.m + (5 * l.length + (l.map Step.m).sum) + 5 by ring]
      exact this

/-! ## Rotations -/

/-- `x` is between `y / g ^ k` and `g ^ k * y` -/
structure Within (δ : ℝ) (k : ℕ) (x y : ℝ) : Prop where
  lower : y ≤ growth δ ^ k * x
  upper : x ≤ growth δ ^ k * y

section within
variable {δ : ℝ} (h0 : 0 ≤ δ) (hδ : δ < 1)
include h0 hδ

theorem Within.rd {rd : ℝ → ℝ} (hr : RelErr δ rd) {k : ℕ} {x y : ℝ} (hx : 0 ≤ x) (h : Within δ k x y) :
    Within δ (k + 1) (rd x) y := by
  have e := hr x
  rw [abs_of_nonneg hx] at e
  obtain ⟨e1, e2⟩ := abs_le.1 e
  have g1 := Fp.growth_mul hδ
  have g2 := Fp.le_growth h0 hδ
  have gk : 0 ≤ growth δ ^ k := by linarith [Fp.growth_pow h0 hδ k]
  have g0 : 0 ≤ growth δ := by linarith
  constructor
  · have t : x ≤ growth δ * rd x := by
      have : x = growth δ * ((1 - δ) * x) := by rw [← mul_assoc, g1, one_mul]
      rw [this]
      refine mul_le_mul_of_nonneg_left ?_ g0
      rw [← mul_assoc, g1, one_mul]
      linarith
    refine h.lower.trans ?_
    rw [pow_succ, mul_assoc]
    exact mul_le_mul_of_nonneg_left t gk
  · have t : rd x ≤ growth δ * x := by
      have := mul_le_mul_of_nonneg_right g2 hx
      linarith
    refine t.trans ?_
    rw [pow_succ, mul_comm (growth δ ^ k), mul_assoc]
    exact mul_le_mul_of_nonneg_left h.upper g0

theorem Within.mono {k m : ℕ} {x y : ℝ} (hx : 0 ≤ x) (hy : 0 ≤ y) (h : Within δ k x y) (hkm : k ≤ m) : Within δ m x y := by
  have g := pow_le_pow_right₀ (Fp.one_le_growth h0 hδ) hkm
  exact ⟨h.lower.trans (mul_le_mul_of_nonneg_right g hx), h.upper.trans (mul_le_mul_of_nonneg_right g hy)⟩

/-- a sum of squares in any order is within `n + 1` roundings in the relative sense -/
theorem dot_squares {rd : ℝ → ℝ} (hr : RelErr δ rd) {l : List (ℝ × ℝ)} {x : ℝ} (h : Fp.Dot rd l x)
    (hl : ∀ t ∈ l, 0 ≤ t.1 * t.2) : 0 ≤ x ∧ Within δ (l.length + 1) x (dotSum l) := by
  have nn : ∀ {y : ℝ}, 0 ≤ y → 0 ≤ rd y := by
    intro y hy
    have e := hr y
    rw [abs_of_nonneg hy] at e
    have := (abs_le.1 e).1
    nlinarith
  have key : 0 ≤ x ∧ 0 ≤ dotSum l ∧ 1 ≤ l.length ∧ Within δ (l.length + 1) x (dotSum l) := by
    induction h with
    | prod a b =>
      have hp : 0 ≤ a * b := hl (a, b) (by simp)
      have e : dotSum [(a, b)] = a * b := by simp [dotSum]
      rw [e]
      have b0 : Within δ 0 (a * b) (a * b) := ⟨by simp, by simp⟩
      exact ⟨nn hp, hp, le_rfl, (b0.rd h0 hδ hr hp).mono h0 hδ (nn hp) hp (by simp)⟩
    | start a b =>
      have hp : 0 ≤ a * b := hl (a, b) (by simp)
      have e : dotSum [(a, b)] = a * b := by simp [dotSum]
      rw [e, zero_add]
      have b0 : Within δ 0 (a * b) (a * b) := ⟨by simp, by simp⟩
      exact ⟨nn (nn hp), hp, le_rfl, (b0.rd h0 hδ hr hp).rd h0 hδ hr (nn hp)⟩
    | @add l l' l'' x y _ _ hp ih ih' =>
      obtain ⟨x0, d0, n0, w⟩ := ih fun t ht => hl t (hp.mem_iff.2 (List.mem_append_left _ ht))
      obtain ⟨y0, d0', n0', w'⟩ := ih' fun t ht => hl t (hp.mem_iff.2 (List.mem_append_right _ ht))
      have e : dotSum l'' = dotSum l + dotSum l' := by rw [dotSum_perm hp, dotSum_append]
      have el : l''.length = l.length + l'.length := by rw [hp.length_eq, List.length_append]
      have a1 := w.mono h0 hδ x0 d0 (show l.length + 1 ≤ l''.length by omega)
      have a2 := w'.mono h0 hδ y0 d0' (show l'.length + 1 ≤ l''.length by omega)
      have s : Within δ l''.length (x + y) (dotSum l'') := by
        rw [e]
        exact ⟨by linarith [a1.lower, a2.lower], by linarith [a1.upper, a2.upper]⟩
      exact ⟨nn (add_nonneg x0 y0), by rw [e]; exact add_nonneg d0 d0', by omega, s.rd h0 hδ hr (add_nonneg x0 y0)⟩
    | @fma l l' x a b _ hp ih =>
      obtain ⟨x0, d0, n0, w⟩ := ih fun t ht => hl t (hp.mem_iff.2 (List.mem_cons_of_mem _ ht))
      have hab : 0 ≤ a * b := hl (a, b) (hp.mem_iff.2 List.mem_cons_self)
      have e : dotSum l' = a * b + dotSum l := by rw [dotSum_perm hp, dotSum_cons]
      have el : l'.length = l.length + 1 := by rw [hp.length_eq, List.length_cons]
      have a1 := w.mono h0 hδ x0 d0 (show l.length + 1 ≤ l'.length by omega)
      have a2 : Within δ l'.length (a * b) (a * b) :=
        (⟨by simp, by simp⟩ : Within δ 0 (a * b) (a * b)).mono h0 hδ hab hab (Nat.zero_le _)
      have s : Within δ l'.length (x + a * b) (dotSum l') := by
        rw [e]
        exact ⟨by linarith [a1.lower, a2.lower], by linarith [a1.upper, a2.upper]⟩
      exact ⟨nn (add_nonneg x0 hab), by rw [e]; exact add_nonneg hab d0, by omega, s.rd h0 hδ hr (add_nonneg x0 hab)⟩
  exact ⟨key.1, key.2.2.2⟩

theorem Within.sqrt {k : ℕ} {x y : ℝ} (h : Within δ (2 * k) x y) : Within δ k (Real.sqrt x) (Real.sqrt y) := by
  have g0 : 0 ≤ growth δ ^ k := by linarith [Fp.growth_pow h0 hδ k]
  have e : ∀ z, Real.sqrt (growth δ ^ (2 * k) * z) = growth δ ^ k * Real.sqrt z := by
    intro z
    rw [mul_comm 2 k, pow_mul, Real.sqrt_mul (sq_nonneg _), Real.sqrt_sq g0]
  exact ⟨by rw [← e]; exact Real.sqrt_le_sqrt h.lower, by rw [← e]; exact Real.sqrt_le_sqrt h.upper⟩

/-- dividing by a number within `k` roundings -/
theorem carried_div {k : ℕ} {x y : ℝ} (hx : 0 < x) (hy : 0 < y) (h : Within δ k x y) (u : ℝ) :
    Carried δ k (u / x) (u / y) |u / y| := by
  refine ⟨le_rfl, ?_⟩
  have g1 := Fp.growth_pow h0 hδ k
  have e : u / x - u / y = (y / x - 1) * (u / y) := by field_simp
  rw [e, abs_mul]
  refine mul_le_mul_of_nonneg_right ?_ (abs_nonneg _)
  rw [abs_le]
  have t1 : y / x ≤ growth δ ^ k := (div_le_iff₀ hx).2 h.lower
  have t2 : 1 ≤ growth δ ^ k * (y / x) := by
    rw [← mul_div_assoc, le_div_iff₀ hx, one_mul]
    exact h.upper
  constructor
  · nlinarith [mul_self_nonneg (growth δ ^ k - 1)]
  · linarith

end within

/-- the measure of a rotation about `v` with cosine `c` and sine `s` -/
def rotSize (c s : ℝ) (v : Fin 3 → ℝ) : Matrix (Fin 3) (Fin 3) ℝ := fun i j =>
  (!![|c|, |s| * |v 2|, |s| * |v 1|; |s| * |v 2|, |c|, |s| * |v 0|; |s| * |v 1|, |s| * |v 0|, |c|] : Matrix (Fin 3) (Fin 3) ℝ) i j +
    (1 + |c|) * (|v i| * |v j|)

theorem Libm.carried {δ angle s c : ℝ} (h0 : 0 ≤ δ) (hδ : δ < 1) (h : Libm δ angle s c) :
    Carried δ 1 s (Real.sin angle) |Real.sin angle| ∧ Carried δ 1 c (Real.cos angle) |Real.cos angle| := by
  have g := Fp.le_growth h0 hδ
  have key : ∀ z : ℝ, δ * |z| ≤ (growth δ ^ 1 - 1) * |z| := fun z => by
    rw [pow_one]
    exact mul_le_mul_of_nonneg_right (by linarith) (abs_nonneg _)
  exact ⟨⟨le_rfl, h.sin.trans (key _)⟩, ⟨le_rfl, h.cos.trans (key _)⟩⟩

/-- C104: rotation about a coordinate axis: every entry is within one rounding of the exact one, relative to itself; zeros and ones
are exact -/
theorem C104_axis {rd : ℝ → ℝ} {δ angle : ℝ} (h0 : 0 ≤ δ) (hδ : δ < 1) {a : ℤ} {R' R : Matrix (Fin 3) (Fin 3) ℝ}
    (h : RotF rd δ angle (.int a) R') (hR : rotMat angle (.int a) = .ok R) (i j : Fin 3) :
    Carried δ 1 (R' i j) (R i j) |R i j| := by
  obtain ⟨b, s, c, hb, hl, rfl⟩ := h
  obtain ⟨cs, cc⟩ := hl.carried h0 hδ
  have hR' : R = axisRot (Real.cos angle) (Real.sin angle) b := by
    unfold rotMat at hR
    dsimp only at hR
    rw [hb, res_ok_bind] at hR
    exact (Except.ok.inj hR).symm
  subst hR'
  have z : Carried δ 1 0 0 |(0 : ℝ)| := (Carried.exact δ (0 : ℝ)).mono h0 hδ (by norm_num)
  have o : Carried δ 1 1 1 |(1 : ℝ)| := (Carried.exact δ (1 : ℝ)).mono h0 hδ (by norm_num)
  have ns : Carried δ 1 (-s) (-Real.sin angle) |-Real.sin angle| := by
    have := cs.neg
    rwa [← abs_neg (Real.sin angle)] at this
  fin_cases b <;> fin_cases i <;> fin_cases j <;> first | exact z | exact o | exact cs | exact cc | exact ns

/-- the rounded norm of the vector is positive, and within three roundings of the norm -/
theorem norm_within {rd : ℝ → ℝ} {δ : ℝ} (h0 : 0 ≤ δ) (hδ : δ < 1) (hr : RelErr δ rd) {l : List ℝ} {q : ℝ}
    (hq : Fp.Dot rd [(l.getD 0 0, l.getD 0 0), (l.getD 1 0, l.getD 1 0), (l.getD 2 0, l.getD 2 0)] q) :
    Within δ 3 (rd (Real.sqrt q)) (norm3 fun i => l.getD i 0) := by
  obtain ⟨_, hq4⟩ := dot_squares h0 hδ hr hq (by
    intro t ht
    simp only [List.mem_cons, List.not_mem_nil, or_false] at ht
    rcases ht with rfl | rfl | rfl <;> exact mul_self_nonneg _)
  have e1 : Real.sqrt (dotSum [(l.getD 0 0, l.getD 0 0), (l.getD 1 0, l.getD 1 0), (l.getD 2 0, l.getD 2 0)]) =
      norm3 fun i => l.getD i 0 := by
    unfold norm3
    congr 1
    simp only [dotSum, List.map, List.sum_cons, List.sum_nil]
    show _ = l.getD 0 0 * l.getD 0 0 + l.getD 1 0 * l.getD 1 0 + l.getD 2 0 * l.getD 2 0
    ring
  have := (Within.sqrt h0 hδ (k := 2) hq4).rd h0 hδ hr (Real.sqrt_nonneg _)
  rwa [e1] at this

theorem norm_pos {rd : ℝ → ℝ} {δ : ℝ} (h0 : 0 ≤ δ) (hδ : δ < 1) (hr : RelErr δ rd) {l : List ℝ} {q : ℝ}
    (hq : Fp.Dot rd [(l.getD 0 0, l.getD 0 0), (l.getD 1 0, l.getD 1 0), (l.getD 2 0, l.getD 2 0)] q) :
    rd (Real.sqrt q) > 0 ↔ norm3 (fun i => l.getD i 0) > 0 := by
  have w := norm_within h0 hδ hr hq
  have g : 0 < growth δ ^ 3 := by linarith [Fp.growth_pow h0 hδ 3]
  constructor
  · intro h
    by_contra hc
    have := mul_nonneg_of_nonpos_of_nonpos (show -(growth δ ^ 3) ≤ 0 by linarith) (not_lt.1 hc)
    linarith [w.upper]
  · intro h
    exact pos_of_mul_pos_right (h.trans_le w.lower) g.le

/-- C104: `rotate` accepts an axis in floating point exactly if it accepts it in exact arithmetic -/
theorem C104_accepts {rd : ℝ → ℝ} {δ : ℝ} (h0 : 0 ≤ δ) (hδ : δ < 1) (hr : RelErr δ rd) (angle : ℝ) (ax : AxisArg) :
    (∃ R', RotF rd δ angle ax R') ↔ ∃ R, rotMat angle ax = .ok R := by
  have lm : Libm δ angle (Real.sin angle) (Real.cos angle) :=
    ⟨by rw [sub_self, abs_zero]; positivity, by rw [sub_self, abs_zero]; positivity⟩
  cases ax with
  | int a =>
    unfold rotMat
    dsimp only
    constructor
    · rintro ⟨_, b, s, c, hb, _⟩
      exact ⟨_, by rw [hb]; rfl⟩
    · rintro ⟨R, hR⟩
      cases hb : normAxis 3 a with
      | error e => rw [hb] at hR; cases hR
      | ok b => exact ⟨_, b, _, _, hb, lm, rfl⟩
  | vec l =>
    unfold rotMat
    dsimp only
    constructor
    · rintro ⟨_, s, c, q, hlen, _, hq, hp, _⟩
      exact ⟨_, by rw [pyAssert_ok hlen, res_ok_bind, pyAssert_ok ((norm_pos h0 hδ hr hq).1 hp), res_ok_bind]; rfl⟩
    · rintro ⟨R, hR⟩
      have hlen : 1 ≤ l.length ∧ l.length ≤ 3 := by
        by_contra hc
        rw [pyAssert_err hc] at hR
        cases hR
      rw [pyAssert_ok hlen, res_ok_bind] at hR
      have hn : norm3 (fun i => l.getD i 0) > 0 := by
        by_contra hc
        rw [pyAssert_err hc] at hR
        cases hR
      have hq := ((Fp.Dot.prod (rd := rd) (l.getD 0 0) (l.getD 0 0)).add (.prod (l.getD 1 0) (l.getD 1 0)) (.refl _)).add
        (.prod (l.getD 2 0) (l.getD 2 0)) (.refl _)
      exact ⟨_, _, _, _, hlen, lm, hq, (norm_pos h0 hδ hr hq).2 hn, rfl⟩

/-- C104: rotation about any vector: thirteen roundings, measured by `rotSize` -/
theorem C104_vector {rd : ℝ → ℝ} {δ angle : ℝ} (h0 : 0 ≤ δ) (hδ : δ < 1) (hr : RelErr δ rd) {l : List ℝ}
    {R' R : Matrix (Fin 3) (Fin 3) ℝ} (h : RotF rd δ angle (.vec l) R') (hR : rotMat angle (.vec l) = .ok R) :
    ∃ v : Fin 3 → ℝ, IsAxis (.vec l) v ∧ R = rodrigues (Real.cos angle) (Real.sin angle) v ∧
      ∀ i j, Carried δ 13 (R' i j) (R i j) (rotSize (Real.cos angle) (Real.sin angle) v i j) := by
  obtain ⟨s, c, q, hlen, hm, hq, hpos, rfl⟩ := h
  obtain ⟨cs, cc⟩ := hm.carried h0 hδ
  set w : Fin 3 → ℝ := fun i => l.getD i 0 with hw
  unfold rotMat at hR
  dsimp only at hR
  rw [pyAssert_ok hlen, res_ok_bind] at hR
  have hn : norm3 w > 0 := by
    by_contra hc
    rw [pyAssert_err hc] at hR
    cases hR
  rw [pyAssert_ok hn, res_ok_bind] at hR
  have hR' := (Except.ok.inj hR).symm
  have hn2 : norm3 w * norm3 w = w 0 * w 0 + w 1 * w 1 + w 2 * w 2 :=
    Real.mul_self_sqrt (add_nonneg (add_nonneg (mul_self_nonneg _) (mul_self_nonneg _)) (mul_self_nonneg _))
  refine ⟨fun i => w i / norm3 w, IsAxis.vec l _ (norm3 w) hlen hn ?_ ?_, hR', ?_⟩
  · have : norm3 w ≠ 0 := hn.ne'
    field_simp
    nlinarith [hn2]
  · intro i
    show w i = norm3 w * (w i / norm3 w)
    field_simp
  have w3 : Within δ 3 (rd (Real.sqrt q)) (norm3 w) := norm_within h0 hδ hr hq
  have cv : ∀ i, Carried δ 4 (rd (w i / rd (Real.sqrt q))) (w i / norm3 w) |w i / norm3 w| := fun i =>
    (carried_div h0 hδ hpos hn w3 (w i)).rd h0 hδ hr
  set v : Fin 3 → ℝ := fun i => w i / norm3 w with hv
  set v' : Fin 3 → ℝ := fun i => rd (w i / rd (Real.sqrt q)) with hv'
  have outer : ∀ i j, Carried δ 12 (rd (rd (1 - c) * rd (v' i * v' j))) ((1 - Real.cos angle) * (v i * v j))
      ((1 + |Real.cos angle|) * (|v i| * |v j|)) := by
    intro i j
    have o := ((Carried.exact δ (1 : ℝ)).mono h0 hδ (show 0 ≤ 1 by norm_num)).add cc.neg
    rw [abs_one, ← sub_eq_add_neg, ← sub_eq_add_neg] at o
    exact ((o.rd h0 hδ hr).mul h0 hδ (((cv i).mul h0 hδ (cv j)).rd h0 hδ hr)).rd h0 hδ hr
  have off : ∀ i, Carried δ 12 (rd (s * v' i)) (Real.sin angle * v i) (|Real.sin angle| * |v i|) := fun i =>
    ((cs.mul h0 hδ (cv i)).rd h0 hδ hr).mono h0 hδ (by norm_num)
  have offn : ∀ i, Carried δ 12 (rd (s * -v' i)) (Real.sin angle * -v i) (|Real.sin angle| * |v i|) := fun i =>
    ((cs.mul h0 hδ (cv i).neg).rd h0 hδ hr).mono h0 hδ (by norm_num)
  have dia : Carried δ 12 c (Real.cos angle) |Real.cos angle| := cc.mono h0 hδ (by norm_num)
  intro i j
  rw [hR']
  fin_cases i <;> fin_cases j
  · exact (dia.add (outer 0 0)).rd h0 hδ hr
  · exact ((offn 2).add (outer 0 1)).rd h0 hδ hr
  · exact ((off 1).add (outer 0 2)).rd h0 hδ hr
  · exact ((off 2).add (outer 1 0)).rd h0 hδ hr
  · exact (dia.add (outer 1 1)).rd h0 hδ hr
  · exact ((offn 0).add (outer 1 2)).rd h0 hδ hr
  · exact ((offn 1).add (outer 2 0)).rd h0 hδ hr
  · exact ((off 0).add (outer 2 1)).rd h0 hδ hr
  · exact (dia.add (outer 2 2)).rd h0 hδ hr

/-! ## Objects -/

theorem carried_embed {δ : ℝ} (h0 : 0 ≤ δ) (hδ : δ < 1) {m : ℕ} {R' R A : Matrix (Fin 3) (Fin 3) ℝ}
    (h : ∀ i j, Carried δ m (R' i j) (R i j) (A i j)) (i j : Fin 4) :
    Carried δ m (embed3 R' i j) (embed3 R i j) (embed3 A i j) := by
  unfold embed3
  split_ifs with h1 h2
  · exact h _ _
  · have := (Carried.exact δ (1 : ℝ)).mono h0 hδ (Nat.zero_le m)
    rwa [abs_one] at this
  · have := (Carried.exact δ (0 : ℝ)).mono h0 hδ (Nat.zero_le m)
    rwa [abs_zero] at this

/-- C104: the control points of an object under a chain of matrices which carry errors -/
theorem C104_net {δ : K} {rd : K → K} (h0 : 0 ≤ δ) (hδ : δ < 1) (hr : RelErr δ rd) (l : List (Step K)) {B : Mat4 K}
    (hl : ∀ s ∈ l, ∀ i j, Carried δ s.m (s.rounded i j) (s.exact i j) (s.size i j))
    (h : ChainF rd (l.map Step.rounded) B) {N L : Nrb K d} (ht : N.TransformF rd B L) {idx : Fin d → ℤ} (hi : N.InNet idx)
    (i : Fin 4) :
    |L.P idx i - (N.transform (l.map Step.exact).prod).P idx i| ≤
      (growth δ ^ (5 * l.length + (l.map Step.m).sum + 5) - 1) * ∑ k : Fin 4, |N.P idx k| * (l.map Step.size).prod i k := by
  have := (dot_both (a' := fun k : Fin 4 => N.P idx k) (b' := fun k => B i k) h0 hδ hr (ht.dot idx hi i)
    (fun k => Carried.exact δ (N.P idx k)) (fun k => C104_chain h0 hδ hr l hl h i k)).err
  rw [zero_add] at this
  have e : (N.transform (l.map Step.exact).prod).P idx i = ∑ k : Fin 4, N.P idx k * (l.map Step.exact).prod i k := by
    rw [← dotSum_row]
    simp only [dotSum, rowTerms, List.map, List.sum_cons, List.sum_nil, Fin.sum_univ_four]
    show _ = N.P idx 0 * _ + N.P idx 1 * _ + N.P idx 2 * _ + N.P idx 3 * _
    ring
  rw [e]
  exact this

/-- C104: `NURBS.rotate` about a vector: twenty-three roundings -/
theorem C104_rotate {rd : ℝ → ℝ} {δ angle : ℝ} (h0 : 0 ≤ δ) (hδ : δ < 1) (hr : RelErr δ rd) {ax : List ℝ}
    {R' : Matrix (Fin 3) (Fin 3) ℝ} (h : RotF rd δ angle (.vec ax) R') {B : Mat4 ℝ} (hB : ChainF rd [embed3 R'] B)
    {N L Q : Nrb ℝ d} (ht : N.TransformF rd B L) (hQ : N.rotate angle (.vec ax) = .ok Q) :
    ∃ v, IsAxis (.vec ax) v ∧ ∀ idx, N.InNet idx → ∀ i : Fin 4, |L.P idx i - Q.P idx i| ≤
      (growth δ ^ 23 - 1) * ∑ k : Fin 4, |N.P idx k| * embed3 (rotSize (Real.cos angle) (Real.sin angle) v) i k := by
  obtain ⟨R, hR⟩ := (C104_accepts h0 hδ hr angle (.vec ax)).1 ⟨R', h⟩
  obtain ⟨v, hv, hRv, hc⟩ := C104_vector h0 hδ hr h hR
  refine ⟨v, hv, fun idx hi i => ?_⟩
  have e : Q = N.transform (embed3 R) := by
    unfold Nrb.rotate at hQ
    rw [rotate_ok hv, res_ok_bind, mul_one, ← hRv] at hQ
    exact (Except.ok.inj hQ).symm
  have := C104_net h0 hδ hr [⟨embed3 R', embed3 R, embed3 (rotSize (Real.cos angle) (Real.sin angle) v), 13⟩]
    (fun s hs i j => by
      rw [List.mem_singleton.1 hs]
      exact carried_embed h0 hδ hc i j) hB ht hi i
  simp only [List.map_cons, List.map_nil, List.prod_cons, List.prod_nil, mul_one, List.sum_cons, List.sum_nil,
    List.length_cons, List.length_nil] at this
  rw [e]
  exact this

/-- C104: `NURBS.rotate` about a coordinate axis: eleven roundings, measured by the entries themselves -/
theorem C104_rotate_axis {rd : ℝ → ℝ} {δ angle : ℝ} (h0 : 0 ≤ δ) (hδ : δ < 1) (hr : RelErr δ rd) (ha : angle ≠ 0) {a : ℤ}
    {R' R : Matrix (Fin 3) (Fin 3) ℝ} (h : RotF rd δ angle (.int a) R') (hR : rotMat angle (.int a) = .ok R) {B : Mat4 ℝ}
    (hB : ChainF rd [embed3 R'] B) {N L Q : Nrb ℝ d} (ht : N.TransformF rd B L) (hQ : N.rotate angle (.int a) = .ok Q)
    {idx : Fin d → ℤ} (hi : N.InNet idx) (i : Fin 4) :
    |L.P idx i - Q.P idx i| ≤ (growth δ ^ 11 - 1) * ∑ k : Fin 4, |N.P idx k| * embed3 (R.map abs) i k := by
  have e : Q = N.transform (embed3 R) := by
    unfold Nrb.rotate Transform.rotate at hQ
    rw [if_neg ha, hR, res_ok_bind] at hQ
    have := (Except.ok.inj hQ).symm
    rw [this]
    show N.transform ((embed3 R : Mat4 ℝ) * (1 : Mat4 ℝ)) = _
    rw [mul_one]
  have := C104_net h0 hδ hr [⟨embed3 R', embed3 R, embed3 (R.map abs), 1⟩]
    (fun s hs i j => by
      rw [List.mem_singleton.1 hs]
      exact carried_embed h0 hδ (fun i j => C104_axis h0 hδ h hR i j) i j) hB ht hi i
  simp only [List.map_cons, List.map_nil, List.prod_cons, List.prod_nil, mul_one, List.sum_cons, List.sum_nil,
    List.length_cons, List.length_nil] at this
  rw [e]
  exact this

namespace Ex

/-- rounding of real numbers to `t` bits, exponents unbounded -/
noncomputable def flR (t : ℕ) (x : ℝ) : ℝ :=
  round (x / 2 ^ (Int.log 2 |x| + 1 - (t : ℤ))) * (2 : ℝ) ^ (Int.log 2 |x| + 1 - (t : ℤ))

theorem flR_relErr (t : ℕ) : RelErr ((2 : ℝ) ^ (-(t : ℤ))) (flR t) := by
  intro x
  rcases eq_or_ne x 0 with rfl | hx
  · simp [flR]
  · have hl : (2 : ℝ) ^ Int.log 2 |x| ≤ |x| := by
      exact_mod_cast Int.zpow_log_le_self (b := 2) (by norm_num) (abs_pos.mpr hx)
    have hp : (0 : ℝ) < 2 ^ (Int.log 2 |x| + 1 - (t : ℤ)) := by positivity
    have hr := abs_sub_round (x / (2 : ℝ) ^ (Int.log 2 |x| + 1 - (t : ℤ)))
    have e : flR t x - x = -(x / (2 : ℝ) ^ (Int.log 2 |x| + 1 - (t : ℤ)) - round (x / (2 : ℝ) ^ (Int.log 2 |x| + 1 - (t : ℤ)))) *
        (2 : ℝ) ^ (Int.log 2 |x| + 1 - (t : ℤ)) := by
      unfold flR
      field_simp
      ring
    rw [e, abs_mul, abs_neg, abs_of_pos hp]
    refine (mul_le_mul_of_nonneg_right hr hp.le).trans ?_
    rw [show Int.log 2 |x| + 1 - (t : ℤ) = -(t : ℤ) + Int.log 2 |x| + 1 by ring, zpow_add₀ (by norm_num),
      zpow_add₀ (by norm_num), zpow_one]
    nlinarith [mul_le_mul_of_nonneg_left hl (show (0 : ℝ) ≤ 2 ^ (-(t : ℤ)) by positivity)]

theorem d53 : (0 : ℝ) ≤ 2 ^ (-(53 : ℕ) : ℤ) ∧ (2 : ℝ) ^ (-(53 : ℕ) : ℤ) < 1 :=
  ⟨by positivity, by norm_num⟩

theorem diag_axis : IsAxis (.vec [1, 2, 2]) ![1 / 3, 2 / 3, 2 / 3] :=
  .vec _ _ 3 (by simp) (by norm_num) (by simp; norm_num) (by intro i; fin_cases i <;> simp <;> norm_num)

/-- a rotation of any object by one radian about (1, 2, 2), with doubles -/
example (N : Nrb ℝ 2) : ∃ R' B L Q v, RotF (flR 53) (2 ^ (-(53 : ℕ) : ℤ)) 1 (.vec [1, 2, 2]) R' ∧
    ChainF (flR 53) [embed3 R'] B ∧ N.TransformF (flR 53) B L ∧ N.rotate 1 (.vec [1, 2, 2]) = .ok Q ∧
    ∀ idx, N.InNet idx → ∀ i : Fin 4, |L.P idx i - Q.P idx i| ≤ (growth (2 ^ (-(53 : ℕ) : ℤ)) ^ 23 - 1) *
      ∑ k : Fin 4, |N.P idx k| * embed3 (rotSize (Real.cos 1) (Real.sin 1) v) i k := by
  obtain ⟨R', h⟩ := (C104_accepts d53.1 d53.2 (flR_relErr 53) 1 (.vec [1, 2, 2])).2 ⟨_, rotMat_ok diag_axis 1⟩
  obtain ⟨B, hB⟩ := C101_total (flR 53) [embed3 R']
  obtain ⟨Q, hQ⟩ : ∃ Q, N.rotate 1 (.vec [1, 2, 2]) = .ok Q := by
    unfold Nrb.rotate
    rw [rotate_ok diag_axis, res_ok_bind]
    exact ⟨_, rfl⟩
  obtain ⟨v, _, hv⟩ := C104_rotate d53.1 d53.2 (flR_relErr 53) h hB (C99_total (flR 53) N B) hQ
  exact ⟨R', B, _, _, v, h, hB, C99_total _ _ _, hQ, hv⟩

/-- the zero vector is refused in both -/
example : ¬ ∃ R', RotF (flR 53) (2 ^ (-(53 : ℕ) : ℤ)) 1 (.vec [0, 0]) R' := by
  rw [C104_accepts d53.1 d53.2 (flR_relErr 53)]
  rintro ⟨R, hR⟩
  unfold rotMat at hR
  dsimp only at hR
  rw [pyAssert_ok (by simp), res_ok_bind, pyAssert_err (by
    have : norm3 (fun i : Fin 3 => ([0, 0] : List ℝ).getD i 0) = 0 := by
      unfold norm3
      simp
    rw [this]
    exact lt_irrefl 0)] at hR
  cases hR

/-- a rotation of any object by two radians about the y-axis, counted from the end -/
example (N : Nrb ℝ 2) : ∃ R' B L Q R, RotF (flR 53) (2 ^ (-(53 : ℕ) : ℤ)) 2 (.int (-2)) R' ∧
    ChainF (flR 53) [embed3 R'] B ∧ N.TransformF (flR 53) B L ∧ N.rotate 2 (.int (-2)) = .ok Q ∧
    ∀ idx, N.InNet idx → ∀ i : Fin 4, |L.P idx i - Q.P idx i| ≤ (growth (2 ^ (-(53 : ℕ) : ℤ)) ^ 11 - 1) *
      ∑ k : Fin 4, |N.P idx k| * embed3 (Matrix.map R abs) i k := by
  have hax : IsAxis (.int (-2)) (Pi.single 1 1) := .int _ _ (by rfl)
  obtain ⟨R', h⟩ := (C104_accepts d53.1 d53.2 (flR_relErr 53) 2 (.int (-2))).2 ⟨_, rotMat_ok hax 2⟩
  obtain ⟨B, hB⟩ := C101_total (flR 53) [embed3 R']
  obtain ⟨Q, hQ⟩ : ∃ Q, N.rotate 2 (.int (-2)) = .ok Q := by
    unfold Nrb.rotate
    rw [rotate_ok hax, res_ok_bind]
    exact ⟨_, rfl⟩
  exact ⟨R', B, _, Q, _, h, hB, C99_total _ _ _, hQ, fun idx hi i =>
    C104_rotate_axis d53.1 d53.2 (flR_relErr 53) two_ne_zero h (rotMat_ok hax 2) hB (C99_total (flR 53) N B) hQ hi i⟩

/-- numbers below the smallest positive double become zero, the others are kept -/
noncomputable def flush (x : ℝ) : ℝ := if |x| < 2 ^ (-1075 : ℤ) then 0 else x

end Ex

/-- C104 (limit): the error bounds assume that nothing underflows.  If the square of a nonzero number underflows, the axis in this
direction is refused in floating point, though not in exact arithmetic -/
theorem C104_underflow : ∃ t : ℝ, 0 < t ∧ Ex.flush t = t ∧ (∀ δ angle, ¬ ∃ R', RotF Ex.flush δ angle (.vec [t]) R') ∧
    ∀ angle, ∃ R, rotMat angle (.vec [t]) = .ok R := by
  have hz : Ex.flush 0 = 0 := by simp [Ex.flush]
  have hsq : Ex.flush ((2 : ℝ) ^ (-600 : ℤ) * 2 ^ (-600 : ℤ)) = 0 := by
    have hp : (0 : ℝ) < 2 ^ (-1200 : ℤ) := by positivity
    unfold Ex.flush
    rw [← zpow_add₀ (by norm_num), show (-600 : ℤ) + -600 = -1200 by norm_num, abs_of_pos hp, if_pos]
    exact zpow_lt_zpow_right₀ (by norm_num) (by norm_num)
  have ht : (0 : ℝ) < 2 ^ (-600 : ℤ) := by positivity
  generalize ht' : (2 : ℝ) ^ (-600 : ℤ) = t at *
  refine ⟨t, ht, ?_, ?_, fun angle => ⟨_, rotMat_ok (u := ![1, 0, 0])
    (.vec _ _ t (by simp) ht (by simp) (by intro i; fin_cases i <;> simp)) angle⟩⟩
  · unfold Ex.flush
    rw [abs_of_pos ht, if_neg]
    rw [← ht', not_lt]
    exact zpow_le_zpow_right₀ (by norm_num) (by norm_num)
  · rintro δ angle ⟨_, _, _, q, _, _, hq, hp, _⟩
    have key : ∀ {l : List (ℝ × ℝ)} {x : ℝ}, Fp.Dot Ex.flush l x → (∀ p ∈ l, p = (t, t) ∨ p = (0, 0)) → x = 0 := by
      intro l x h
      have pr : ∀ {a b : ℝ}, (a, b) = (t, t) ∨ (a, b) = (0, 0) → Ex.flush (a * b) = 0 := by
        rintro a b (h | h) <;> obtain ⟨rfl, rfl⟩ := Prod.mk.inj h
        · exact hsq
        · rw [mul_zero, hz]
      induction h with
      | prod a b => exact fun h => pr (h _ (by simp))
      | start a b => exact fun h => by rw [pr (h _ (by simp)), add_zero, hz]
      | add _ _ hp ih ih' =>
        intro h
        rw [ih fun p m => h p (hp.mem_iff.2 (List.mem_append_left _ m)),
          ih' fun p m => h p (hp.mem_iff.2 (List.mem_append_right _ m)), add_zero, hz]
      | fma _ hp ih =>
        intro h
        rw [ih fun p m => h p (hp.mem_iff.2 (List.mem_cons_of_mem _ m)), zero_add]
        exact pr (h _ (hp.mem_iff.2 List.mem_cons_self))
    have q0 : q = 0 := key hq (by simp)
    rw [q0, Real.sqrt_zero, hz] at hp
    exact lt_irrefl _ hp

end Igakit
