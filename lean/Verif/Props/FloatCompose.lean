import Verif.Model.FloatCompose
import Verif.Props.FloatTrans

/-!
# Property C101: rounding errors of composed transformations
-/

set_option linter.unusedSectionVars false

namespace Igakit
open Spec Transform

variable {K : Type} [Field K] [LinearOrder K] [IsStrictOrderedRing K] {d : ℕ}

/-- absolute values of the entries -/
def absMat (M : Mat4 K) : Mat4 K := fun i j => |M i j|

/-- the exact product, the last matrix first -/
def exactChain (l : List (Mat4 K)) : Mat4 K := l.prod

/-- the product of the absolute values -/
def absChain (l : List (Mat4 K)) : Mat4 K := (l.map absMat).prod

theorem exactChain_cons (M : Mat4 K) (l : List (Mat4 K)) (i j : Fin 4) :
    exactChain (M :: l) i j = ∑ k, M i k * exactChain l k j := by
  unfold exactChain
  rw [List.prod_cons, Matrix.mul_apply]

theorem absChain_cons (M : Mat4 K) (l : List (Mat4 K)) (i j : Fin 4) :
    absChain (M :: l) i j = ∑ k, |M i k| * absChain l k j := by
  unfold absChain
  rw [List.map_cons, List.prod_cons, Matrix.mul_apply]
  rfl

theorem exact_le_abs (l : List (Mat4 K)) : ∀ i j, |exactChain l i j| ≤ absChain l i j := by
  induction l with
  | nil =>
    intro i j
    show |(1 : Mat4 K) i j| ≤ (1 : Mat4 K) i j
    rw [Matrix.one_apply]
    split_ifs <;> simp
  | cons M l ih =>
    intro i j
    rw [exactChain_cons, absChain_cons]
    refine (Finset.abs_sum_le_sum_abs _ _).trans (Finset.sum_le_sum fun k _ => ?_)
    rw [abs_mul]
    exact mul_le_mul_of_nonneg_left (ih k j) (abs_nonneg _)

/-- four products in any order, the second factors already carrying `m` roundings -/
theorem dot_carried {δ : K} {rd : K → K} (h0 : 0 ≤ δ) (hδ : δ < 1) (hr : RelErr δ rd) {a b b' B : Fin 4 → K} {x : K} {m : ℕ}
    (h : Fp.Dot rd [(a 0, b' 0), (a 1, b' 1), (a 2, b' 2), (a 3, b' 3)] x) (hb : ∀ k, |b k| ≤ B k)
    (he : ∀ k, |b' k - b k| ≤ (growth δ ^ m - 1) * B k) :
    |x - ∑ k, a k * b k| ≤ (growth δ ^ (m + 5) - 1) * ∑ k, |a k| * B k := by
  have g5 := Fp.growth_pow h0 hδ 5
  have hd := C99_dot h0 hδ hr h
  have e1 : dotSum [(a 0, b' 0), (a 1, b' 1), (a 2, b' 2), (a 3, b' 3)] = ∑ k, a k * b' k := by
    simp only [dotSum, List.map, List.sum_cons, List.sum_nil, Fin.sum_univ_four]
    ring
  have e2 : dotAbs [(a 0, b' 0), (a 1, b' 1), (a 2, b' 2), (a 3, b' 3)] = ∑ k, |a k| * |b' k| := by
    simp only [dotAbs, List.map, List.sum_cons, List.sum_nil, Fin.sum_univ_four, abs_mul]
    ring
  rw [e1, e2, show (List.length [(a 0, b' 0), (a 1, b' 1), (a 2, b' 2), (a 3, b' 3)]) + 1 = 5 from rfl] at hd
  have hb' : ∀ k, |b' k| ≤ growth δ ^ m * B k := by
    intro k
    have : |b' k| ≤ |b' k - b k| + |b k| := by
      have := abs_add_le (b' k - b k) (b k)
      rwa [sub_add_cancel] at this
    linarith [he k, hb k]
  have f1 : ∑ k, |a k| * |b' k| ≤ growth δ ^ m * ∑ k, |a k| * B k := by
    rw [Finset.mul_sum]
    refine Finset.sum_le_sum fun k _ => ?_
    have := mul_le_mul_of_nonneg_left (hb' k) (abs_nonneg (a k))
    linarith
  have f2 : |∑ k, a k * b' k - ∑ k, a k * b k| ≤ (growth δ ^ m - 1) * ∑ k, |a k| * B k := by
    rw [← Finset.sum_sub_distrib, Finset.mul_sum]
    refine (Finset.abs_sum_le_sum_abs _ _).trans (Finset.sum_le_sum fun k _ => ?_)
    rw [← mul_sub, abs_mul]
    have := mul_le_mul_of_nonneg_left (he k) (abs_nonneg (a k))
    linarith
  have f3 := mul_le_mul_of_nonneg_left f1 (sub_nonneg.2 g5)
  have f4 : |x - ∑ k, a k * b k| ≤ |x - ∑ k, a k * b' k| + |∑ k, a k * b' k - ∑ k, a k * b k| := abs_sub_le _ _ _
  have f5 : (growth δ ^ (m + 5) - 1) * ∑ k, |a k| * B k =
      (growth δ ^ 5 - 1) * (growth δ ^ m * ∑ k, |a k| * B k) + (growth δ ^ m - 1) * ∑ k, |a k| * B k := by
    rw [pow_add]
    ring
  rw [f5]
  linarith

/-- four products of which at most one is not zero -/
theorem dot_single {δ : K} {rd : K → K} (hr : RelErr δ rd) {a b : Fin 4 → K} {x : K}
    (h : Fp.Dot rd [(a 0, b 0), (a 1, b 1), (a 2, b 2), (a 3, b 3)] x) (j : Fin 4) (hz : ∀ k, k ≠ j → a k * b k = 0)
    (hf : rd (a j * b j) = a j * b j) : x = a j * b j := by
  have h0 : rd 0 = 0 := rd_zero hr
  have all : ∀ k, rd (a k * b k) = a k * b k := by
    intro k
    by_cases hk : k = j
    · rw [hk, hf]
    · rw [hz k hk, h0]
  have e := C99_dot_exact hr h (by
      have e1 : ∀ k, k ≠ j → (decide (a k * b k ≠ 0)) = false := fun k hk => by rw [hz k hk]; simp
      simp only [List.countP_cons, List.countP_nil]
      fin_cases j
      · rw [e1 1 (by decide), e1 2 (by decide), e1 3 (by decide)]
        split_ifs <;> simp_all
      · rw [e1 0 (by decide), e1 2 (by decide), e1 3 (by decide)]
        split_ifs <;> simp_all
      · rw [e1 0 (by decide), e1 1 (by decide), e1 3 (by decide)]
        split_ifs <;> simp_all
      · rw [e1 0 (by decide), e1 1 (by decide), e1 2 (by decide)]
        split_ifs <;> simp_all) (by
      intro t ht
      simp only [List.mem_cons, List.not_mem_nil, or_false] at ht
      rcases ht with rfl | rfl | rfl | rfl
      exacts [all 0, all 1, all 2, all 3])
  rw [e]
  have e2 : dotSum [(a 0, b 0), (a 1, b 1), (a 2, b 2), (a 3, b 3)] = ∑ k, a k * b k := by
    simp only [dotSum, List.map, List.sum_cons, List.sum_nil, Fin.sum_univ_four]
    ring
  rw [e2]
  exact Finset.sum_eq_single j (fun k _ hk => hz k hk) (fun hj => absurd (Finset.mem_univ j) hj)

/-- C101: after `k` calls of `compose` every entry of the matrix is within `5 k` roundings of the exact product, measured by the
product of the absolute values -/
theorem C101_chain {δ : K} {rd : K → K} (h0 : 0 ≤ δ) (hδ : δ < 1) (hr : RelErr δ rd) {l : List (Mat4 K)} {B : Mat4 K}
    (h : ChainF rd l B) (i j : Fin 4) :
    |B i j - exactChain l i j| ≤ (growth δ ^ (5 * l.length) - 1) * absChain l i j := by
  induction h generalizing i j with
  | nil =>
    show |(1 : Mat4 K) i j - (1 : Mat4 K) i j| ≤ _
    simp
  | @cons l A M B _ hc ih =>
    rw [exactChain_cons, absChain_cons, List.length_cons, Nat.mul_succ]
    exact dot_carried h0 hδ hr (a := M i) (b := fun k => exactChain l k j) (b' := fun k => A k j)
      (B := fun k => absChain l k j) (hc i j) (fun k => exact_le_abs l k j) (fun k => ih k j)

/-- C101: an object transformed by the composition of `k` matrices: the control points are within `5 k + 5` roundings of the
exact ones -/
theorem C101_net {δ : K} {rd : K → K} (h0 : 0 ≤ δ) (hδ : δ < 1) (hr : RelErr δ rd) {l : List (Mat4 K)} {B : Mat4 K}
    (h : ChainF rd l B) {N L : Nrb K d} (ht : N.TransformF rd B L) {idx : Fin d → ℤ} (hi : N.InNet idx) (i : Fin 4) :
    |L.P idx i - (N.transform (exactChain l)).P idx i| ≤
      (growth δ ^ (5 * l.length + 5) - 1) * ∑ k : Fin 4, |N.P idx k| * absChain l i k := by
  have := dot_carried h0 hδ hr (a := fun k : Fin 4 => N.P idx k) (b := exactChain l i) (b' := B i) (B := absChain l i)
    (ht.dot idx hi i) (exact_le_abs l i) (C101_chain h0 hδ hr h i)
  have e : (N.transform (exactChain l)).P idx i = ∑ k : Fin 4, N.P idx k * exactChain l i k := by
    rw [← dotSum_row]
    simp only [dotSum, rowTerms, List.map, List.sum_cons, List.sum_nil, Fin.sum_univ_four]
    show _ = N.P idx 0 * _ + N.P idx 1 * _ + N.P idx 2 * _ + N.P idx 3 * _
    ring
  rw [e]
  exact this

/-- C101: a composition of affine maps is affine exactly, so that weights are kept (C99_weights) -/
theorem C101_affine {δ : K} {rd : K → K} (hr : RelErr δ rd) (hone : rd 1 = 1) {l : List (Mat4 K)} {B : Mat4 K}
    (h : ChainF rd l B) (ha : ∀ M ∈ l, IsAffine M) : IsAffine B := by
  have hz : rd 0 = 0 := rd_zero hr
  induction h with
  | nil => exact ⟨rfl, rfl, rfl, rfl⟩
  | @cons l A M B _ hc ih =>
    obtain ⟨m0, m1, m2, m3⟩ := ha M List.mem_cons_self
    obtain ⟨a0, a1, a2, a3⟩ := ih fun M' hM => ha M' (List.mem_cons_of_mem _ hM)
    have key : ∀ j, rd (A 3 j) = A 3 j → B 3 j = A 3 j := by
      intro j hj
      have := dot_single hr (a := M 3) (b := fun k => A k j) (hc 3 j) 3 (fun k hk => by
        fin_cases k
        · show M 3 0 * _ = 0
          rw [m0, zero_mul]
        · show M 3 1 * _ = 0
          rw [m1, zero_mul]
        · show M 3 2 * _ = 0
          rw [m2, zero_mul]
        · exact absurd rfl hk) (by rw [m3, one_mul, hj])
      rw [this, m3, one_mul]
    refine ⟨?_, ?_, ?_, ?_⟩
    · rw [key 0 (by rw [a0, hz]), a0]
    · rw [key 1 (by rw [a1, hz]), a1]
    · rw [key 2 (by rw [a2, hz]), a2]
    · rw [key 3 (by rw [a3, hone]), a3]

/-- C101: composing with a translation keeps the linear part of an affine map to the last bit -/
theorem C101_translate {δ : K} {rd : K → K} (hr : RelErr δ rd) {A B : Mat4 K} (hA : IsAffine A) {t : Fin 3 → K}
    (h : ComposeF rd A (transMat t) B) {i j : Fin 3} (hf : rd (A i.castSucc j.castSucc) = A i.castSucc j.castSucc) :
    B i.castSucc j.castSucc = A i.castSucc j.castSucc := by
  obtain ⟨a0, a1, a2, a3⟩ := hA
  have hone : transMat t i.castSucc i.castSucc = 1 := by
    fin_cases i <;> simp [transMat]
  have := dot_single hr (a := transMat t i.castSucc) (b := fun k => A k j.castSucc) (h _ _) i.castSucc (fun k hk => by
      by_cases h3 : k = 3
      · have : A 3 j.castSucc = 0 := by fin_cases j <;> assumption
        rw [h3, this, mul_zero]
      · have : transMat t i.castSucc k = 0 := by
          fin_cases i <;> fin_cases k <;> simp_all [transMat]
        rw [this, zero_mul]) (by rw [hone, one_mul, hf])
  rw [this, hone, one_mul]

/-- products first, then a sum from left to right -/
def seqCompose (rd : K → K) (A M : Mat4 K) : Mat4 K := fun i j =>
  rd (rd (rd (rd (M i 0 * A 0 j) + rd (M i 1 * A 1 j)) + rd (M i 2 * A 2 j)) + rd (M i 3 * A 3 j))

theorem seqCompose_ok (rd : K → K) (A M : Mat4 K) : ComposeF rd A M (seqCompose rd A M) := fun _ _ =>
  (((Fp.Dot.prod _ _).add (.prod _ _) (.refl _)).add (.prod _ _) (.refl _)).add (.prod _ _) (.refl _)

/-- every sequence of calls has a result -/
theorem C101_total (rd : K → K) (l : List (Mat4 K)) : ∃ B, ChainF rd l B := by
  induction l with
  | nil => exact ⟨1, .nil⟩
  | cons M l ih =>
    obtain ⟨A, h⟩ := ih
    exact ⟨_, h.cons (seqCompose_ok rd A M)⟩

/-- with exact arithmetic the result is the product that the exact model forms call by call -/
theorem C101_unrounded {l : List (Mat4 K)} {B : Mat4 K} (h : ChainF id l B) :
    B = l.foldr (fun M A => Transform.compose A M) 1 := by
  have e : B = exactChain l := by
    ext i j
    have := C101_chain (δ := 0) le_rfl one_pos (fun x => by simp) h i j
    rw [show (growth (0 : K)) ^ (5 * l.length) - 1 = 0 by unfold growth; simp, zero_mul] at this
    exact sub_eq_zero.1 (abs_eq_zero.1 (le_antisymm this (abs_nonneg _)))
  rw [e]
  clear e h
  induction l with
  | nil => rfl
  | cons M l ih =>
    rw [List.foldr_cons, ← ih]
    rfl

/-- C101: composing two transformations and applying the result is not the same as applying them one after the other: in double
precision a translation and its inverse compose to the identity, but applied in turn they move a point -/
theorem C101_not_in_turn : ∃ (B : Mat4 ℚ) (L L1 L2 : Nrb ℚ 0), ChainF (Ex.fl 53) [Ex.shift (-1), Ex.shift 1] B ∧
    Ex.dust.TransformF (Ex.fl 53) B L ∧ Ex.dust.TransformF (Ex.fl 53) (Ex.shift 1) L1 ∧
    L1.TransformF (Ex.fl 53) (Ex.shift (-1)) L2 ∧ L.P ![] 0 = Ex.dust.P ![] 0 ∧ L2.P ![] 0 = 0 ∧ Ex.dust.P ![] 0 ≠ 0 :=
  ⟨_, _, _, _, .cons (.cons .nil (seqCompose_ok _ _ _)) (seqCompose_ok _ _ _), C99_total _ _ _, C99_total _ _ _,
    C99_total _ _ _, by decide +kernel, by decide +kernel, by decide +kernel⟩

namespace Ex

/-- two shears and a translation in double precision, applied to a surface -/
example : ∃ (B : Mat4 ℚ) (L : Nrb ℚ 2), S.TransformF (fl 53) B L ∧ IsAffine B ∧
    ∀ idx, S.InNet idx → ∀ i : Fin 4, |L.P idx i - (S.transform (exactChain [shift (1 / 3), shear, shear])).P idx i| ≤
      (growth (2 ^ (-(53 : ℕ) : ℤ)) ^ 20 - 1) * ∑ k : Fin 4, |S.P idx k| * absChain [shift (1 / 3), shear, shear] i k := by
  obtain ⟨B, h⟩ := C101_total (fl 53) [shift (1 / 3), shear, shear]
  refine ⟨B, _, C99_total _ _ _, C101_affine (fl_relErr 53) (by decide +kernel) h ?_, fun idx hi i => ?_⟩
  · intro M hM
    simp only [List.mem_cons, List.not_mem_nil, or_false] at hM
    rcases hM with rfl | rfl | rfl
    · unfold IsAffine; decide +kernel
    · exact shear_affine
    · exact shear_affine
  · exact C101_net (by positivity) (by norm_num) (fl_relErr 53) h (C99_total _ _ _) hi i

/-- a translation after a shear -/
example := C101_translate (fl_relErr 53) shear_affine (seqCompose_ok (fl 53) shear (transMat ![1 / 3, 2, 5])) (i := 0) (j := 1)
  (by decide +kernel)

end Ex
end Igakit
