import Verif.Model.FloatTrans
import Verif.Props.Float
import Verif.Props.FloatParts
import Verif.Props.Frame
import Verif.Spec.Io

/-!
# Property C99: rounding errors of transformations
-/

set_option linter.unusedSectionVars false

namespace Igakit
open Spec Transform

variable {K : Type} [Field K] [LinearOrder K] [IsStrictOrderedRing K] {d : ℕ}

/-! ## Sums of products in any order -/

/-- the exact sum of the products -/
def dotSum (l : List (K × K)) : K := (l.map fun t => t.1 * t.2).sum
/-- the sum of the absolute values of the products -/
def dotAbs (l : List (K × K)) : K := (l.map fun t => |t.1 * t.2|).sum

theorem dotSum_perm {l l' : List (K × K)} (h : l.Perm l') : dotSum l = dotSum l' := (h.map _).sum_eq
theorem dotAbs_perm {l l' : List (K × K)} (h : l.Perm l') : dotAbs l = dotAbs l' := (h.map _).sum_eq
theorem dotSum_append (l l' : List (K × K)) : dotSum (l ++ l') = dotSum l + dotSum l' := by simp [dotSum]
theorem dotAbs_append (l l' : List (K × K)) : dotAbs (l ++ l') = dotAbs l + dotAbs l' := by simp [dotAbs]
theorem dotSum_cons (t : K × K) (l : List (K × K)) : dotSum (t :: l) = t.1 * t.2 + dotSum l := by simp [dotSum]
theorem dotAbs_cons (t : K × K) (l : List (K × K)) : dotAbs (t :: l) = |t.1 * t.2| + dotAbs l := by simp [dotAbs]

theorem dot_le (l : List (K × K)) : |dotSum l| ≤ dotAbs l := by
  induction l with
  | nil => simp [dotSum, dotAbs]
  | cons t l ih =>
    rw [dotSum_cons, dotAbs_cons]
    exact (abs_add_le _ _).trans (add_le_add le_rfl ih)

theorem dotAbs_nonneg (l : List (K × K)) : 0 ≤ dotAbs l := (abs_nonneg _).trans (dot_le l)

/-- C99: whatever the order of summation, fused or not, a sum of `n` products is within `n + 1` roundings of the sum of their
absolute values -/
theorem C99_dot {δ : K} {rd : K → K} (h0 : 0 ≤ δ) (hδ : δ < 1) (hr : RelErr δ rd) {l : List (K × K)} {x : K}
    (h : Fp.Dot rd l x) : |x - dotSum l| ≤ (growth δ ^ (l.length + 1) - 1) * dotAbs l := by
  have key : 1 ≤ l.length ∧ |x - dotSum l| ≤ (growth δ ^ (l.length + 1) - 1) * dotAbs l := by
    induction h with
    | prod a b =>
      refine ⟨le_rfl, ?_⟩
      have e : |rd (a * b) - a * b| ≤ (growth δ ^ (0 + 1) - 1) * |a * b| :=
        Fp.err_rd h0 hδ hr (by simp) le_rfl
      have := Fp.growth_sub h0 hδ (show 0 + 1 ≤ 1 + 1 by omega)
      simp only [dotSum, dotAbs, List.map, List.sum_cons, List.sum_nil, add_zero, List.length_singleton]
      exact e.trans (mul_le_mul_of_nonneg_right this (abs_nonneg _))
    | start a b =>
      refine ⟨le_rfl, ?_⟩
      have e : |rd (a * b) - a * b| ≤ (growth δ ^ (0 + 1) - 1) * |a * b| :=
        Fp.err_rd h0 hδ hr (by simp) le_rfl
      simp only [dotSum, dotAbs, List.map, List.sum_cons, List.sum_nil, add_zero, List.length_singleton, zero_add]
      exact Fp.err_rd h0 hδ hr e le_rfl
    | @add l l' l'' x y _ _ hp ih ih' =>
      obtain ⟨n1, e1⟩ := ih
      obtain ⟨n2, e2⟩ := ih'
      have hl : l''.length = l.length + l'.length := by rw [hp.length_eq, List.length_append]
      refine ⟨by omega, ?_⟩
      rw [dotSum_perm hp, dotAbs_perm hp, dotSum_append, dotAbs_append, hl]
      refine Fp.err_rd h0 hδ hr ?_ ((abs_add_le _ _).trans (add_le_add (dot_le _) (dot_le _)))
      calc |x + y - (dotSum l + dotSum l')| = |(x - dotSum l) + (y - dotSum l')| := by congr 1; ring
        _ ≤ |x - dotSum l| + |y - dotSum l'| := abs_add_le _ _
        _ ≤ (growth δ ^ (l.length + l'.length) - 1) * dotAbs l + (growth δ ^ (l.length + l'.length) - 1) * dotAbs l' :=
          add_le_add (e1.trans (mul_le_mul_of_nonneg_right (Fp.growth_sub h0 hδ (by omega)) (dotAbs_nonneg _)))
            (e2.trans (mul_le_mul_of_nonneg_right (Fp.growth_sub h0 hδ (by omega)) (dotAbs_nonneg _)))
        _ = _ := by ring
    | @fma l l' x a b _ hp ih =>
      obtain ⟨n1, e1⟩ := ih
      have hl : l'.length = l.length + 1 := by rw [hp.length_eq, List.length_cons]
      refine ⟨by omega, ?_⟩
      rw [dotSum_perm hp, dotAbs_perm hp, dotSum_cons, dotAbs_cons, hl]
      refine Fp.err_rd h0 hδ hr ?_ ((abs_add_le _ _).trans (add_le_add le_rfl (dot_le _)))
      have hg := Fp.growth_pow h0 hδ (l.length + 1)
      calc |x + a * b - (a * b + dotSum l)| = |x - dotSum l| := by congr 1; ring
        _ ≤ (growth δ ^ (l.length + 1) - 1) * dotAbs l := e1
        _ ≤ (growth δ ^ (l.length + 1) - 1) * (|a * b| + dotAbs l) :=
          mul_le_mul_of_nonneg_left (by linarith [abs_nonneg (a * b)]) (by linarith)
  exact key.2

theorem dotSum_zero {l : List (K × K)} (h : l.countP (fun t => t.1 * t.2 ≠ 0) = 0) : dotSum l = 0 := by
  rw [List.countP_eq_zero] at h
  unfold dotSum
  refine List.sum_eq_zero ?_
  intro y hy
  obtain ⟨t, ht, rfl⟩ := List.mem_map.1 hy
  have := h t ht
  by_contra hc
  exact this (by simpa using hc)

/-- C99: with at most one product that is not zero, and products that are numbers of the machine, nothing is rounded, whatever
the order -/
theorem C99_dot_exact {δ : K} {rd : K → K} (hr : RelErr δ rd) {l : List (K × K)} {x : K} (h : Fp.Dot rd l x)
    (h1 : l.countP (fun t => t.1 * t.2 ≠ 0) ≤ 1) (hf : ∀ t ∈ l, rd (t.1 * t.2) = t.1 * t.2) : x = dotSum l := by
  have hz : rd 0 = 0 := rd_zero hr
  have key : x = dotSum l ∧ rd x = x := by
    induction h with
    | prod a b =>
      have := hf (a, b) (by simp)
      simp only at this
      rw [this]
      exact ⟨by simp [dotSum], this⟩
    | start a b =>
      have := hf (a, b) (by simp)
      simp only at this
      rw [this, zero_add, this]
      exact ⟨by simp [dotSum], this⟩
    | @add l l' l'' x y _ _ hp ih ih' =>
      rw [hp.countP_eq, List.countP_append] at h1
      obtain ⟨e1, f1⟩ := ih (by omega) (fun t ht => hf t (hp.mem_iff.2 (by simp [ht])))
      obtain ⟨e2, f2⟩ := ih' (by omega) (fun t ht => hf t (hp.mem_iff.2 (by simp [ht])))
      rw [dotSum_perm hp, dotSum_append, ← e1, ← e2]
      rcases Nat.eq_zero_or_pos (l.countP (fun t => t.1 * t.2 ≠ 0)) with c | c
      · rw [dotSum_zero c] at e1
        rw [e1, zero_add, f2]
        exact ⟨rfl, f2⟩
      · rw [dotSum_zero (l := l') (by omega)] at e2
        rw [e2, add_zero, f1]
        exact ⟨rfl, f1⟩
    | @fma l l' x a b _ hp ih =>
      rw [hp.countP_eq, List.countP_cons] at h1
      obtain ⟨e1, f1⟩ := ih (by split_ifs at h1 <;> omega) (fun t ht => hf t (hp.mem_iff.2 (by simp [ht])))
      have f2 : rd (a * b) = a * b := hf (a, b) (hp.mem_iff.2 (by simp))
      rw [dotSum_perm hp, dotSum_cons, ← e1]
      by_cases c : a * b = 0
      · simp only [c, add_zero, zero_add]
        rw [f1]
        exact ⟨rfl, f1⟩
      · rw [if_pos (by simpa using c)] at h1
        rw [dotSum_zero (l := l) (by omega)] at e1
        rw [e1, zero_add, f2]
        exact ⟨by simp, f2⟩
  exact key.1

theorem dotSum_row (N : Nrb K d) (M : Mat4 K) (idx : Fin d → ℤ) (i : Fin 4) :
    dotSum (rowTerms (N.P idx) M i) = (N.transform M).P idx i := by
  show _ = if h : (i : ℕ) < 4 then _ else _
  rw [dif_pos i.isLt]
  simp only [dotSum, rowTerms, List.map, List.sum_cons, List.sum_nil]
  ring

/-! ## Control points -/

/-- C99: a transformed control point is within five roundings of the exact one, measured by the sum of the absolute values of the
four products; fields are copied -/
theorem C99_net {δ : K} {rd : K → K} (h0 : 0 ≤ δ) (hδ : δ < 1) (hr : RelErr δ rd) {N L : Nrb K d} {M : Mat4 K}
    (h : N.TransformF rd M L) {idx : Fin d → ℤ} (hi : N.InNet idx) :
    (∀ i : Fin 4, |L.P idx i - (N.transform M).P idx i| ≤
      (growth δ ^ 5 - 1) * (|N.P idx 0 * M i 0| + |N.P idx 1 * M i 1| + |N.P idx 2 * M i 2| + |N.P idx 3 * M i 3|)) ∧
    ∀ c, 4 ≤ c → L.P idx c = N.P idx c := by
  refine ⟨fun i => ?_, h.fields idx hi⟩
  have := C99_dot h0 hδ hr (h.dot idx hi i)
  rw [dotSum_row] at this
  have e : dotAbs (rowTerms (N.P idx) M i) =
      |N.P idx 0 * M i 0| + |N.P idx 1 * M i 1| + |N.P idx 2 * M i 2| + |N.P idx 3 * M i 3| := by
    simp only [dotAbs, rowTerms, List.map, List.sum_cons, List.sum_nil]
    ring
  rw [e] at this
  exact this

/-- C99: a row of the matrix with one entry other than zero, and a product that is a number of the machine: this coordinate is
exact.  (Reflections, exchanges of coordinates, scaling by powers of two; the weights under every affine map.) -/
theorem C99_exact {δ : K} {rd : K → K} (hr : RelErr δ rd) {N L : Nrb K d} {M : Mat4 K} (h : N.TransformF rd M L)
    {idx : Fin d → ℤ} (hi : N.InNet idx) {i j : Fin 4} (hM : ∀ k, k ≠ j → M i k = 0)
    (hf : rd (N.P idx j * M i j) = N.P idx j * M i j) : L.P idx i = N.P idx j * M i j ∧
      (N.transform M).P idx i = N.P idx j * M i j := by
  have hz : rd 0 = 0 := rd_zero hr
  have e : (N.transform M).P idx i = N.P idx j * M i j := by
    rw [← dotSum_row]
    simp only [dotSum, rowTerms, List.map, List.sum_cons, List.sum_nil]
    fin_cases j <;> simp [hM]
  refine ⟨?_, e⟩
  rw [← e, ← dotSum_row]
  refine C99_dot_exact hr (h.dot idx hi i) ?_ ?_
  · have e1 : ∀ k, k ≠ j → ∀ y : K, (decide (y * M i k ≠ 0)) = false := fun k hk y => by rw [hM k hk]; simp
    unfold rowTerms
    simp only [List.countP_cons, List.countP_nil]
    fin_cases j
    · rw [e1 1 (by decide), e1 2 (by decide), e1 3 (by decide)]
      split_ifs <;> simp_all
    · rw [e1 0 (by decide), e1 2 (by decide), e1 3 (by decide)]
      split_ifs <;> simp_all
    · rw [e1 0 (by decide), e1 1 (by decide), e1 3 (by decide)]
      split_ifs <;> simp_all
    · rw [e1 0 (by decide), e1 1 (by decide), e1 2 (by decide)]
      split_ifs <;> simp_all
  · have : ∀ k : Fin 4, rd (N.P idx k * M i k) = N.P idx k * M i k := by
      intro k
      by_cases hk : k = j
      · rw [hk, hf]
      · rw [hM k hk, mul_zero, hz]
    intro t ht
    simp only [rowTerms, List.mem_cons, List.not_mem_nil, or_false] at ht
    rcases ht with rfl | rfl | rfl | rfl
    · exact this 0
    · exact this 1
    · exact this 2
    · exact this 3

/-- C99: an affine transformation keeps weights that are numbers of the machine exactly -/
theorem C99_weights {δ : K} {rd : K → K} (hr : RelErr δ rd) {N L : Nrb K d} {M : Mat4 K} (hM : IsAffine M)
    (h : N.TransformF rd M L) {idx : Fin d → ℤ} (hi : N.InNet idx) (hf : rd (N.P idx 3) = N.P idx 3) :
    L.P idx 3 = N.P idx 3 := by
  have := (C99_exact hr h hi (i := 3) (j := 3) (fun k hk => by
    obtain ⟨a, b, c, _⟩ := hM
    fin_cases k
    · exact a
    · exact b
    · exact c
    · exact absurd rfl hk) (by rw [hM.2.2.2, mul_one]; exact hf)).1
  rw [hM.2.2.2, mul_one] at this
  exact this

/-! ## Points -/

theorem TransformF.same {rd : K → K} {N L : Nrb K d} {M : Mat4 K} (h : N.TransformF rd M L) :
    L.n = N.n ∧ L.degree = N.degree ∧ L.lo = N.lo ∧ L.hi = N.hi := by
  have e1 : L.degree = N.degree := by funext a; unfold Nrb.degree; rw [h.shape, h.len]
  refine ⟨?_, e1, ?_, ?_⟩
  · funext a; unfold Nrb.n; rw [h.shape]
  · funext a; unfold Nrb.lo; rw [e1, h.U]
  · funext a; unfold Nrb.hi; rw [e1, h.U, h.len]

/-- size of a transformed coordinate, for control points in the box `|x_j| ≤ B j` -/
def reach (M : Mat4 K) (B : Fin 3 → K) (i : Fin 4) : K := B 0 * |M i 0| + B 1 * |M i 1| + B 2 * |M i 2| + |M i 3|

/-- C99: the transformed object, with control points in floating point, is the affine image of the object up to five roundings of
the size of the transformed control points; its fields are unchanged. -/
theorem C99_points {δ : K} {rd : K → K} (h0 : 0 ≤ δ) (hδ : δ < 1) (hr : RelErr δ rd) {N L : Nrb K d} (hv : N.Valid)
    {M : Mat4 K} (hM : IsAffine M) (h : N.TransformF rd M L) (hw : ∀ idx, N.InNet idx → 0 < N.P idx 3)
    (hf : ∀ idx, N.InNet idx → rd (N.P idx 3) = N.P idx 3) {B : Fin 3 → K}
    (hB : ∀ idx, N.InNet idx → ∀ j : Fin 3, |N.P idx j / N.P idx 3| ≤ B j) :
    L.Valid ∧ (∀ x, L.InDom x ↔ N.InDom x) ∧ ∀ x, N.InDom x →
      (∀ i : Fin 3, |L.point x i - affPart M (N.point x) i| ≤ (growth δ ^ 5 - 1) * reach M B i.castSucc) ∧
      ∀ c, 4 ≤ c → L.proj x c = N.proj x c := by
  obtain ⟨s1, s2, s3, s4⟩ := TransformF.same h
  have hv' : L.Valid := by
    intro a
    rw [s1, s2, h.U]
    exact hv a
  refine ⟨hv', fun x => by unfold Nrb.InDom; rw [s3, s4], fun x hx => ?_⟩
  have hnet : ∀ idx : Fin d → ℤ, (∀ a, 0 ≤ idx a ∧ idx a ≤ N.n a) → N.InNet idx := by
    intro idx hi a
    have := hi a
    unfold Nrb.n at this
    omega
  have hE : ∀ c, L.eval x c = ∑ idx ∈ Fintype.piFinset (fun a => Finset.Icc 0 (N.n a)), N.wt x idx * L.P idx c := by
    intro c
    have e : L.eval x = ({ N with P := L.P } : Nrb K d).eval x := by
      obtain ⟨sh, nc, len, U, P⟩ := L
      obtain ⟨sh', nc', len', U', P'⟩ := N
      obtain ⟨q1, q2, q3, q4, _, _⟩ := h
      simp only at q1 q2 q3 q4
      subst q1 q2 q3 q4
      rfl
    rw [e, Nrb.eval_apply]
    rfl
  have hmem : ∀ idx ∈ Fintype.piFinset (fun a => Finset.Icc 0 (N.n a)), N.InNet idx ∧ 0 ≤ N.wt x idx := by
    intro idx hi
    have hi : ∀ a, 0 ≤ idx a ∧ idx a ≤ N.n a := fun a => Finset.mem_Icc.mp (Fintype.mem_piFinset.mp hi a)
    exact ⟨hnet idx hi, Nrb.wt_nonneg hv hx hi⟩
  have hw3 : L.eval x 3 = N.eval x 3 := by
    rw [hE, Nrb.eval_apply]
    exact Finset.sum_congr rfl fun idx hi => by
      rw [C99_weights hr hM h (hmem idx hi).1 (hf idx (hmem idx hi).1)]
  have hpos : 0 < N.eval x 3 := Nrb.eval_pos hv hx (fun idx hi => hw idx (hnet idx hi))
  refine ⟨fun i => ?_, fun c hc => ?_⟩
  · obtain ⟨t1, _, _⟩ := C21_transform_affine N hM hpos.ne'
    have t3 : (N.transform M).eval x 3 = N.eval x 3 := (C21_transform_affine N hM hpos.ne').2.1
    rw [← t1]
    unfold Nrb.point Nrb.proj
    rw [hw3, t3, ← sub_div, abs_div, abs_of_pos hpos, div_le_iff₀ hpos, hE, Nrb.eval_apply, Nrb.eval_apply]
    change |(∑ idx ∈ Fintype.piFinset (fun a => Finset.Icc 0 (N.n a)), N.wt x idx * L.P idx i) -
      ∑ idx ∈ Fintype.piFinset (fun a => Finset.Icc 0 (N.n a)), N.wt x idx * (N.transform M).P idx i| ≤ _
    rw [← Finset.sum_sub_distrib, Finset.mul_sum]
    refine (Finset.abs_sum_le_sum_abs _ _).trans (Finset.sum_le_sum fun idx hi => ?_)
    obtain ⟨m1, m2⟩ := hmem idx hi
    rw [← mul_sub, abs_mul, abs_of_nonneg m2, mul_left_comm]
    refine mul_le_mul_of_nonneg_left ?_ m2
    refine ((C99_net h0 hδ hr h m1).1 i.castSucc).trans ?_
    rw [mul_assoc]
    refine mul_le_mul_of_nonneg_left ?_ (by have := Fp.growth_pow h0 hδ 5; linarith)
    have p := hw idx m1
    have b : ∀ j : Fin 3, |N.P idx j| ≤ B j * N.P idx 3 := by
      intro j
      have := hB idx m1 j
      rwa [abs_div, abs_of_pos p, div_le_iff₀ p] at this
    have t : ∀ j : Fin 3, ∀ m : K, |N.P idx j * m| ≤ B j * |m| * N.P idx 3 := by
      intro j m
      rw [abs_mul, mul_right_comm]
      exact mul_le_mul_of_nonneg_right (b j) (abs_nonneg _)
    have t0 := t 0 (M i.castSucc 0)
    have t1 := t 1 (M i.castSucc 1)
    have t2 := t 2 (M i.castSucc 2)
    have t3 : |N.P idx 3 * M i.castSucc 3| = |M i.castSucc 3| * N.P idx 3 := by
      rw [abs_mul, abs_of_pos p, mul_comm]
    unfold reach
    rw [add_mul, add_mul, add_mul, t3]
    exact add_le_add (add_le_add (add_le_add t0 t1) t2) le_rfl
  · unfold Nrb.proj
    rw [hw3, hE]
    congr 1
    rw [Nrb.eval_apply]
    exact Finset.sum_congr rfl fun idx hi => by rw [h.fields idx (hmem idx hi).1 c hc]

/-- C99: transforming and evaluating, both in floating point -/
theorem C99_call {δ : K} {rd : K → K} (h0 : 0 ≤ δ) (hδ : δ < 1) (hr : RelErr δ rd) (jk : ℤ → Fp K) (je : ℤ → ℕ → Fp K)
    {N L : Nrb K d} (hd : d ≤ 3) (hv : N.Valid) {M : Mat4 K} (hM : IsAffine M) (h : N.TransformF rd M L)
    (hw : ∀ idx, N.InNet idx → 0 < N.P idx 3) (hf : ∀ idx, N.InNet idx → rd (N.P idx 3) = N.P idx 3) {B : Fin 3 → K}
    (hB : ∀ idx, N.InNet idx → ∀ j : Fin 3, |N.P idx j / N.P idx 3| ≤ B j) {r : Fin d → ℤ} {X : Fin d → ℤ → K}
    (hn : ∀ a, 0 ≤ r a) (hx : ∀ a i, 0 ≤ i → i ≤ r a → N.lo a ≤ X a i ∧ X a i ≤ N.hi a) {m : ℕ}
    (hm : m = 6 * (∑ a, (N.degree a).toNat) + d + ∏ a, ((N.degree a).toNat + 1)) :
    ∃ C, L.callF rd jk je r X = .ok C ∧ ∀ g : Fin d → ℤ, (∀ a, 0 ≤ g a ∧ g a ≤ r a) → ∀ i : Fin 3,
      ∃ y, (C g).1 i = some y ∧
        |y - affPart M (N.point (fun a => X a (g a))) i| ≤ (growth δ ^ (2 * m + 6) - 1) * reach M B i.castSucc := by
  obtain ⟨s1, s2, s3, s4⟩ := TransformF.same h
  obtain ⟨v1, v2, v3⟩ := C99_points h0 hδ hr hv hM h hw hf hB
  have hw' : ∀ idx, (∀ a, 0 ≤ idx a ∧ idx a < L.shape a) → 0 < L.P idx 3 := by
    intro idx hi
    rw [h.shape] at hi
    rw [C99_weights hr hM h hi (hf idx hi)]
    exact hw idx hi
  obtain ⟨C, c1, c2⟩ := C72_call h0 hδ hr jk je hd v1 hn (by rw [s3, s4]; exact hx) hw' (m := m) (by rw [s2]; exact hm)
  refine ⟨C, c1, fun g hg i => ?_⟩
  have hin : N.InDom (fun a => X a (g a)) := fun a => hx a (g a) (hg a).1 (hg a).2
  have hg5 := Fp.growth_pow h0 hδ 5
  obtain ⟨y, y1, y2⟩ := (c2 g hg i (growth δ ^ 5 * reach M B i.castSucc)).1 (by
    intro idx hi
    rw [h.shape] at hi
    have p := hw idx hi
    rw [C99_weights hr hM h hi (hf idx hi), abs_div, abs_of_pos p, div_le_iff₀ p]
    have e := (C99_net h0 hδ hr h hi).1 i.castSucc
    have b : ∀ j : Fin 3, |N.P idx j| ≤ B j * N.P idx 3 := by
      intro j
      have := hB idx hi j
      rwa [abs_div, abs_of_pos p, div_le_iff₀ p] at this
    have t : ∀ j : Fin 3, ∀ m : K, |N.P idx j * m| ≤ B j * |m| * N.P idx 3 := by
      intro j m
      rw [abs_mul, mul_right_comm]
      exact mul_le_mul_of_nonneg_right (b j) (abs_nonneg _)
    have t0 := t 0 (M i.castSucc 0)
    have t1 := t 1 (M i.castSucc 1)
    have t2 := t 2 (M i.castSucc 2)
    have t3 : |N.P idx 3 * M i.castSucc 3| = |M i.castSucc 3| * N.P idx 3 := by
      rw [abs_mul, abs_of_pos p, mul_comm]
    have ht : |N.P idx 0 * M i.castSucc 0| + |N.P idx 1 * M i.castSucc 1| + |N.P idx 2 * M i.castSucc 2| +
        |N.P idx 3 * M i.castSucc 3| ≤ reach M B i.castSucc * N.P idx 3 := by
      unfold reach
      rw [add_mul, add_mul, add_mul, t3]
      exact add_le_add (add_le_add (add_le_add t0 t1) t2) le_rfl
    have hx : |(N.transform M).P idx (i.castSucc : Fin 4)| ≤ |N.P idx 0 * M i.castSucc 0| +
        |N.P idx 1 * M i.castSucc 1| + |N.P idx 2 * M i.castSucc 2| + |N.P idx 3 * M i.castSucc 3| := by
      rw [← dotSum_row]
      refine (dot_le _).trans (le_of_eq ?_)
      simp only [dotAbs, rowTerms, List.map, List.sum_cons, List.sum_nil]
      ring
    have e2 := abs_add_le (L.P idx (i.castSucc : Fin 4) - (N.transform M).P idx (i.castSucc : Fin 4))
      ((N.transform M).P idx (i.castSucc : Fin 4))
    rw [sub_add_cancel] at e2
    calc |L.P idx (i.castSucc : Fin 4)| ≤ growth δ ^ 5 * (|N.P idx 0 * M i.castSucc 0| +
          |N.P idx 1 * M i.castSucc 1| + |N.P idx 2 * M i.castSucc 2| + |N.P idx 3 * M i.castSucc 3|) := by linarith
      _ ≤ growth δ ^ 5 * (reach M B i.castSucc * N.P idx 3) := mul_le_mul_of_nonneg_left ht (by linarith)
      _ = _ := by ring)
  refine ⟨y, y1, ?_⟩
  have z := (v3 _ hin).1 i
  have e := abs_add_le (y - L.point (fun a => X a (g a)) i)
    (L.point (fun a => X a (g a)) i - affPart M (N.point (fun a => X a (g a))) i)
  rw [sub_add_sub_cancel] at e
  refine e.trans ((add_le_add y2 z).trans (le_of_eq ?_))
  rw [show 2 * m + 6 = (2 * m + 1) + 5 by omega, pow_add]
  ring

/-! ## The relation is not empty, and not single valued -/

/-- products first, then a sum from left to right -/
def seqTrans (rd : K → K) (N : Nrb K d) (M : Mat4 K) : Nrb K d :=
  { N with P := fun idx c =>
      if h : c < 4 then rd (rd (rd (rd (N.P idx 0 * M ⟨c, h⟩ 0) + rd (N.P idx 1 * M ⟨c, h⟩ 1)) + rd (N.P idx 2 * M ⟨c, h⟩ 2)) +
        rd (N.P idx 3 * M ⟨c, h⟩ 3))
      else N.P idx c }

/-- every object can be transformed by every matrix -/
theorem C99_total (rd : K → K) (N : Nrb K d) (M : Mat4 K) : N.TransformF rd M (seqTrans rd N M) := by
  refine ⟨rfl, rfl, rfl, rfl, fun idx _ i => ?_, fun idx _ c hc => dif_neg (by omega)⟩
  have e : (seqTrans rd N M).P idx i = rd (rd (rd (rd (N.P idx 0 * M i 0) + rd (N.P idx 1 * M i 1)) + rd (N.P idx 2 * M i 2)) +
      rd (N.P idx 3 * M i 3)) := dif_pos i.isLt
  rw [e]
  exact (((Fp.Dot.prod _ _).add (.prod _ _) (.refl _)).add (.prod _ _) (.refl _)).add (.prod _ _) (.refl _)

/-- with exact arithmetic there is one result, that of the exact model -/
theorem C99_unrounded {N L : Nrb K d} {M : Mat4 K} (h : N.TransformF id M L) {idx : Fin d → ℤ} (hi : N.InNet idx) (c : ℕ) :
    L.P idx c = (N.transform M).P idx c := by
  obtain ⟨e1, e2⟩ := C99_net (δ := 0) le_rfl one_pos (fun x => by simp) h hi
  by_cases hc : c < 4
  · have := e1 ⟨c, hc⟩
    rw [show (growth (0 : K)) ^ 5 - 1 = 0 by unfold growth; simp, zero_mul] at this
    exact sub_eq_zero.1 (abs_eq_zero.1 (le_antisymm this (abs_nonneg _)))
  · rw [e2 c (by omega)]
    show _ = if h : c < 4 then _ else _
    rw [dif_neg hc]

/-- C99: in double precision the order of summation shows: two values of the same coordinate of the same point -/
theorem C99_order : ∃ x y : ℚ, Fp.Dot (Ex.fl 53) [(1, 1), (1, 3 / 2 ^ 55), (1, 3 / 2 ^ 55), (1, 0)] x ∧
    Fp.Dot (Ex.fl 53) [(1, 1), (1, 3 / 2 ^ 55), (1, 3 / 2 ^ 55), (1, 0)] y ∧ x ≠ y := by
  refine ⟨_, _, (((Fp.Dot.prod 1 1).add (.prod 1 (3 / 2 ^ 55)) (.refl _)).add (.prod 1 (3 / 2 ^ 55)) (.refl _)).add
    (.prod 1 0) (.refl _), ((Fp.Dot.prod 1 1).add ((Fp.Dot.prod 1 (3 / 2 ^ 55)).add (.prod 1 (3 / 2 ^ 55)) (.refl _))
    (.refl _)).add (.prod 1 0) (.refl _), ?_⟩
  decide +kernel

namespace Ex

/-- a point with the first coordinate `1 / 2^54` and weight one -/
def dust : Nrb ℚ 0 where
  shape := ![]
  nc := 4
  len := ![]
  U := ![]
  P := fun _ c => if c = 0 then 1 / 2 ^ 54 else if c = 3 then 1 else 0

def shift (t : ℚ) : Mat4 ℚ := !![1, 0, 0, t; 0, 1, 0, 0; 0, 0, 1, 0; 0, 0, 0, 1]

theorem net_le {idx : Fin 2 → ℤ} (hi : S.InNet idx) (Q : ℤ → ℤ → Prop)
    (h : ∀ i ∈ Finset.Icc (0 : ℤ) 5, ∀ j ∈ Finset.Icc (0 : ℤ) 2, Q i j) : Q (idx 0) (idx 1) := by
  have h0 := hi 0
  have h1 := hi 1
  have e0 : S.shape 0 = 6 := rfl
  have e1 : S.shape 1 = 3 := rfl
  rw [e0] at h0
  rw [e1] at h1
  exact h _ (Finset.mem_Icc.2 ⟨h0.1, by omega⟩) _ (Finset.mem_Icc.2 ⟨h1.1, by omega⟩)

theorem S_fl (idx : Fin 2 → ℤ) (hi : S.InNet idx) : 0 < S.P idx 3 ∧ fl 53 (S.P idx 3) = S.P idx 3 :=
  net_le hi (fun _ j => 0 < (1 + j : ℚ) ∧ fl 53 (1 + j : ℚ) = 1 + j) (by decide +kernel)

theorem S_box (idx : Fin 2 → ℤ) (hi : S.InNet idx) : ∀ j : Fin 3, |S.P idx j / S.P idx 3| ≤ (fun _ => 100 : Fin 3 → ℚ) j :=
  net_le hi (fun i k => ∀ j : Fin 3, |(if (j : ℕ) = 3 then (1 + k : ℚ) else ((j : ℕ) + 1) * i * i + k * 3 - (j : ℕ)) /
    (1 + k)| ≤ 100) (by decide +kernel)

/-- a surface sheared and moved in double precision -/
example := C99_points (by positivity) (by norm_num) (fl_relErr 53) S_valid shear_affine (C99_total (fl 53) S shear)
  (fun idx hi => (S_fl idx hi).1) (fun idx hi => (S_fl idx hi).2) S_box

example (jk : ℤ → Fp ℚ) (je : ℤ → ℕ → Fp ℚ) := C99_call (by positivity) (by norm_num) (fl_relErr 53) jk je (by norm_num)
  S_valid shear_affine (C99_total (fl 53) S shear)
  (fun idx hi => (S_fl idx hi).1) (fun idx hi => (S_fl idx hi).2) S_box (r := fun _ => 1)
  (X := fun _ i => if i = 0 then 1 / 2 else 1) (fun _ => by norm_num)
  (by
    intro a i i0 i1
    have : i = 0 ∨ i = 1 := by omega
    rcases this with rfl | rfl <;> revert a <;> decide +kernel) rfl

/-- the reflection at the plane `x = 0` is exact for every object whose coordinates are numbers of the machine -/
example {N L : Nrb ℚ d} (h : N.TransformF (fl 53) !![-1, 0, 0, 0; 0, 1, 0, 0; 0, 0, 1, 0; 0, 0, 0, 1] L) {idx : Fin d → ℤ}
    (hi : N.InNet idx) (hf : fl 53 (-N.P idx 0) = -N.P idx 0) : L.P idx 0 = -N.P idx 0 := by
  have := (C99_exact (fl_relErr 53) h hi (i := 0) (j := 0) (fun k hk => by fin_cases k <;> simp_all)
    (by simpa using hf)).1
  simpa using this

end Ex

/-- C99: translation by one and back, in double precision, moves a point to the origin -/
theorem C99_no_inverse : ∃ L L' : Nrb ℚ 0, Ex.dust.TransformF (Ex.fl 53) (Ex.shift 1) L ∧
    L.TransformF (Ex.fl 53) (Ex.shift (-1)) L' ∧ Ex.shift (-1) * Ex.shift 1 = 1 ∧ L'.P ![] 0 = 0 ∧ Ex.dust.P ![] 0 ≠ 0 :=
  ⟨_, _, C99_total _ _ _, C99_total _ _ _, by decide +kernel, by decide +kernel, by decide +kernel⟩

end Igakit
