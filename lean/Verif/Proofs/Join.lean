import Verif.Model.Join
import Verif.Proofs.Merge
import Verif.Proofs.CurveForm
import Verif.Proofs.Hull

/-! # Lemmas for `cad.join`: concatenated curves -/

set_option linter.unusedSectionVars false

namespace Igakit
open Spec

section Curve
variable {K : Type} [Field K] [LinearOrder K] [IsStrictOrderedRing K]
variable {E : Type*} [AddCommGroup E] [Module K E]

/-- a curve clamped at the right ends at its last control point -/
theorem curve_end_right {n : ℤ} {p : ℕ} {U : ℤ → K} (hv : ValidKnots n p U) (hr : ClampedR n p U) (P : ℤ → E) :
    curve n p U P (U (n + 1)) = P n := by
  have h1 := hv.one_le
  have h2 := hv.le
  have hs : SpanOf n p U n (U (n + 1)) := ⟨by exact_mod_cast h2, le_rfl, Or.inr ⟨hv.last, rfl, rfl⟩⟩
  obtain ⟨f, hf, hrep⟩ := exists_form P (hs.win hv.sorted)
  rw [hs.curve_form hv.sorted hf hrep, hrep n (by omega) le_rfl]
  congr 1
  symm
  apply kn_const
  intro l a b
  exact hr _ (by omega) (by omega)

/-- a curve clamped at the left starts at its first control point -/
theorem curve_end_left {n : ℤ} {p : ℕ} {U : ℤ → K} (hv : ValidKnots n p U) (hl : ClampedL p U) (P : ℤ → E) :
    curve n p U P (U p) = P 0 := by
  have h1 := hv.one_le
  have h2 := hv.le
  have hs : SpanOf n p U p (U p) := ⟨le_rfl, by exact_mod_cast h2, Or.inl ⟨le_rfl, hv.first⟩⟩
  obtain ⟨f, hf, hrep⟩ := exists_form P (hs.win hv.sorted)
  rw [hs.curve_form hv.sorted hf hrep, hrep 0 (by omega) (by omega)]
  congr 1
  symm
  apply kn_const
  intro l a b
  exact hl _ (by omega) (by omega)

/-- the two knot vectors can be put together at `u` -/
structure Meet (n1 n2 : ℤ) (p : ℕ) (u : K) (U1 U2 : ℤ → K) : Prop where
  v1 : ValidKnots n1 p U1
  v2 : ValidKnots n2 p U2
  r1 : ClampedR n1 p U1
  l2 : ClampedL p U2
  u1 : U1 (n1 + 1) = u
  u2 : U2 p = u

namespace Meet
variable {n1 n2 : ℤ} {p : ℕ} {u : K} {U1 U2 : ℤ → K}

theorem knots1 (h : Meet n1 n2 p u U1 U2) {j : ℤ} (hj : j ≤ n1 + p) :
    Cad.joinKnots n1 p u U1 U2 j = U1 j := by
  unfold Cad.joinKnots
  by_cases h1 : j ≤ n1
  · rw [if_pos h1]
  · rw [if_neg h1, if_pos hj, h.r1 j (by omega) (by omega), h.u1]

theorem knots2 (h : Meet n1 n2 p u U1 U2) {j : ℤ} (hj : n1 + 1 ≤ j) :
    Cad.joinKnots n1 p u U1 U2 j = U2 (j - n1) := by
  unfold Cad.joinKnots
  rw [if_neg (by omega)]
  by_cases h1 : j ≤ n1 + p
  · rw [if_pos h1, h.l2 (j - n1) (by omega) (by omega), h.u2]
  · rw [if_neg h1]

theorem valid (h : Meet n1 n2 p u U1 U2) : ValidKnots (n1 + n2) p (Cad.joinKnots n1 p u U1 U2) := by
  have a1 := h.v1.one_le
  have a2 := h.v1.le
  have a3 := h.v2.le
  refine ⟨a1, by omega, fun i j i0 ij jn => ?_, ?_, ?_⟩
  · by_cases hj : j ≤ n1 + p
    · rw [h.knots1 (by omega), h.knots1 hj]
      exact h.v1.sorted _ _ i0 ij (by omega)
    · by_cases hi : n1 + 1 ≤ i
      · rw [h.knots2 hi, h.knots2 (by omega)]
        exact h.v2.sorted _ _ (by omega) (by omega) (by omega)
      · rw [h.knots1 (by omega), h.knots2 (by omega)]
        calc U1 i ≤ U1 (n1 + 1) := h.v1.sorted _ _ i0 (by omega) (by omega)
          _ = U2 p := by rw [h.u1, h.u2]
          _ ≤ _ := h.v2.sorted _ _ (by omega) (by omega) (by omega)
  · rw [h.knots1 (by omega), h.knots1 (by omega)]
    exact h.v1.first
  · rw [h.knots2 (by omega), h.knots2 (by omega)]
    have e1 : n1 + n2 - n1 = n2 := by ring
    have e2 : n1 + n2 + 1 - n1 = n2 + 1 := by ring
    rw [e1, e2]
    exact h.v2.last

theorem lo (h : Meet n1 n2 p u U1 U2) : Cad.joinKnots n1 p u U1 U2 p = U1 p := h.knots1 (by
  have := h.v1.one_le
  have := h.v1.le
  omega)

theorem hi (h : Meet n1 n2 p u U1 U2) : Cad.joinKnots n1 p u U1 U2 (n1 + n2 + 1) = U2 (n2 + 1) := by
  have := h.v2.one_le
  have := h.v2.le
  rw [h.knots2 (by omega)]
  congr 1
  ring

theorem mult_u (h : Meet n1 n2 p u U1 U2) : mult (Cad.joinKnots n1 p u U1 U2) 0 (n1 + n2 + p + 1) u = p := by
  have a1 := h.v1.one_le
  have a2 := h.v1.le
  have a3 := h.v2.le
  unfold mult
  have : (Finset.Icc 0 (n1 + n2 + p + 1)).filter (fun i => Cad.joinKnots n1 p u U1 U2 i = u) =
      Finset.Icc (n1 + 1) (n1 + p) := by
    ext i
    simp only [Finset.mem_filter, Finset.mem_Icc]
    constructor
    · rintro ⟨⟨i0, i1⟩, hi⟩
      by_contra hc
      rcases (by omega : i ≤ n1 ∨ n1 + p + 1 ≤ i) with c | c
      · rw [h.knots1 (by omega)] at hi
        have := h.v1.sorted i n1 i0 c (by omega)
        have := lt_of_le_of_lt this h.v1.last
        rw [hi, h.u1] at this
        exact lt_irrefl _ this
      · rw [h.knots2 (by omega)] at hi
        have := h.v2.sorted (p + 1) (i - n1) (by omega) (by omega) (by omega)
        have := lt_of_lt_of_le h.v2.first this
        rw [hi, h.u2] at this
        exact lt_irrefl _ this
    · rintro ⟨i0, i1⟩
      refine ⟨by omega, ?_⟩
      rw [h.knots1 i1, h.r1 i (by omega) (by omega), h.u1]
  rw [this, Int.card_Icc]
  omega

/-- the other knots -/
theorem mult_ne (h : Meet n1 n2 p u U1 U2) {x : K} (hx : x ≠ u) : mult (Cad.joinKnots n1 p u U1 U2) 0 (n1 + n2 + p + 1) x =
    mult U1 0 (n1 + p + 1) x + mult U2 0 (n2 + p + 1) x := by
  have a1 := h.v1.one_le
  have a2 := h.v1.le
  have a3 := h.v2.le
  unfold mult
  have e2 : ((Finset.Icc 0 (n2 + p + 1)).filter (fun i => U2 i = x)).card =
      ((Finset.Icc (n1 + p + 1) (n1 + n2 + p + 1)).filter (fun i => U2 (i - n1) = x)).card := by
    refine Finset.card_bij (fun i _ => i + n1) ?_ (fun i _ j _ e => by omega) ?_
    · intro i hi
      simp only [Finset.mem_filter, Finset.mem_Icc] at hi ⊢
      refine ⟨?_, by rw [add_sub_cancel_right]; exact hi.2⟩
      have : ¬ i ≤ p := fun hc => hx (hi.2.symm.trans ((h.l2 i hi.1.1 hc).trans h.u2))
      omega
    · intro j hj
      simp only [Finset.mem_filter, Finset.mem_Icc] at hj
      exact ⟨j - n1, by simp only [Finset.mem_filter, Finset.mem_Icc]; exact ⟨by omega, hj.2⟩, by ring⟩
  rw [e2, ← Finset.card_union_of_disjoint]
  · congr 1
    ext i
    simp only [Finset.mem_union, Finset.mem_filter, Finset.mem_Icc]
    constructor
    · rintro ⟨⟨i0, i1⟩, hi⟩
      by_cases c : i ≤ n1 + p
      · rw [h.knots1 c] at hi
        exact Or.inl ⟨by omega, hi⟩
      · rw [h.knots2 (by omega)] at hi
        exact Or.inr ⟨by omega, hi⟩
    · rintro (⟨⟨i0, i1⟩, hi⟩ | ⟨⟨i0, i1⟩, hi⟩)
      · have : ¬ n1 + 1 ≤ i := fun hc => hx (hi.symm.trans ((h.r1 i hc i1).trans h.u1))
        exact ⟨by omega, by rw [h.knots1 (by omega)]; exact hi⟩
      · exact ⟨by omega, by rw [h.knots2 (by omega)]; exact hi⟩
  · rw [Finset.disjoint_left]
    intro i hi hj
    simp only [Finset.mem_filter, Finset.mem_Icc] at hi hj
    have : ¬ n1 + 1 ≤ i := fun hc => hx (hi.2.symm.trans ((h.r1 i hc hi.1.2).trans h.u1))
    omega

variable {P1 P2 Q : ℤ → E}

/-- the first part -/
theorem curve1 (h : Meet n1 n2 p u U1 U2) (hQ : ∀ j, 0 ≤ j → j ≤ n1 → Q j = P1 j) {x : K} (h1 : U1 p ≤ x)
    (h2 : x ≤ u) : curve (n1 + n2) p (Cad.joinKnots n1 p u U1 U2) Q x = curve n1 p U1 P1 x := by
  have a1 := h.v1.one_le
  have a2 := h.v1.le
  have a3 := h.v2.le
  obtain ⟨k, hk⟩ := SpanOf.exists' h.v1.sorted (lt_of_lt_of_le h.v1.first (h.v1.sorted _ _ (by omega) (by omega)
    (by omega))) a2 h1 (by rw [h.u1]; exact h2)
  have k1 := hk.lo
  have k2 := hk.hi
  have hrep : ∀ f : Multiset K → E, IsForm p f → Rep p U1 P1 (k - p) k f →
      Rep p (Cad.joinKnots n1 p u U1 U2) Q (k - p) k f := by
    intro f _ hr i i0 i1
    rw [hQ i (by omega) (by omega), hr i i0 i1]
    congr 1
    apply kn_congr
    intro l b1 b2
    exact (h.knots1 (by omega)).symm
  rcases hk.mem with ⟨b1, b2⟩ | ⟨b1, b2, b3⟩
  · refine curve_transfer hk h.v1.sorted ⟨k1, by omega, Or.inl ?_⟩ h.valid.sorted rfl hrep
    rw [h.knots1 (by omega), h.knots1 (by omega)]
    exact ⟨b1, b2⟩
  · obtain ⟨f, hf, hr⟩ := exists_form P1 (hk.win h.v1.sorted)
    rw [hk.curve_form h.v1.sorted hf hr]
    rw [h.u1] at b3
    refine curve_form_left h.valid.sorted (fun _ => ?_) k1 (by omega) ?_ ?_ hf (hrep f hf hr)
    · rw [b3, h.mult_u]
    · rw [h.knots1 (by omega)]; exact b1
    · rw [h.knots1 (by omega)]; exact b2.le

/-- the second part -/
theorem curve2 (h : Meet n1 n2 p u U1 U2) (hQ : ∀ j, n1 ≤ j → j ≤ n1 + n2 → Q j = P2 (j - n1)) {x : K} (h1 : u ≤ x)
    (h2 : x ≤ U2 (n2 + 1)) : curve (n1 + n2) p (Cad.joinKnots n1 p u U1 U2) Q x = curve n2 p U2 P2 x := by
  have a1 := h.v2.one_le
  have a2 := h.v1.le
  have a3 := h.v2.le
  obtain ⟨k, hk⟩ := SpanOf.exists' h.v2.sorted (lt_of_lt_of_le h.v2.first (h.v2.sorted _ _ (by omega) (by omega)
    (by omega))) a3 (by rw [h.u2]; exact h1) h2
  have k1 := hk.lo
  have k2 := hk.hi
  have e1 : k + n1 - n1 = k := by ring
  have e2 : k + n1 + 1 - n1 = k + 1 := by ring
  refine curve_transfer hk h.v2.sorted (k' := k + n1) ⟨by omega, by omega, ?_⟩ h.valid.sorted rfl ?_
  · rw [h.knots2 (by omega), h.knots2 (by omega), e1, e2, h.hi]
    exact hk.mem
  · intro f _ hr i i0 i1
    rw [hQ i (by omega) (by omega), hr (i - n1) (by omega) (by omega)]
    congr 1
    apply kn_congr
    intro l b1 b2
    rw [h.knots2 (by omega)]
    congr 1
    ring

end Meet
theorem curve_add (n : ℤ) (p : ℕ) (U : ℤ → K) (P R : ℤ → E) (x : K) :
    curve n p U (fun j => P j + R j) x = curve n p U P x + curve n p U R x := by
  unfold curve
  simp only [smul_add, Finset.sum_add_distrib]

theorem curve_single {n : ℤ} (p : ℕ) (U : ℤ → K) {i : ℤ} (h0 : 0 ≤ i) (h1 : i ≤ n) (m : E) (x : K) :
    curve n p U (fun j => if j = i then m else 0) x = bsplineD n U p i x • m := by
  unfold curve
  rw [Finset.sum_eq_single_of_mem i (Finset.mem_Icc.mpr ⟨h0, h1⟩)]
  · simp
  · intro j _ hj
    simp [hj]

theorem bsplineD_le_one {n : ℤ} {p : ℕ} {U : ℤ → K} (hv : ValidKnots n p U) {u : K} (h1 : U p ≤ u)
    (h2 : u ≤ U (n + 1)) {i : ℤ} (i0 : 0 ≤ i) (i1 : i ≤ n) : bsplineD n U p i u ≤ 1 := by
  rw [← bsplineD_sum_one hv h1 h2]
  exact Finset.single_le_sum (f := fun i => bsplineD n U p i u)
    (fun j hj => bsplineD_nonneg hv h1 h2 (Finset.mem_Icc.mp hj).1 (Finset.mem_Icc.mp hj).2)
    (Finset.mem_Icc.mpr ⟨i0, i1⟩)

/-- at the right end of a clamped knot vector only the last function is not zero -/
theorem bsplineD_end {n : ℤ} {p : ℕ} {U : ℤ → K} (hv : ValidKnots n p U) (hr : ClampedR n p U) {i : ℤ} (i0 : 0 ≤ i)
    (i1 : i ≤ n) : bsplineD n U p i (U (n + 1)) = if i = n then 1 else 0 := by
  have h := curve_single p U i0 i1 (1 : K) (U (n + 1))
  rw [curve_end_right hv hr, smul_eq_mul, mul_one] at h
  rw [← h]
  simp only [eq_comm]

theorem tensor_add {d : ℕ} (n : Fin d → ℤ) (p : Fin d → ℕ) (U : Fin d → ℤ → K) (P R : (Fin d → ℤ) → E) (x : Fin d → K) :
    tensor n p U (P + R) x = tensor n p U P x + tensor n p U R x := by
  unfold tensor
  simp only [Pi.add_apply, smul_add, Finset.sum_add_distrib]

theorem tensor_smul {d : ℕ} (n : Fin d → ℤ) (p : Fin d → ℕ) (U : Fin d → ℤ → K) (c : K) (P : (Fin d → ℤ) → E)
    (x : Fin d → K) : tensor n p U (c • P) x = c • tensor n p U P x := by
  unfold tensor
  simp only [Pi.smul_apply, Finset.smul_sum, smul_comm c]

/-- at the right corner a clamped net takes its last entry -/
theorem tensor_corner {d : ℕ} {n : Fin d → ℤ} {p : Fin d → ℕ} {U : Fin d → ℤ → K} (hv : ∀ b, ValidKnots (n b) (p b) (U b))
    (hr : ∀ b, ClampedR (n b) (p b) (U b)) (P : (Fin d → ℤ) → E) :
    tensor n p U P (fun b => U b (n b + 1)) = P n := by
  unfold tensor
  rw [Finset.sum_eq_single_of_mem n]
  · have : ∏ b, bsplineD (n b) (U b) (p b) (n b) (U b (n b + 1)) = 1 := by
      apply Finset.prod_eq_one
      intro b _
      have := (hv b).one_le
      have := (hv b).le
      rw [bsplineD_end (hv b) (hr b) (by omega) le_rfl, if_pos rfl]
    rw [this, one_smul]
  · rw [Fintype.mem_piFinset]
    intro b
    have := (hv b).one_le
    have := (hv b).le
    exact Finset.mem_Icc.mpr ⟨by omega, le_rfl⟩
  · intro idx hidx hne
    rw [Fintype.mem_piFinset] at hidx
    obtain ⟨b, hb⟩ := Function.ne_iff.mp hne
    have hz : ∏ b, bsplineD (n b) (U b) (p b) (idx b) (U b (n b + 1)) = 0 := by
      apply Finset.prod_eq_zero (Finset.mem_univ b)
      have := Finset.mem_Icc.mp (hidx b)
      rw [bsplineD_end (hv b) (hr b) this.1 this.2, if_neg hb]
    rw [hz, zero_smul]

end Curve

/-! ## objects -/

variable {K : Type} [Field K] [LinearOrder K] [IsStrictOrderedRing K] {d : ℕ}

/-- the tensor product in the parameters other than that of axis `a` -/
def Nrb.across (N : Nrb K (d + 1)) (a : Fin (d + 1)) (R : (Fin d → ℤ) → ℕ → K) (x : Fin (d + 1) → K) : ℕ → K :=
  tensor (a.removeNth N.n) (a.removeNth (fun b => (N.degree b).toNat)) (a.removeNth N.U) R (a.removeNth x)

/-- the same knots on the axes other than `a` -/
structure Nrb.SameOthers (N N' : Nrb K d) (a : Fin d) : Prop where
  shape : ∀ b, b ≠ a → N'.shape b = N.shape b
  len : ∀ b, b ≠ a → N'.len b = N.len b
  knots : ∀ b, b ≠ a → ∀ j, 0 ≤ j → j < N.len b → N'.U b j = N.U b j

theorem across_same {N N' : Nrb K (d + 1)} {a : Fin (d + 1)} (hv : N.Valid) (h : N.SameOthers N' a)
    (R : (Fin d → ℤ) → ℕ → K) (x : Fin (d + 1) → K) : N'.across a R x = N.across a R x := by
  unfold Nrb.across
  have h1 : a.removeNth N'.n = a.removeNth N.n := by
    funext b; simp only [Fin.removeNth, Nrb.n]; rw [h.shape _ (Fin.succAbove_ne a b)]
  have h2 : a.removeNth (fun b => (N'.degree b).toNat) = a.removeNth (fun b => (N.degree b).toNat) := by
    funext b
    simp only [Fin.removeNth, Nrb.degree]
    rw [h.shape _ (Fin.succAbove_ne a b), h.len _ (Fin.succAbove_ne a b)]
  rw [h1, h2]
  refine tensor_congr (fun b j h0 hj => ?_) (fun _ _ => rfl) _
  simp only [Fin.removeNth] at hj ⊢
  have hl : N.len (a.succAbove b) = N.n (a.succAbove b) + N.degree (a.succAbove b) + 2 := (N.axis _).len_eq
  have := (hv (a.succAbove b)).one_le
  exact h.knots _ (Fin.succAbove_ne a b) j h0 (by omega)

theorem eval_across (N : Nrb K (d + 1)) (a : Fin (d + 1)) (x : Fin (d + 1) → K) :
    N.eval x = N.across a (curve (N.n a) (N.degree a).toNat (N.U a) (N.row a) (x a)) x := N.eval_split a x

theorem across_update (N : Nrb K (d + 1)) (a : Fin (d + 1)) (R : (Fin d → ℤ) → ℕ → K) (x : Fin (d + 1) → K) (t : K) :
    N.across a R (Function.update x a t) = N.across a R x := by
  unfold Nrb.across
  rw [Fin.removeNth_update]

/-- what `concat` asks of the pieces -/
structure Pieces (X1 X2 : Nrb K (d + 1)) (a : Fin (d + 1)) (p : ℤ) (u : K) : Prop where
  v1 : X1.Valid
  v2 : X2.Valid
  nc : X1.nc = X2.nc
  others : X1.SameOthers X2 a
  d1 : X1.degree a = p
  d2 : X2.degree a = p
  r1 : ClampedR (X1.n a) p (X1.U a)
  l2 : ClampedL p (X2.U a)
  u1 : X1.hi a = u
  u2 : X2.lo a = u

/-- difference between the start of the second and the end of the first piece -/
def gapOf (X1 X2 : Nrb K d) (a : Fin d) (u : K) (x : Fin d → K) (k : ℕ) : K :=
  X2.eval (Function.update x a u) k - X1.eval (Function.update x a u) k

theorem Pieces.meet {X1 X2 : Nrb K (d + 1)} {a : Fin (d + 1)} {p : ℤ} {u : K} (h : Pieces X1 X2 a p u) :
    ∃ q : ℕ, p = q ∧ Meet (X1.n a) (X2.n a) q u (X1.U a) (X2.U a) := by
  have h1 := h.v1 a
  have h2 := h.v2 a
  rw [h.d1] at h1
  rw [h.d2] at h2
  have := h1.one_le
  obtain ⟨q, rfl⟩ := Int.eq_ofNat_of_zero_le (by omega : (0 : ℤ) ≤ p)
  exact ⟨q, rfl, h1, h2, h.r1, h.l2, by rw [← Nrb.hi_eq, h.u1], by rw [← h.u2, Nrb.lo_eq, h.d2]⟩

theorem across_add (N : Nrb K (d + 1)) (a : Fin (d + 1)) (R S : (Fin d → ℤ) → ℕ → K) (x : Fin (d + 1) → K) :
    N.across a (R + S) x = N.across a R x + N.across a S x := tensor_add _ _ _ _ _ _

theorem across_smul (N : Nrb K (d + 1)) (a : Fin (d + 1)) (c : K) (R : (Fin d → ℤ) → ℕ → K) (x : Fin (d + 1) → K) :
    N.across a (c • R) x = c • N.across a R x := tensor_smul _ _ _ _ _ _

theorem Pieces.end1 {X1 X2 : Nrb K (d + 1)} {a : Fin (d + 1)} {p : ℤ} {u : K} (h : Pieces X1 X2 a p u)
    (x : Fin (d + 1) → K) : X1.eval (Function.update x a u) = X1.across a (X1.row a (X1.n a)) x := by
  obtain ⟨q, rfl, hm⟩ := h.meet
  rw [eval_across X1 a, across_update, Function.update_self, h.d1, ← hm.u1]
  congr 1
  exact curve_end_right hm.v1 hm.r1 _

theorem Pieces.end2 {X1 X2 : Nrb K (d + 1)} {a : Fin (d + 1)} {p : ℤ} {u : K} (h : Pieces X1 X2 a p u)
    (x : Fin (d + 1) → K) : X2.eval (Function.update x a u) = X1.across a (X2.row a 0) x := by
  obtain ⟨q, rfl, hm⟩ := h.meet
  rw [eval_across X2 a, across_update, across_same h.v1 h.others, Function.update_self, h.d2, ← hm.u2]
  congr 1
  exact curve_end_left hm.v2 hm.l2 _

theorem gapOf_across {X1 X2 : Nrb K (d + 1)} {a : Fin (d + 1)} {p : ℤ} {u : K} (h : Pieces X1 X2 a p u)
    (x : Fin (d + 1) → K) : gapOf X1 X2 a u x = X1.across a (X2.row a 0 - X1.row a (X1.n a)) x := by
  have e3 : X2.row a 0 - X1.row a (X1.n a) = X2.row a 0 + (-1 : K) • X1.row a (X1.n a) := by
    rw [neg_one_smul, sub_eq_add_neg]
  funext k
  unfold gapOf
  rw [h.end1, h.end2, e3, across_add, across_smul, neg_one_smul]
  simp [sub_eq_add_neg]

/-- at the right corner of the other axes -/
theorem across_corner {N : Nrb K (d + 1)} {a : Fin (d + 1)} (hv : N.Valid)
    (hr : ∀ b, b ≠ a → ClampedR (N.n b) (N.degree b) (N.U b)) (R : (Fin d → ℤ) → ℕ → K) {x : Fin (d + 1) → K}
    (hx : ∀ b, b ≠ a → x b = N.hi b) : N.across a R x = R (fun b => N.n (a.succAbove b)) := by
  unfold Nrb.across
  have e : a.removeNth x = fun b => (a.removeNth N.U) b ((a.removeNth N.n) b + 1) := by
    funext b
    simp only [Fin.removeNth]
    rw [hx _ (Fin.succAbove_ne a b), Nrb.hi_eq]
  rw [e, tensor_corner (fun b => ?_) (fun b => ?_)]
  · rfl
  · simp only [Fin.removeNth]
    rw [hv.degNat]
    exact hv _
  · simp only [Fin.removeNth]
    rw [hv.degNat]
    exact hr _ (Fin.succAbove_ne a b)

theorem concat_ok {X1 X2 : Nrb K (d + 1)} {a : Fin (d + 1)} {p : ℤ} {u : K} (h : Pieces X1 X2 a p u) :
    ∃ J, Cad.concat a p u X1 X2 = .ok J ∧ J.Valid ∧ J.nc = X1.nc ∧ J.degree a = p ∧ J.multOf a u = p ∧
      J.lo a = X1.lo a ∧ J.hi a = X2.hi a ∧ (∀ b, b ≠ a → J.axis b = X1.axis b) ∧
      (∀ x, 0 < (J.axis a).mult x → 0 < (X1.axis a).mult x ∨ 0 < (X2.axis a).mult x) ∧
      J.n a = X1.n a + X2.n a ∧ (J.row a (X1.n a) = fun o c => (X1.row a (X1.n a) o c + X2.row a 0 o c) / 2) ∧
      ∀ x, J.InDom x →
        (x a ≤ u → ∃ w, 0 ≤ w ∧ w ≤ 1 / 2 ∧ ∀ k, J.eval x k = X1.eval x k + w * gapOf X1 X2 a u x k) ∧
        (u ≤ x a → ∃ w, 0 ≤ w ∧ w ≤ 1 / 2 ∧ ∀ k, J.eval x k = X2.eval x k - w * gapOf X1 X2 a u x k) := by
  obtain ⟨q, rfl, hm⟩ := h.meet
  have q1 := hm.v1.one_le
  have q2 := hm.v1.le
  have q3 := hm.v2.le
  have hg := fun x => gapOf_across h x
  have l1 : X1.len a = X1.n a + X1.degree a + 2 := (X1.axis a).len_eq
  have l2 : X2.len a = X2.n a + X2.degree a + 2 := (X2.axis a).len_eq
  have s1 : X1.shape a = X1.n a + 1 := by unfold Nrb.n; ring
  have s2 : X2.shape a = X2.n a + 1 := by unfold Nrb.n; ring
  rw [h.d1] at l1
  rw [h.d2] at l2
  have es : X1.shape a + X2.shape a - 1 = X1.n a + X2.n a + 1 := by omega
  have el : (X1.len a - q - 1) + q + (X2.len a - q - 1) = X1.n a + X2.n a + q + 2 := by omega
  have en : X1.n a + X2.n a + 1 - 1 = X1.n a + X2.n a := by ring
  have ed : X1.n a + X2.n a + q + 2 - (X1.n a + X2.n a + 1) - 1 = q := by ring
  set V := Cad.joinKnots (X1.n a) q u (X1.U a) (X2.U a) with hV
  have hlo : V q = X1.U a q := hm.lo
  have hhi : V (X1.n a + X2.n a + 1) = X2.U a (X2.n a + 1) := hm.hi
  set Q := Cad.joinRows (X1.n a) (X1.row a) (X2.row a) with hQ
  refine ⟨X1.setAxis a (X1.n a + X2.n a + 1) (X1.n a + X2.n a + q + 2) V Q, ?_, ?_, rfl, ?_, ?_, ?_, ?_, ?_, ?_, ?_, ?_, ?_⟩
  · unfold Cad.concat
    rw [if_pos ⟨h.nc, fun b hb => (h.others.shape b hb).symm⟩, es, el]
  · refine Nrb.setAxis_valid _ _ _ _ _ _ (fun b _ => h.v1 b) ?_
    rw [en, ed]
    exact hm.valid
  · rw [Nrb.setAxis_degree_self, ed]
  · rw [Nrb.multOf_eq, Nrb.setAxis_n_self, Nrb.setAxis_degree_self, Nrb.setAxis_U_self, en, ed]
    exact_mod_cast hm.mult_u
  · rw [Nrb.lo_eq, Nrb.setAxis_degree_self, Nrb.setAxis_U_self, ed, hlo, Nrb.lo_eq, h.d1]
  · rw [Nrb.hi_eq, Nrb.setAxis_n_self, Nrb.setAxis_U_self, en, hhi, Nrb.hi_eq]
  · intro b hb
    exact axis_ext (by simp [hb]) (Nrb.setAxis_degree_ne _ _ _ _ _ _ hb) (Nrb.setAxis_U_ne _ _ _ _ _ _ hb)
  · intro x hx
    obtain ⟨k, k0, k1, rfl⟩ := Ax.mult_pos.mp hx
    have k1' : k < X1.n a + X2.n a + q + 2 := by
      have : ((X1.setAxis a (X1.n a + X2.n a + 1) (X1.n a + X2.n a + q + 2) V Q).axis a).len =
        X1.n a + X2.n a + q + 2 := by simp [Nrb.axis]
      omega
    rw [axis_U, Nrb.setAxis_U_self]
    by_cases hk : k ≤ X1.n a + q
    · left
      refine Ax.mult_pos.mpr ⟨k, k0, ?_, (hm.knots1 hk).symm⟩
      show k < X1.len a
      omega
    · right
      refine Ax.mult_pos.mpr ⟨k - X1.n a, by omega, ?_, (hm.knots2 (by omega)).symm⟩
      show k - X1.n a < X2.len a
      omega
  · rw [Nrb.setAxis_n_self, en]
  · rw [Nrb.setAxis_row]
    funext o c
    simp [hQ, Cad.joinRows]
  · intro x hx
    have hxa := hx a
    rw [Nrb.lo_eq, Nrb.hi_eq, Nrb.setAxis_n_self, Nrb.setAxis_degree_self, Nrb.setAxis_U_self, en, ed, hlo, hhi]
      at hxa
    set m : (Fin d → ℤ) → ℕ → K := (1 / 2 : K) • (X2.row a 0 - X1.row a (X1.n a)) with hmm
    have hgm : ∀ w : K, X1.across a (w • m) x = fun k => w / 2 * gapOf X1 X2 a u x k := by
      intro w
      rw [across_smul, hmm, across_smul, ← hg]
      funext k
      simp only [Pi.smul_apply, smul_eq_mul]
      ring
    have hval : (X1.setAxis a (X1.n a + X2.n a + 1) (X1.n a + X2.n a + q + 2) V Q).eval x =
        X1.across a (curve (X1.n a + X2.n a) q V Q (x a)) x := by
      rw [Nrb.setAxis_eval, en, ed]; rfl
    rw [hval]
    constructor
    · intro hxu
      have hdom : x a ≤ X1.U a (X1.n a + 1) := by rw [hm.u1]; exact hxu
      refine ⟨bsplineD (X1.n a) (X1.U a) q (X1.n a) (x a) / 2, ?_, ?_, ?_⟩
      · exact div_nonneg (bsplineD_nonneg hm.v1 hxa.1 hdom (by omega) le_rfl) (by norm_num)
      · have := bsplineD_le_one hm.v1 hxa.1 hdom (i := X1.n a) (by omega) le_rfl
        linarith
      · intro k
        rw [hm.curve1 (P1 := fun j => X1.row a j + if j = X1.n a then m else 0) ?_ hxa.1 hxu, curve_add,
          curve_single q (X1.U a) (by omega) le_rfl, across_add, Pi.add_apply, hgm, eval_across X1 a, h.d1]
        · rfl
        · intro j j0 j1
          funext o c
          by_cases hj : j = X1.n a
          · subst hj
            simp only [hQ, Cad.joinRows, hmm, if_true, lt_irrefl, if_false, Pi.add_apply, Pi.smul_apply, Pi.sub_apply,
              smul_eq_mul]
            ring
          · simp [hQ, Cad.joinRows, hj, (by omega : j < X1.n a)]
    · intro hxu
      have hdom : X2.U a q ≤ x a := by rw [hm.u2]; exact hxu
      refine ⟨bsplineD (X2.n a) (X2.U a) q 0 (x a) / 2, ?_, ?_, ?_⟩
      · exact div_nonneg (bsplineD_nonneg hm.v2 hdom hxa.2 le_rfl (by omega)) (by norm_num)
      · have := bsplineD_le_one hm.v2 hdom hxa.2 (i := 0) le_rfl (by omega)
        linarith
      · intro k
        rw [hm.curve2 (P2 := fun j => X2.row a j + if j = 0 then (-1 : K) • m else 0) ?_ hxu hxa.2, curve_add,
          curve_single q (X2.U a) le_rfl (by omega), across_add, Pi.add_apply, smul_smul, hgm, eval_across X2 a, h.d2,
          across_same h.v1 h.others]
        · simp only [Int.toNat_natCast]
          ring
        · intro j j0 j1
          funext o c
          by_cases hj : j = X1.n a
          · subst hj
            simp only [hQ, Cad.joinRows, hmm, if_true, lt_irrefl, if_false, Pi.add_apply, Pi.smul_apply, Pi.sub_apply,
              smul_eq_mul, sub_self]
            ring
          · have h1 : ¬ j < X1.n a := by omega
            have h2 : ¬ j - X1.n a = 0 := by omega
            simp [hQ, Cad.joinRows, hj, h1, h2]

/-- the knots of the concatenation besides `u` -/
theorem concat_mult {X1 X2 J : Nrb K (d + 1)} {a : Fin (d + 1)} {p : ℤ} {u : K} (h : Pieces X1 X2 a p u)
    (hJ : Cad.concat a p u X1 X2 = .ok J) (x : K) (hx : x ≠ u) : J.multOf a x = (X1.axis a).mult x + (X2.axis a).mult x := by
  obtain ⟨q, rfl, hm⟩ := h.meet
  have l1 : X1.len a = X1.n a + X1.degree a + 2 := (X1.axis a).len_eq
  have l2 : X2.len a = X2.n a + X2.degree a + 2 := (X2.axis a).len_eq
  have s1 : X1.shape a = X1.n a + 1 := by unfold Nrb.n; ring
  have s2 : X2.shape a = X2.n a + 1 := by unfold Nrb.n; ring
  rw [h.d1] at l1
  rw [h.d2] at l2
  unfold Cad.concat at hJ
  rw [if_pos ⟨h.nc, fun b hb => (h.others.shape b hb).symm⟩] at hJ
  obtain rfl := Except.ok.inj hJ
  have := hm.mult_ne hx
  unfold Nrb.multOf Ax.mult
  rw [Nrb.setAxis_U_self]
  have e1 : (X1.axis a).len - 1 = X1.n a + q + 1 := by show X1.len a - 1 = _; omega
  have e2 : (X2.axis a).len - 1 = X2.n a + q + 1 := by show X2.len a - 1 = _; omega
  have e3 : (X1.setAxis a (X1.shape a + X2.shape a - 1) (X1.len a - q - 1 + q + (X2.len a - q - 1))
      (Cad.joinKnots (X1.n a) q u (X1.U a) (X2.U a)) (Cad.joinRows (X1.n a) (X1.row a) (X2.row a))).len a - 1 =
      X1.n a + X2.n a + q + 1 := by simp; omega
  rw [e1, e2, e3]
  exact this

end Igakit
