import Verif.Proofs.NrbDeriv
import Verif.Proofs.Join
import Verif.Spec.Ends

/-! # Values and derivatives at clamped ends -/

set_option linter.unusedSectionVars false

namespace Igakit
open Spec Polynomial

section Curve
variable {K : Type} [Field K] [LinearOrder K] [IsStrictOrderedRing K]

/-- where `q` knots coincide, one function of degree `q` is one and the others vanish -/
theorem piece_delta {U : ℤ → K} {k y : ℤ} {q : ℕ} {u : K} (hw : Win U k q) (h1 : k - q ≤ y) (h2 : y ≤ k)
    (hu : ∀ l : ℤ, 1 ≤ l → l ≤ q → U (y + l) = u) (i : ℤ) : piece U k q i u = if i = y then 1 else 0 := by
  by_cases c1 : k < i
  · rw [piece_zero_of_gt _ _ _ _ _ c1, if_neg (by omega)]
  by_cases c2 : i + q < k
  · rw [piece_zero_of_lt _ _ _ _ _ c2, if_neg (by omega)]
  obtain ⟨f, hf, hrep⟩ := exists_form (fun j => if j = i then (1 : K) else 0) hw
  have h := sum_piece_form hf hrep hw u
  rw [← kn_const hu, ← hrep y h1 h2] at h
  rw [Finset.sum_eq_single (i - (k - q)).toNat] at h
  · rw [show k - (q : ℤ) + ((i - (k - q)).toNat : ℤ) = i by omega] at h
    simp only [if_true, smul_eq_mul, mul_one] at h
    rw [h]
    simp only [eq_comm]
  · intro r _ hr
    rw [if_neg (by omega), smul_zero]
  · intro hr
    exact absurd (Finset.mem_range.2 (by omega)) hr

/-- the polynomial of the span `k` -/
noncomputable def spanPoly (p : ℕ) (U : ℤ → K) (k : ℤ) (Q : ℤ → K) : K[X] :=
  ∑ r ∈ Finset.range (p + 1), C (Q (k - p + r)) * pieceP U k p (k - p + r)

theorem spanPoly_eval {n : ℤ} {p : ℕ} {U : ℤ → K} {k : ℤ} {y : K} (h : SpanOf n p U k y)
    (hs : SortedOn U 0 (n + p + 1)) (Q : ℤ → K) : curve n p U Q y = (spanPoly p U k Q).eval y := by
  rw [h.curve_sum hs]
  unfold spanPoly
  rw [eval_finsetSum]
  refine Finset.sum_congr rfl fun r _ => ?_
  rw [eval_mul, eval_C, eval_pieceP, smul_eq_mul, mul_comm]

theorem spanPoly_deriv {q : ℕ} {U : ℤ → K} {k y : ℤ} {u : K} (hw : Win U k (q + 1)) (h1 : k - q ≤ y) (h2 : y ≤ k)
    (hu : ∀ l : ℤ, 1 ≤ l → l ≤ q → U (y + l) = u) (Q : ℤ → K) :
    (derivative (spanPoly (q + 1) U k Q)).eval u = ((q : K) + 1) / (U (y + q + 1) - U y) * (Q y - Q (y - 1)) := by
  unfold spanPoly
  rw [derivative_sum, eval_finsetSum]
  have hterm : ∀ r ∈ Finset.range (q + 1 + 1), (derivative (C (Q (k - (q + 1 : ℕ) + r)) * pieceP U k (q + 1) (k - (q + 1 : ℕ) + r))).eval u =
      ((q : K) + 1) * (1 / (U (k - (q + 1 : ℕ) + r + q + 1) - U (k - (q + 1 : ℕ) + r)) *
          (if k - (q + 1 : ℕ) + (r : ℤ) = y then 1 else 0) -
        1 / (U (k - (q + 1 : ℕ) + r + q + 2) - U (k - (q + 1 : ℕ) + r + 1)) *
          (if k - (q + 1 : ℕ) + (r : ℤ) + 1 = y then 1 else 0)) * Q (k - (q + 1 : ℕ) + r) := by
    intro r _
    rw [derivative_mul, derivative_C, zero_mul, zero_add, derivative_pieceP U k q hw]
    simp only [eval_mul, eval_C, eval_sub, eval_pieceP]
    rw [piece_delta (hw.mono (by omega)) h1 h2 hu, piece_delta (hw.mono (by omega)) h1 h2 hu]
    ring
  rw [Finset.sum_congr rfl hterm]
  have e1 : ∀ r : ℕ, (r = (y - k + q + 1).toNat ↔ k - (q + 1 : ℕ) + (r : ℤ) = y) := by intro r; push_cast; omega
  have e2 : ∀ r : ℕ, (r = (y - k + q).toNat ↔ k - (q + 1 : ℕ) + (r : ℤ) + 1 = y) := by intro r; push_cast; omega
  have hsplit : ∀ r ∈ Finset.range (q + 1 + 1),
      ((q : K) + 1) * (1 / (U (k - (q + 1 : ℕ) + r + q + 1) - U (k - (q + 1 : ℕ) + r)) *
          (if k - (q + 1 : ℕ) + (r : ℤ) = y then 1 else 0) -
        1 / (U (k - (q + 1 : ℕ) + r + q + 2) - U (k - (q + 1 : ℕ) + r + 1)) *
          (if k - (q + 1 : ℕ) + (r : ℤ) + 1 = y then 1 else 0)) * Q (k - (q + 1 : ℕ) + r) =
      (if r = (y - k + q + 1).toNat then ((q : K) + 1) / (U (y + q + 1) - U y) * Q y else 0) -
      (if r = (y - k + q).toNat then ((q : K) + 1) / (U (y + q + 1) - U y) * Q (y - 1) else 0) := by
    intro r _
    by_cases c1 : k - (q + 1 : ℕ) + (r : ℤ) = y
    · rw [if_pos c1, if_neg (by omega), if_pos ((e1 r).2 c1), if_neg (fun h => by have := (e2 r).1 h; omega), c1]
      ring
    · by_cases c2 : k - (q + 1 : ℕ) + (r : ℤ) + 1 = y
      · rw [if_neg c1, if_pos c2, if_neg (fun h => c1 ((e1 r).1 h)), if_pos ((e2 r).2 c2)]
        have c3 : k - (q + 1 : ℕ) + (r : ℤ) = y - 1 := by omega
        rw [c3, show y - 1 + (q : ℤ) + 2 = y + q + 1 by ring, show y - 1 + 1 = y by ring]
        ring
      · rw [if_neg c1, if_neg c2, if_neg (fun h => c1 ((e1 r).1 h)), if_neg (fun h => c2 ((e2 r).1 h))]
        ring
  rw [Finset.sum_congr rfl hsplit, Finset.sum_sub_distrib, Finset.sum_ite_eq', Finset.sum_ite_eq',
    if_pos (Finset.mem_range.2 (by omega)), if_pos (Finset.mem_range.2 (by omega))]
  ring

end Curve

section Nrb
variable {K : Type} [Field K] [LinearOrder K] [IsStrictOrderedRing K] {d : ℕ} {N : Nrb K d}

theorem curve_unit {n : ℤ} {p : ℕ} {U : ℤ → K} {i : ℤ} (h : i ∈ Finset.Icc 0 n) (u : K) :
    curve n p U (fun j => if j = i then (1 : K) else 0) u = bsplineD n U p i u := by
  unfold curve
  rw [Finset.sum_eq_single i]
  · simp
  · intro j _ hj; simp [hj]
  · intro hi; exact absurd h hi

/-- at a clamped end only the outermost function does not vanish -/
theorem bspline_end (hv : N.Valid) {a : Fin d} {s : Bool} (hc : N.ClampedAt a s) {i : ℤ} (h0 : 0 ≤ i) (h1 : i ≤ N.n a) :
    bsplineD (N.n a) (N.U a) (N.degree a).toNat i (N.endPar a s) = if i = N.endIdx a s then 1 else 0 := by
  obtain ⟨p, hp, hk, e⟩ := deg_nat hv a
  have hpn : (N.degree a).toNat = p := by omega
  rw [hpn, ← curve_unit (Finset.mem_Icc.2 ⟨h0, h1⟩)]
  cases s with
  | false =>
    have hc : ClampedL (p : ℤ) (N.U a) := by rw [← hp]; exact hc
    show curve _ _ _ _ (N.lo a) = _
    rw [N.lo_eq, hp, curve_end_left hk hc]
    simp only [Nrb.endIdx]
    exact if_congr eq_comm rfl rfl
  | true =>
    have hc : ClampedR (N.n a) (p : ℤ) (N.U a) := by rw [← hp]; exact hc
    show curve _ _ _ _ (N.hi a) = _
    rw [N.hi_eq, curve_end_right hk hc]
    simp only [Nrb.endIdx, Nrb.n]
    exact if_congr eq_comm rfl rfl

/-- the tensor product along one axis, with the other parameters at clamped ends -/
theorem tensor_edge (hv : N.Valid) (a : Fin d) {s : Fin d → Bool} (hc : ∀ b, b ≠ a → N.ClampedAt b (s b)) (G : (Fin d → ℤ) → K) (t : K) :
    tensor N.n (fun b => (N.degree b).toNat) N.U G (Function.update (fun b => N.endPar b (s b)) a t) =
      curve (N.n a) (N.degree a).toNat (N.U a) (fun i => G (Function.update (fun b => N.endIdx b (s b)) a i)) t := by
  unfold tensor curve
  have hinj : Function.Injective (fun i : ℤ => Function.update (fun b => N.endIdx b (s b)) a i) := fun i j h => by
    have := congrFun h a
    simpa using this
  have hend : ∀ b, 0 ≤ N.endIdx b (s b) ∧ N.endIdx b (s b) ≤ N.n b := fun b => by
    have h1 := (hv b).one_le
    have h2 := (hv b).le
    unfold Nrb.n at *
    cases s b <;> simp only [Nrb.endIdx] <;> omega
  symm
  have himg := Finset.sum_image (s := Finset.Icc 0 (N.n a)) (g := fun i : ℤ => Function.update (fun b => N.endIdx b (s b)) a i)
    (f := fun idx : Fin d → ℤ => (bsplineD (N.n a) (N.U a) (N.degree a).toNat (idx a) t) • G idx) (fun i _ j _ h => hinj h)
  simp only [Function.update_self] at himg
  rw [← himg]
  refine Eq.trans (Finset.sum_congr rfl ?_) (Finset.sum_subset ?_ ?_)
  · intro idx hidx
    obtain ⟨i, hi, rfl⟩ := Finset.mem_image.1 hidx
    congr 1
    rw [← Finset.mul_prod_erase _ _ (Finset.mem_univ a), Finset.prod_eq_one, mul_one]
    · simp
    · intro b hb
      have hb := Finset.ne_of_mem_erase hb
      rw [Function.update_of_ne hb, Function.update_of_ne hb, bspline_end hv (hc b hb) (hend b).1 (hend b).2, if_pos rfl]
  · intro idx hidx
    obtain ⟨i, hi, rfl⟩ := Finset.mem_image.1 hidx
    refine Fintype.mem_piFinset.2 fun b => ?_
    by_cases e : b = a
    · subst e; simpa using hi
    · rw [Function.update_of_ne e]; exact Finset.mem_Icc.2 (hend b)
  · intro idx hidx hne
    have hidx := fun b => Finset.mem_Icc.1 (Fintype.mem_piFinset.1 hidx b)
    have : ∃ b, b ≠ a ∧ idx b ≠ N.endIdx b (s b) := by
      by_contra hcon
      push Not at hcon
      refine hne (Finset.mem_image.2 ⟨idx a, Finset.mem_Icc.2 (hidx a), ?_⟩)
      funext b
      by_cases e : b = a
      · subst e; simp
      · rw [Function.update_of_ne e, hcon b e]
    obtain ⟨b, hb, hne⟩ := this
    rw [Finset.prod_eq_zero (Finset.mem_univ b), zero_smul]
    rw [Function.update_of_ne hb, bspline_end hv (hc b hb) (hidx b).1 (hidx b).2, if_neg hne]

/-- the tensor product at a clamped corner is the outermost value -/
theorem tensor_ends (hv : N.Valid) {s : Fin d → Bool} (hc : ∀ b, N.ClampedAt b (s b)) (G : (Fin d → ℤ) → K) :
    tensor N.n (fun b => (N.degree b).toNat) N.U G (fun b => N.endPar b (s b)) = G (fun b => N.endIdx b (s b)) := by
  unfold tensor
  have hend : ∀ b, 0 ≤ N.endIdx b (s b) ∧ N.endIdx b (s b) ≤ N.n b := fun b => by
    have h1 := (hv b).one_le
    have h2 := (hv b).le
    unfold Nrb.n at *
    cases s b <;> simp only [Nrb.endIdx] <;> omega
  rw [Finset.sum_eq_single (fun b => N.endIdx b (s b))]
  · rw [Finset.prod_eq_one, one_smul]
    intro b _
    rw [bspline_end hv (hc b) (hend b).1 (hend b).2, if_pos rfl]
  · intro idx hidx hne
    have hidx := fun b => Finset.mem_Icc.1 (Fintype.mem_piFinset.1 hidx b)
    obtain ⟨b, hb⟩ := Function.ne_iff.1 hne
    rw [Finset.prod_eq_zero (Finset.mem_univ b), zero_smul]
    rw [bspline_end hv (hc b) (hidx b).1 (hidx b).2, if_neg hb]
  · intro h
    exact absurd (Fintype.mem_piFinset.2 fun b => Finset.mem_Icc.2 (hend b)) h

end Nrb

end Igakit
