import Verif.Props.AssembleN

/-!
# Examples for property C92
-/

namespace Igakit
open Spec MeasureTheory

namespace Ex

/-- the quadrature data of the knots 0 0 0 1 2 2 3 3 3, degree 2, three points per element -/
theorem quad_exists (jo : ℤ → ℤ) (jk : ℤ → ℝ) (j2 ja jd : ℤ → ℤ → ℝ) : ∃ B : QuadData ℝ,
    BasisData (1 / 10 ^ 16) jo jk j2 ja jd (2 : ℕ) (5 + (2 : ℕ) + 1) Ex.Ur none none = .ok B ∧
      IsQuad (1 / 10 ^ 16) 5 2 Ex.Ur 2 3 B :=
  C92_data (by norm_num) jo jk j2 ja jd Ex.Ur_valid
    (fun k h1 h2 h => lt_of_lt_of_le (by norm_num) (Ex.Ur_long k h1 h2 h)) (d := none) (q := none) (D := 2) (Q := 3) rfl
    (by norm_num) rfl (by norm_num) (by norm_num)

/-- a surface with these knots in both directions and control points on a bent grid -/
noncomputable def bent : Nrb ℝ 2 where
  shape := ![6, 6]
  nc := 4
  len := ![9, 9]
  U := ![Ex.Ur, Ex.Ur]
  P := fun idx c => if c = 0 then idx 0 else if c = 1 then idx 1 + idx 0 ^ 2 / 5 else if c = 3 then 1 else 0

theorem bent_U (a : Fin 2) : bent.U a = Ex.Ur := by fin_cases a <;> rfl
theorem bent_n (a : Fin 2) : bent.n a = 5 := by fin_cases a <;> decide
theorem bent_degree (a : Fin 2) : bent.degree a = 2 := by fin_cases a <;> decide

theorem bent_valid : bent.Valid := by
  intro a
  rw [bent_U, bent_n, bent_degree]
  exact Ex.Ur_valid

theorem Ur_lo : Ex.Ur 2 = 0 := by unfold Ex.Ur; rw [show Ex.U 2 = 0 by decide +kernel]; norm_num
theorem Ur_hi : Ex.Ur (5 + 1) = 3 := by unfold Ex.Ur; rw [show Ex.U (5 + 1) = 3 by decide +kernel]; norm_num

theorem bent_lo (a : Fin 2) : bent.lo a = 0 := by
  show bent.U a (bent.degree a) = 0
  rw [bent_U, bent_degree, Ur_lo]

theorem bent_hi (a : Fin 2) : bent.hi a = 3 := by
  rw [Nrb.hi_eq, bent_U, bent_n, Ur_hi]

theorem bent_net (idx : Fin 2 → ℤ) (h : bent.InNet idx) (i : Fin 2) : |bent.P idx i| ≤ 10 := by
  have h0 : 0 ≤ idx 0 ∧ idx 0 ≤ 5 := by
    have := h 0
    have e : bent.shape 0 = 6 := rfl
    omega
  have h1 : 0 ≤ idx 1 ∧ idx 1 ≤ 5 := by
    have := h 1
    have e : bent.shape 1 = 6 := rfl
    omega
  have a0 : (0 : ℝ) ≤ idx 0 ∧ (idx 0 : ℝ) ≤ 5 := ⟨by exact_mod_cast h0.1, by exact_mod_cast h0.2⟩
  have a1 : (0 : ℝ) ≤ idx 1 ∧ (idx 1 : ℝ) ≤ 5 := ⟨by exact_mod_cast h1.1, by exact_mod_cast h1.2⟩
  fin_cases i
  · show |(idx 0 : ℝ)| ≤ 10
    rw [abs_of_nonneg a0.1]; linarith
  · show |(idx 1 : ℝ) + (idx 0 : ℝ) ^ 2 / 5| ≤ 10
    rw [abs_of_nonneg (by have := a1.1; positivity)]
    nlinarith

end Ex

/-- a stiffness matrix: derivatives in the first direction -/
example (jo : ℤ → ℤ) (jk : ℤ → ℝ) (j2 ja jd : ℤ → ℤ → ℝ) : ∃ B : QuadData ℝ,
    BasisData (1 / 10 ^ 16) jo jk j2 ja jd (2 : ℕ) (5 + (2 : ℕ) + 1) Ex.Ur none none = .ok B ∧
    |assembledN (fun _ : Fin 2 => B) (fun _ => 3) (fun _ => 2) ![1, 0] ![1, 0] ![2, 3] ![3, 3] -
      ∫ x in Set.univ.pi fun _ : Fin 2 => Set.Icc (Ex.Ur (2 : ℕ)) (Ex.Ur (5 + 1)),
        (∏ a, iteratedDeriv (![1, 0] a) (bsplineD 5 Ex.Ur 2 (![2, 3] a)) (x a)) *
          ∏ a, iteratedDeriv (![1, 0] a) (bsplineD 5 Ex.Ur 2 (![3, 3] a)) (x a)| ≤ 1 / 10 ^ 30 := by
  obtain ⟨B, hB, h⟩ := Ex.quad_exists jo jk j2 ja jd
  refine ⟨B, hB, ?_⟩
  have := C92_matrix (d := 2) (eps := 1 / 10 ^ 16) (by norm_num) (n := fun _ => 5) (p := fun _ => 2) (D := fun _ => 2)
    (Q := fun _ => 3) (U := fun _ => Ex.Ur) (B := fun _ => B) (fun _ => h) (δ := fun _ => 1) (fun _ => one_pos)
    (fun _ => Ex.Ur_long) (i := ![2, 3]) (j := ![3, 3]) (l1 := ![1, 0]) (l2 := ![1, 0])
    (by intro a; fin_cases a <;> decide) (by intro a; fin_cases a <;> decide) (by intro a; fin_cases a <;> decide)
    (by intro a; fin_cases a <;> decide) (by intro a; fin_cases a <;> decide)
  refine this.trans ?_
  rw [Ex.Ur_hi, show Ex.Ur ((2 : ℕ) : ℤ) = 0 from Ex.Ur_lo]
  simp only [Fin.prod_univ_two, Matrix.cons_val_zero, Matrix.cons_val_one]
  norm_num

/-- the area of the bent surface -/
example (jo : ℤ → ℤ) (jk : ℤ → ℝ) (j2 ja jd : ℤ → ℤ → ℝ) : ∃ B : QuadData ℝ,
    BasisData (1 / 10 ^ 16) jo jk j2 ja jd (2 : ℕ) (5 + (2 : ℕ) + 1) Ex.Ur none none = .ok B ∧
    |volumeSum (fun _ : Fin 2 => B) (fun _ => 3) (fun _ => 2) Ex.bent.P -
      ∫ x in Ex.bent.box, (Matrix.of fun i j : Fin 2 => pdo [j] (fun y => Ex.bent.proj y i) x).det| ≤ 1 / 10 ^ 26 := by
  obtain ⟨B, hB, h⟩ := Ex.quad_exists jo jk j2 ja jd
  refine ⟨B, hB, ?_⟩
  have e : (fun a => (Ex.bent.degree a).toNat) = fun _ => 2 := by funext a; rw [Ex.bent_degree]; rfl
  have := C92_volume (d := 2) (eps := 1 / 10 ^ 16) (by norm_num) Ex.bent_valid (fun _ _ => rfl) (D := fun _ => 2)
    (Q := fun _ => 3) (B := fun _ => B) (fun a => by rw [Ex.bent_n, Ex.bent_degree, Ex.bent_U]; exact h) (fun _ => by norm_num)
    (fun a => by rw [Ex.bent_degree]; decide) (δ := fun _ => 1) (fun _ => one_pos)
    (fun a k h1 h2 h3 => by
      rw [Ex.bent_degree] at h1
      rw [Ex.bent_n] at h2
      rw [Ex.bent_U] at h3 ⊢
      exact Ex.Ur_long k h1 h2 h3) Ex.bent_net
  rw [e] at this
  refine this.trans ?_
  simp only [Ex.bent_degree, Ex.bent_lo, Ex.bent_hi, Fin.prod_univ_two, show Int.toNat 2 = 2 from rfl]
  norm_num [Nat.factorial]

/-- the mass matrix of a surface is positive definite -/
example (jo : ℤ → ℤ) (jk : ℤ → ℚ) (j2 ja jd : ℤ → ℤ → ℚ) : ∃ B : QuadData ℚ,
    BasisData (1 / 10 ^ 16) jo jk j2 ja jd (2 : ℕ) (5 + (2 : ℕ) + 1) Ex.U none none = .ok B ∧
    0 < ∑ i ∈ Fintype.piFinset fun _ : Fin 2 => Finset.Icc (0 : ℤ) 5, ∑ j ∈ Fintype.piFinset fun _ : Fin 2 => Finset.Icc (0 : ℤ) 5,
      (if i = ![1, 4] then (1 : ℚ) else if i = ![2, 2] then -3 else 0) * (if j = ![1, 4] then (1 : ℚ) else if j = ![2, 2] then -3 else 0) *
        assembledN (fun _ : Fin 2 => B) (fun _ => 3) (fun _ => 2) (fun _ => 0) (fun _ => 0) i j := by
  obtain ⟨B, hB, h⟩ := C92_data (eps := 1 / 10 ^ 16) (by norm_num) jo jk j2 ja jd Ex.U_valid
    (fun k h1 h2 _ => by
      have : (k = 2 ∨ k = 3 ∨ k = 4 ∨ k = 5) := by omega
      rcases this with rfl | rfl | rfl | rfl <;> revert ‹_ < _› <;> decide +kernel)
    (d := none) (q := none) (D := 2) (Q := 3) rfl le_rfl rfl (by norm_num) (by norm_num)
  refine ⟨B, hB, (C92_mass (d := 2) (eps := 1 / 10 ^ 16) (by norm_num) (n := fun _ => 5) (p := fun _ => 2) (D := fun _ => 2)
    (Q := fun _ => 3) (U := fun _ => Ex.U) (B := fun _ => B) fun _ => h).2.2 (fun _ => by norm_num) (fun a x x1 x2 => ?_)
    (fun i => if i = ![1, 4] then 1 else if i = ![2, 2] then -3 else 0) ⟨![1, 4], by intro a; fin_cases a <;> decide, by simp⟩⟩
  have hsub : (Finset.Icc (0 : ℤ) (5 + (2 : ℕ) + 1)).filter (fun j => Ex.U j = x) ⊆ Finset.Icc 3 5 := by
    intro j hj
    rw [Finset.mem_filter, Finset.mem_Icc] at hj
    obtain ⟨⟨j1, j2⟩, rfl⟩ := hj
    push_cast at j2
    norm_num at j2
    interval_cases j <;> first | decide | (exfalso; revert x1; decide +kernel) | (exfalso; revert x2; decide +kernel)
  have := Finset.card_le_card hsub
  rw [Int.card_Icc] at this
  unfold mult
  exact this

end Igakit
