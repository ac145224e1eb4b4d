import Verif.Proofs.Variation
import Verif.Props.Nurbs

/-! # C66: variation diminution -/

set_option linter.unusedSectionVars false

namespace Igakit
open Spec

variable {K : Type} [Field K] [LinearOrder K] [IsStrictOrderedRing K]

/-- linear combination of coordinates and fields of a point -/
def linComb (α φ : ℕ → K) (S T : Finset ℕ) (x f : ℕ → K) : K := ∑ c ∈ S, α c * x c + ∑ c ∈ T, φ c * f c

/-- the linear combination at a control point -/
def Nrb.linCombAt (N : Nrb K 1) (α φ : ℕ → K) (S T : Finset ℕ) (i : ℤ) : K :=
  linComb α φ S T (fun c => N.P (fun _ => i) c / N.P (fun _ => i) 3)
    (fun c => N.P (fun _ => i) (4 + c) / N.P (fun _ => i) 3)

theorem eval_curve (N : Nrb K 1) (x : K) (c : ℕ) :
    N.eval (fun _ => x) c = curve (N.n 0) (N.degree 0).toNat (N.U 0) (fun i => N.P (fun _ => i) c) x := by
  rw [Nrb.eval_apply]
  unfold curve
  symm
  refine Finset.sum_nbij' (fun i => (fun _ => i : Fin 1 → ℤ)) (fun idx => idx 0) ?_ ?_ ?_ ?_ ?_
  · intro i hi
    rw [Fintype.mem_piFinset]
    intro a
    rwa [Subsingleton.elim a 0]
  · intro idx h
    exact Fintype.mem_piFinset.1 h 0
  · intro i _; rfl
  · intro idx _
    funext a
    rw [Subsingleton.elim a 0]
  · intro i _
    simp [Nrb.wt]

section
variable (jk : ℤ → K) (je : ℤ → ℕ → K) {N : Nrb K 1} {r : Fin 1 → ℤ} {X : Fin 1 → ℤ → K}

theorem call_lift (hv : N.Valid) (hr : 0 ≤ r 0)
    (hx : ∀ j, 0 ≤ j → j ≤ r 0 → N.lo 0 ≤ X 0 j ∧ X 0 j ≤ N.hi 0)
    (hinc : ∀ j j', 0 ≤ j → j ≤ j' → j' ≤ r 0 → X 0 j ≤ X 0 j')
    (hw : ∀ i, 0 ≤ i → i < N.shape 0 → 0 < N.P (fun _ => i) 3) :
    ∃ C, N.call jk je r X = .ok C ∧ ∀ (α φ : ℕ → K) (S T : Finset ℕ) (β : K),
      Lift (N.shape 0 - 1) (fun i => N.linCombAt α φ S T i - β) (r 0)
        (fun j => linComb α φ S T (C (fun _ => j)).1 (C (fun _ => j)).2 - β) := by
  have all : ∀ a : Fin 1, a = 0 := fun a => Subsingleton.elim a 0
  obtain ⟨C, h1, h2⟩ := C05_call jk je (by norm_num) hv (r := r) (X := X) (fun a => by rw [all a]; exact hr)
    (fun a i i0 i1 => by rw [all a] at i1 ⊢; exact hx i i0 i1)
  refine ⟨C, h1, fun α φ S T β => ?_⟩
  obtain ⟨p, hp, hk, e⟩ := deg_nat hv 0
  let F : ℤ → K := fun i => ∑ c ∈ S, α c * N.P (fun _ => i) c + ∑ c ∈ T, φ c * N.P (fun _ => i) (4 + c) -
    β * N.P (fun _ => i) 3
  have hF : ∀ x, curve (N.n 0) p (N.U 0) F x =
      ∑ c ∈ S, α c * N.eval (fun _ => x) c + ∑ c ∈ T, φ c * N.eval (fun _ => x) (4 + c) - β * N.eval (fun _ => x) 3 := by
    intro x
    have hlin : ∀ c, N.eval (fun _ => x) c = ∑ i ∈ Finset.Icc 0 (N.n 0), bsplineD (N.n 0) (N.U 0) p i x * N.P (fun _ => i) c := by
      intro c
      rw [eval_curve, hp, Int.toNat_natCast]; rfl
    simp only [hlin, curve, F, smul_eq_mul, mul_sub, mul_add, Finset.mul_sum, Finset.sum_sub_distrib, Finset.sum_add_distrib]
    rw [Finset.sum_comm, Finset.sum_comm (s := Finset.Icc 0 (N.n 0)) (t := T)]
    congr 1
    · congr 1
      · exact Finset.sum_congr rfl fun c _ => Finset.sum_congr rfl fun i _ => by ring
      · exact Finset.sum_congr rfl fun c _ => Finset.sum_congr rfl fun i _ => by ring
    · exact Finset.sum_congr rfl fun i _ => by ring
  have hn : N.n 0 = N.shape 0 - 1 := rfl
  have hlo : N.lo 0 = N.U 0 p := by rw [N.lo_eq, hp]
  obtain ⟨κ, k1, k2⟩ := curve_lift (P := F) hk (m := r 0) (X := X 0)
    (fun j j0 j1 => by
      have := hx j j0 j1
      rw [hlo, N.hi_eq] at this
      exact this) hinc
  dsimp only at k1 k2
  have hdom : ∀ j, 0 ≤ j → j ≤ r 0 → N.InDom (fun _ => X 0 j) := fun j j0 j1 a => by rw [all a]; exact hx j j0 j1
  have hwj : ∀ j, 0 ≤ j → j ≤ r 0 → 0 < N.eval (fun _ => X 0 j) 3 := fun j j0 j1 =>
    Nrb.eval_pos hv (hdom j j0 j1) (fun idx h => by
      have e0 : idx = fun _ => idx 0 := by funext a; rw [all a]
      rw [e0]
      exact hw _ (h 0).1 (by have := (h 0).2; omega))
  have hf : ∀ j, 0 ≤ j → j ≤ r 0 → curve (N.n 0) p (N.U 0) F (X 0 j) =
      N.eval (fun _ => X 0 j) 3 * (linComb α φ S T (C (fun _ => j)).1 (C (fun _ => j)).2 - β) := by
    intro j j0 j1
    have ne := (hwj j j0 j1).ne'
    have hC : ∀ c, (C (fun _ => j)).1 c = N.eval (fun _ => X 0 j) c / N.eval (fun _ => X 0 j) 3 ∧
        (C (fun _ => j)).2 c = N.eval (fun _ => X 0 j) (4 + c) / N.eval (fun _ => X 0 j) 3 := by
      intro c
      have := h2 (fun _ => j) (fun a => by rw [all a]; exact ⟨j0, j1⟩) c
      have e0 : (fun a => X a j) = fun _ => X 0 j := by funext a; rw [all a]
      rw [e0] at this
      exact this
    rw [hF]
    unfold linComb
    rw [mul_sub, mul_add, Finset.mul_sum, Finset.mul_sum, mul_comm β]
    congr 1
    congr 1
    · exact Finset.sum_congr rfl fun c _ => by rw [(hC c).1]; field_simp
    · exact Finset.sum_congr rfl fun c _ => by rw [(hC c).2]; field_simp
  have hg : ∀ i, 0 ≤ i → i ≤ N.n 0 → F i = N.P (fun _ => i) 3 * (N.linCombAt α φ S T i - β) := by
    intro i i0 i1
    have ne := (hw i i0 (by omega)).ne'
    unfold Nrb.linCombAt linComb
    simp only [F]
    rw [mul_sub, mul_add, Finset.mul_sum, Finset.mul_sum, mul_comm β]
    congr 1
    congr 1
    · exact Finset.sum_congr rfl fun c _ => by field_simp
    · exact Finset.sum_congr rfl fun c _ => by field_simp
  refine ⟨κ, ?_, ?_⟩
  · intro j j0 j1 hne
    have hpos := hwj j j0 j1
    obtain ⟨a1, a2, a3⟩ := k1 j j0 j1 (by rw [hf j j0 j1]; exact mul_ne_zero hpos.ne' hne)
    refine ⟨a1, a2, ?_⟩
    have hpos' := hw (κ j) a1 (by omega)
    rw [hf j j0 j1, hg _ a1 a2] at a3
    have : 0 < (N.eval (fun _ => X 0 j) 3 * N.P (fun _ => κ j) 3) *
        ((linComb α φ S T (C (fun _ => j)).1 (C (fun _ => j)).2 - β) * (N.linCombAt α φ S T (κ j) - β)) := by
      calc 0 < _ := a3
        _ = _ := by ring
    exact (pos_iff_pos_of_mul_pos this).1 (mul_pos hpos hpos')
  · intro j j' j0 hj j1 hne hne'
    exact k2 j j' j0 hj j1 (by rw [hf j j0 (by omega)]; exact mul_ne_zero (hwj j j0 (by omega)).ne' hne)
      (by rw [hf j' (by omega) j1]; exact mul_ne_zero (hwj j' (by omega) j1).ne' hne')

/-- C66: along increasing parameters, the points of a curve with positive weights cross a plane at most as often as
its control polygon -/
theorem C66_variation (hv : N.Valid) (hr : 0 ≤ r 0)
    (hx : ∀ j, 0 ≤ j → j ≤ r 0 → N.lo 0 ≤ X 0 j ∧ X 0 j ≤ N.hi 0)
    (hinc : ∀ j j', 0 ≤ j → j ≤ j' → j' ≤ r 0 → X 0 j ≤ X 0 j')
    (hw : ∀ i, 0 ≤ i → i < N.shape 0 → 0 < N.P (fun _ => i) 3) :
    ∃ C, N.call jk je r X = .ok C ∧ ∀ (α φ : ℕ → K) (S T : Finset ℕ) (β : K),
      signChanges (seqTo (r 0) fun j => linComb α φ S T (C (fun _ => j)).1 (C (fun _ => j)).2 - β) ≤
        signChanges (seqTo (N.shape 0 - 1) fun i => N.linCombAt α φ S T i - β) := by
  obtain ⟨C, h1, h2⟩ := call_lift jk je hv hr hx hinc hw
  refine ⟨C, h1, fun α φ S T β => ?_⟩
  obtain ⟨κ, k1, k2⟩ := h2 α φ S T β
  exact signChanges_le κ k1 k2

/-- C66: a coordinate, a field or a linear combination of them that does not decrease along the control polygon does
not decrease along the curve -/
theorem C66_monotone (hv : N.Valid) (hr : 0 ≤ r 0)
    (hx : ∀ j, 0 ≤ j → j ≤ r 0 → N.lo 0 ≤ X 0 j ∧ X 0 j ≤ N.hi 0)
    (hinc : ∀ j j', 0 ≤ j → j ≤ j' → j' ≤ r 0 → X 0 j ≤ X 0 j')
    (hw : ∀ i, 0 ≤ i → i < N.shape 0 → 0 < N.P (fun _ => i) 3) :
    ∃ C, N.call jk je r X = .ok C ∧ ∀ (α φ : ℕ → K) (S T : Finset ℕ),
      (∀ i i', 0 ≤ i → i ≤ i' → i' < N.shape 0 → N.linCombAt α φ S T i ≤ N.linCombAt α φ S T i') →
      ∀ j j', 0 ≤ j → j ≤ j' → j' ≤ r 0 →
        linComb α φ S T (C (fun _ => j)).1 (C (fun _ => j)).2 ≤ linComb α φ S T (C (fun _ => j')).1 (C (fun _ => j')).2 := by
  obtain ⟨C, h1, h2⟩ := call_lift jk je hv hr hx hinc hw
  refine ⟨C, h1, fun α φ S T hmono j j' j0 hj j1 => ?_⟩
  rcases hj.eq_or_lt with rfl | hj
  · exact le_rfl
  by_contra hc
  set y := linComb α φ S T (C (fun _ => j)).1 (C (fun _ => j)).2 with hy
  set y' := linComb α φ S T (C (fun _ => j')).1 (C (fun _ => j')).2 with hy'
  have hlt : y' < y := not_le.1 hc
  obtain ⟨κ, k1, k2⟩ := h2 α φ S T ((y + y') / 2)
  have s1 : 0 < y - (y + y') / 2 := by linarith
  have s2 : y' - (y + y') / 2 < 0 := by linarith
  obtain ⟨a1, a2, a3⟩ := k1 j j0 (by omega) s1.ne'
  obtain ⟨b1, b2, b3⟩ := k1 j' (by omega) j1 s2.ne
  have hk := k2 j j' j0 hj j1 s1.ne' s2.ne
  have c1 : 0 < N.linCombAt α φ S T (κ j) - (y + y') / 2 := (pos_iff_pos_of_mul_pos a3).1 s1
  have c2 : N.linCombAt α φ S T (κ j') - (y + y') / 2 < 0 := (neg_iff_neg_of_mul_pos b3).1 s2
  have := hmono (κ j) (κ j') a1 hk (by omega)
  linarith

end

/-! ## Concrete case -/

/-- a rational curve whose `x` grows along the polygon and whose `y` crosses zero three times there -/
def Ex.wave : Nrb ℚ 1 where
  shape := ![6]
  nc := 4
  len := ![9]
  U := ![Ex.U]
  P := fun idx c => vec (match c with
    | 0 => [0, 2, 6, 4, 5, 12]
    | 1 => [-2, 6, 3, -1, -1, 4]
    | 3 => [1, 2, 3, 1, 1, 2]
    | _ => []) (idx 0)

theorem Ex.wave_valid : Ex.wave.Valid := by
  intro a
  fin_cases a
  exact Ex.U_valid

example : signChanges (seqTo 5 fun i => Ex.wave.linCombAt (fun _ => 1) 0 {1} ∅ i - 0) = 3 := by decide +kernel
example : signChanges ([2, 0, 3, 0, -1, -1, 0, 5] : List ℚ) = 2 := by decide +kernel

example (jk : ℤ → ℚ) (je : ℤ → ℕ → ℚ) := C66_variation jk je (N := Ex.wave) (r := fun _ => 4)
  (X := fun _ => vec [0, 1 / 2, 2, 2, 3]) Ex.wave_valid (by norm_num)
  (fun j h1 h2 => by
    have h2 : j ≤ 4 := h2
    interval_cases j <;> decide +kernel)
  (fun j j' h1 h2 h3 => by
    have h3 : j' ≤ 4 := h3
    have h4 : 0 ≤ j' := h1.trans h2
    interval_cases j' <;> interval_cases j <;> decide +kernel)
  (fun i h1 h2 => by
    have h2 : i < 6 := h2
    interval_cases i <;> decide +kernel)

/-- the growing coordinate of the polygon -/
example : ∀ i i', 0 ≤ i → i ≤ i' → i' < Ex.wave.shape 0 →
    Ex.wave.linCombAt (fun _ => 1) 0 {0} ∅ i ≤ Ex.wave.linCombAt (fun _ => 1) 0 {0} ∅ i' := by
  intro i i' h1 h2 h3
  have h3 : i' < 6 := h3
  have h4 : 0 ≤ i' := h1.trans h2
  interval_cases i' <;> interval_cases i <;> decide +kernel

end Igakit
