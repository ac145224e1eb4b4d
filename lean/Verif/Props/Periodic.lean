import Verif.Proofs.Periodic
import Verif.Proofs.Data

/-! # C59: unclamping objects that close smoothly -/

set_option linter.unusedSectionVars false

namespace Igakit
open Spec

variable {K : Type} [Field K] [LinearOrder K] [IsStrictOrderedRing K] {d : ℕ}

/-- slice `i` of the control net along axis `a`, as an object on the knots of the other axes -/
def Nrb.cross (N : Nrb K (d + 1)) (a : Fin (d + 1)) (i : ℤ) : Nrb K d where
  shape := a.removeNth N.shape
  nc := N.nc
  len := a.removeNth N.len
  U := a.removeNth N.U
  P := N.row a i

theorem eval_cross (N : Nrb K (d + 1)) (a : Fin (d + 1)) (x : Fin (d + 1) → K) (c : ℕ) :
    N.eval x c = curve (N.n a) (N.degree a).toNat (N.U a) (fun i => (N.cross a i).eval (a.removeNth x) c) (x a) := by
  rw [N.eval_split a, tensor_apply]
  unfold curve
  simp only [smul_eq_mul]
  have : (fun idx => (∑ i ∈ Finset.Icc 0 (N.n a), bsplineD (N.n a) (N.U a) (N.degree a).toNat i (x a) • N.row a i) idx c) =
      fun idx => ∑ i ∈ Finset.Icc 0 (N.n a), bsplineD (N.n a) (N.U a) (N.degree a).toNat i (x a) * N.row a i idx c := by
    funext idx
    rw [Finset.sum_apply, Finset.sum_apply]
    rfl
  rw [this, tensor_sum _ _ (fun i idx => N.row a i idx c)]
  refine Finset.sum_congr rfl fun i _ => ?_
  unfold Nrb.eval
  rw [tensor_apply]
  rfl

theorem eval_update (N : Nrb K (d + 1)) (a : Fin (d + 1)) (x : Fin (d + 1) → K) (c : ℕ) :
    (fun u => N.eval (Function.update x a u) c) =
      curve (N.n a) (N.degree a).toNat (N.U a) (fun i => (N.cross a i).eval (a.removeNth x) c) := by
  funext u
  rw [eval_cross N a, Function.update_self]
  congr 1
  funext i
  congr 1
  funext b
  exact Function.update_of_ne (Fin.succAbove_ne a b) _ _

/-- the knots of axis `a` repeat with the period of the domain, the ends have multiplicity `degree - C` -/
def Nrb.Periodic (N : Nrb K d) (a : Fin d) (C : ℕ) : Prop :=
  (C : ℤ) < N.degree a ∧ (∀ j : ℤ, C < j → j ≤ N.degree a → N.U a j = N.lo a) ∧
    ∀ j : ℤ, 0 ≤ j → j ≤ N.degree a + 1 + C → N.U a (N.shape a - 1 - C + j) = N.U a j + (N.hi a - N.lo a)

theorem periodicKnots_of {N : Nrb K d} {a : Fin d} {C p : ℕ} (hp : N.degree a = p) (h : N.Periodic a C) :
    PeriodicKnots (N.n a) p C (N.U a) := by
  obtain ⟨h1, h2, h3⟩ := h
  rw [N.lo_eq] at h2 h3
  rw [N.hi_eq] at h3
  rw [hp] at h1 h2 h3
  exact ⟨by omega, h2, h3⟩

/-- C59: on periodic knots, an object that closes to order `C` has equal first and last control points -/
theorem C59_wraps {N : Nrb K (d + 1)} (hv : N.Valid) {a : Fin (d + 1)} {C : ℕ} (hper : N.Periodic a C)
    (hm : ∀ b, b ≠ a → ∀ x, N.lo b < x → x < N.hi b → (N.multOf b x : ℤ) ≤ N.degree b + 1) (h : N.Closes a C) :
    N.Wraps a C := by
  intro idx hi hia
  obtain ⟨p, hp, hk, e⟩ := deg_nat hv a
  have hpn : (N.degree a).toNat = p := by omega
  have hK := periodicKnots_of hp hper
  obtain ⟨i, hi0⟩ := Int.eq_ofNat_of_zero_le (hi a).1
  have hiC : i ≤ C := by omega
  have hCp := hK.lt
  have hle := hk.le
  have hcv : ∀ j, (N.cross a j).Valid := fun j b => hv (a.succAbove b)
  have hlo : ∀ j b, (N.cross a j).lo b = N.lo (a.succAbove b) := fun j b => rfl
  have hhi : ∀ j b, (N.cross a j).hi b = N.hi (a.succAbove b) := fun j b => rfl
  funext c
  have key := net_unique (N := N.cross a i) (M := N.cross a (N.n a - C + i)) (hcv _)
    (fun b x h1 h2 => hm _ (Fin.succAbove_ne a b) x h1 h2) ⟨rfl, rfl, fun _ _ _ _ => rfl⟩ (c := c) (fun y hy => by
      have hlt : N.lo a ≤ N.hi a := by
        rw [N.lo_eq, N.hi_eq, hp]
        exact hk.sorted p _ (by omega) (by omega) (by omega)
      have hx : N.InDom (a.insertNth (N.lo a) y) := by
        intro b
        rcases eq_or_ne b a with rfl | hb
        · rw [Fin.insertNth_apply_same]; exact ⟨le_rfl, hlt⟩
        · obtain ⟨b, rfl⟩ := Fin.exists_succAbove_eq hb
          rw [Fin.insertNth_apply_succAbove]
          exact hy b
      have := h _ hx c
      rw [eval_update, Fin.removeNth_insertNth, N.lo_eq, N.hi_eq, hp, Int.toNat_natCast] at this
      exact (curve_wraps hk hK this hiC).symm)
    (idx := a.removeNth idx) (fun b => hi (a.succAbove b))
  have e1 : (N.cross a i).P (a.removeNth idx) = N.P idx := by
    show N.P (a.insertNth (i : ℤ) (a.removeNth idx)) = _
    congr 1
    rw [show (i : ℤ) = idx a by omega, Fin.insertNth_self_removeNth]
  have e2 : (N.cross a (N.n a - C + i)).P (a.removeNth idx) = N.P (Function.update idx a (N.shape a - 1 - C + idx a)) := by
    show N.P (a.insertNth (N.n a - C + i) (a.removeNth idx)) = _
    congr 1
    rw [Fin.insertNth_removeNth]
    congr 1
    unfold Nrb.n
    omega
  rw [e1, e2] at key
  exact key.symm

/-- C59: and an object whose first control points are the last ones closes to order `C` -/
theorem C59_closes {N : Nrb K (d + 1)} (hv : N.Valid) {a : Fin (d + 1)} {C : ℕ} (hper : N.Periodic a C) (h : N.Wraps a C) :
    N.Closes a C := by
  intro x hx c
  obtain ⟨p, hp, hk, e⟩ := deg_nat hv a
  have hK := periodicKnots_of hp hper
  have hCp := hK.lt
  have hle := hk.le
  rw [eval_update, N.lo_eq, N.hi_eq, hp, Int.toNat_natCast]
  refine curve_closes hk hK fun i hi => ?_
  unfold Nrb.eval
  rw [tensor_apply, tensor_apply]
  unfold tensor
  refine Finset.sum_congr rfl fun o ho => ?_
  congr 1
  have hmem := fun b => Finset.mem_Icc.1 (Fintype.mem_piFinset.1 ho b)
  have := h (a.insertNth (i : ℤ) o) (fun b => by
    rcases eq_or_ne b a with rfl | hb
    · rw [Fin.insertNth_apply_same]
      unfold Nrb.n at hle
      omega
    · obtain ⟨b, rfl⟩ := Fin.exists_succAbove_eq hb
      rw [Fin.insertNth_apply_succAbove]
      have h1 := hmem b
      have h2 : (N.cross a (N.n a - C + i)).n b = N.shape (a.succAbove b) - 1 := rfl
      have h3 : (N.cross a (i : ℤ)).n b = N.shape (a.succAbove b) - 1 := rfl
      omega) (by rw [Fin.insertNth_apply_same]; omega)
  show N.P (a.insertNth (i : ℤ) o) c = N.P (a.insertNth (N.n a - C + i) o) c
  rw [this, Fin.insertNth_apply_same, Fin.update_insertNth]
  rfl

/-- C59: unclamp an object, clamped or not, that closes to order `C` with `continuity=C` on both sides (by default
`C = degree - 1`): the map is unchanged, the knots are periodic, and the first `C + 1` slices of control points, weights
and fields are the last ones. -/
theorem C59_unclamp {eps : K} (heps : 0 < eps) (je : ℤ → (Fin d → ℤ) → ℕ → K) {N : Nrb K (d + 1)} (hv : N.Valid) {axis : ℤ}
    {a : Fin (d + 1)} (ha : normAxis (d + 1) axis = .ok a) {cont : Option ℤ} {C : ℕ}
    (hC : cont.getD (N.degree a - 1) = C) (hCp : (C : ℤ) < N.degree a) (hsep : N.SepBoth eps a)
    (hm : ∀ b, b ≠ a → ∀ x, N.lo b < x → x < N.hi b → (N.multOf b x : ℤ) ≤ N.degree b + 1) (h : N.Closes a C) :
    ∃ N', N.unclamp eps je axis none cont = .ok N' ∧ N.SameMap N' ∧ N'.Periodic a C ∧ N'.Wraps a C := by
  obtain ⟨p, hp, hk, e⟩ := deg_nat hv a
  have hle := hk.le
  obtain ⟨N', h1, h2, h3, h4, h5, h6, h7, h8⟩ := C14_unclamp heps je hv ha (side := none) (Or.inl rfl) (cont := cont)
    (fun c hc => by
      have : cont = some c := hc
      rw [this] at hC
      have hC : c = C := hC
      omega) hsep
  obtain ⟨h6, h6'⟩ := h6 (Or.inl rfl)
  obtain ⟨h7, h7'⟩ := h7 (Or.inl rfl)
  rw [hC] at h6 h6' h7 h7'
  have hs : N'.shape a = N.shape a := by rw [h4]
  have hl : N'.len a = N.len a := len_of_degree (h3.degree a) hs
  have hlen : N.len a = N.shape a + p + 1 := by
    have := N.len_eq a
    rw [hp] at this
    unfold Nrb.n at this
    omega
  have hn : N.n a = N.shape a - 1 := rfl
  have hper : N'.Periodic a C := by
    refine ⟨by rw [h3.degree]; exact hCp, fun j j1 j2 => ?_, fun j j1 j2 => ?_⟩
    · rw [h3.lo]
      rw [h3.degree] at j2
      exact h6 j j1 j2
    · rw [h3.degree, hp] at j2
      rw [hp] at h6 hCp
      rw [h3.lo, h3.hi, hs]
      rcases le_or_gt j C with hj | hj
      · have := h6' (C - j) (by omega) (by omega)
        rw [show (C : ℤ) - (C - j) = j by ring, show N.n a - (C - j) = N.shape a - 1 - C + j by rw [hn]; ring] at this
        rw [this]; ring
      · rcases le_or_gt j p with hjp | hjp
        · rw [h6 j hj hjp, h7 _ (by omega) (by omega)]; ring
        · have := h7' (j - (p + 1)) (by omega) (by omega)
          rw [hp, hlen, show (p : ℤ) + 1 + (j - (p + 1)) = j by ring,
            show N.shape a + p + 1 - 1 - C + (j - (p + 1)) = N.shape a - 1 - C + j by ring] at this
          exact this
  refine ⟨N', h1, h3, hper, C59_wraps h2 hper (fun b hb x x1 x2 => ?_) (fun x hx c => ?_)⟩
  · have hlb : N'.len b = N.len b := len_of_degree (h3.degree b) (by rw [h4])
    unfold Nrb.multOf
    rw [h3.degree, hlb, h8 b hb]
    exact hm b hb x (by rw [← h3.lo]; exact x1) (by rw [← h3.hi]; exact x2)
  · have hx' : N.InDom x := fun b => by rw [← h3.lo, ← h3.hi]; exact hx b
    obtain ⟨A, B, δ, q1, q2, q3, q4⟩ := h x hx' c
    rw [h3.lo, h3.hi]
    have hup : ∀ u, N.lo a ≤ u → u ≤ N.hi a → N.InDom (Function.update x a u) := by
      intro u u1 u2 b
      rcases eq_or_ne b a with rfl | hb
      · rw [Function.update_self]; exact ⟨u1, u2⟩
      · rw [Function.update_of_ne hb]; exact hx' b
    refine ⟨A, B, δ, q1, fun u u1 u2 u3 => ?_, fun u u1 u2 u3 => ?_, q4⟩
    · dsimp only; rw [h3.eval _ (hup u u1 u3)]; exact q2 u u1 u2 u3
    · dsimp only; rw [h3.eval _ (hup u u3 u2)]; exact q3 u u1 u2 u3

/-! ## example -/

namespace Ex

/-- a tube: axis 0 runs around it (degree 2, three spans, period 3), axis 1 is unclamped -/
def tube : Nrb ℚ 2 where
  shape := ![5, 3]
  nc := 5
  len := ![8, 6]
  U := ![vec [-2, -1, 0, 1, 2, 3, 4, 5], Ex.W]
  P := fun idx c => (c + 1) * ((idx 0 % 3 : ℤ) : ℚ) ^ 2 - 3 * ((idx 0 % 3 : ℤ) : ℚ) + idx 1 * (((idx 0 % 3 : ℤ) : ℚ) + 1) + c

theorem tube_valid : tube.Valid := by
  intro a
  fin_cases a
  · refine ⟨by decide, by decide, sortedOn_of_steps ?_, by decide +kernel, by decide +kernel⟩
    intro i h1 h2
    have h2 : i < 7 := by simpa [tube, Nrb.n, Nrb.degree] using h2
    interval_cases i <;> decide +kernel
  · exact Ex.W_valid

theorem tube_periodic : tube.Periodic 0 1 := by
  refine ⟨by decide, fun j h1 h2 => ?_, fun j h1 h2 => ?_⟩
  · have h2 : j ≤ 2 := h2
    obtain rfl : j = 2 := by omega
    decide +kernel
  · have h2 : j ≤ 4 := h2
    interval_cases j <;> decide +kernel

theorem tube_wraps : tube.Wraps 0 1 := by
  intro idx hi h
  funext c
  have h0 := (hi 0).1
  have h : idx 0 ≤ 1 := by exact_mod_cast h
  have e : Function.update idx 0 (tube.shape 0 - 1 - ((1 : ℕ) : ℤ) + idx 0) 0 % 3 = idx 0 % 3 := by
    rw [Function.update_self]
    have : tube.shape 0 = 5 := rfl
    rw [this]
    push_cast
    omega
  have e' : Function.update idx 0 (tube.shape 0 - 1 - ((1 : ℕ) : ℤ) + idx 0) 1 = idx 1 :=
    Function.update_of_ne (by decide) _ _
  simp only [tube]
  simp only [tube] at e e'
  rw [e', e]

theorem tube_sep : tube.SepBoth (1 / 1000) 0 :=
  ⟨sepFrom_of_list (l := [-2, -1, 0, 1, 2, 3, 4, 5]) (by decide) (by decide +kernel),
    sepFrom_of_list (l := [-2, -1, 0, 1, 2, 3, 4, 5]) (by decide) (by decide +kernel)⟩

/-- the tube closes; clamped and unclamped again it has repeated control points (it is not constant) -/
example : ∃ N1 N2, tube.clamp (1 / 1000) (fun _ _ _ => 9) 0 none = .ok N1 ∧
    N1.unclamp (1 / 1000) (fun _ _ _ => 8) (-2) none none = .ok N2 ∧ N2.Wraps 0 1 ∧
    tube.eval ![0, 0] 0 ≠ tube.eval ![1, 0] 0 := by
  obtain ⟨N1, h1, h2, h3, h4, h5, h6, h7, h8⟩ := C13_clamp (eps := 1 / 1000) (by norm_num) (fun _ _ _ => 9) tube_valid (axis := 0)
    (a := 0) rfl (side := none) (Or.inl rfl) tube_sep
  have hlen : N1.len = tube.len := funext fun b => len_of_degree (h3.degree b) (by rw [h4])
  have hd : N1.degree 0 = 2 := h3.degree 0
  have hcl : N1.Closes 0 1 := by
    intro x hx c
    have hx' : tube.InDom x := fun b => by rw [← h3.lo, ← h3.hi]; exact hx b
    obtain ⟨A, B, δ, q1, q2, q3, q4⟩ := C59_closes tube_valid tube_periodic tube_wraps x hx' c
    rw [h3.lo, h3.hi]
    have hup : ∀ u, tube.lo 0 ≤ u → u ≤ tube.hi 0 → tube.InDom (Function.update x 0 u) := by
      intro u u1 u2 b
      rcases eq_or_ne b 0 with rfl | hb
      · rw [Function.update_self]; exact ⟨u1, u2⟩
      · rw [Function.update_of_ne hb]; exact hx' b
    refine ⟨A, B, δ, q1, fun u u1 u2 u3 => ?_, fun u u1 u2 u3 => ?_, q4⟩
    · dsimp only; rw [h3.eval _ (hup u u1 u3)]; exact q2 u u1 u2 u3
    · dsimp only; rw [h3.eval _ (hup u u3 u2)]; exact q3 u u1 u2 u3
  have hU : ∀ j, 0 ≤ j → j ≤ 7 → N1.U 0 j = vec [0, 0, 0, 1, 2, 3, 3, 3] j := by
    intro j j0 j7
    rcases le_or_gt j 2 with hj | hj
    · rw [h5 (Or.inl rfl) j j0 hj]
      interval_cases j <;> decide +kernel
    · rcases le_or_gt 5 j with hj' | hj'
      · rw [h6 (Or.inl rfl) j hj' (by show j < 8; omega)]
        interval_cases j <;> decide +kernel
      · rw [h7 j (Or.inr hj.le) (Or.inr hj'.le)]
        interval_cases j <;> decide +kernel
  have hsep : N1.SepBoth (1 / 1000) 0 := by
    have : ∀ u, (∀ x ∈ ([0, 0, 0, 1, 2, 3, 3, 3] : List ℚ), x = u ∨ 1 / 1000 ≤ |u - x|) → N1.Sep (1 / 1000) 0 u := by
      intro u hu j j0 j1
      have hl0 : N1.len 0 = 8 := by rw [hlen]; rfl
      rw [hU j j0 (by omega)]
      exact sepFrom_of_list (l := [0, 0, 0, 1, 2, 3, 3, 3]) (m := 7) (by decide) hu j j0 (by omega)
    refine ⟨this _ ?_, this _ ?_⟩
    · rw [h3.lo]; decide +kernel
    · rw [h3.hi]; decide +kernel
  obtain ⟨N2, g1, g2, g3, g4⟩ := C59_unclamp (eps := 1 / 1000) (by norm_num) (fun _ _ _ => 8) h2 (axis := -2) (a := 0) rfl (cont := none)
    (C := 1) (by rw [hd]; rfl) (by rw [hd]; decide) hsep (fun b hb x x1 x2 => by
      obtain rfl : b = 1 := by fin_cases b <;> simp_all
      rw [h3.degree]
      rw [h3.lo] at x1
      rw [h3.hi] at x2
      unfold Nrb.multOf
      rw [hlen, h8 1 (by decide)]
      have : mult Ex.W 0 5 x ≤ 3 := by
        unfold mult
        have hsub : (Finset.Icc (0 : ℤ) 5).filter (fun i => Ex.W i = x) ⊆ ∅ := by
          intro j hj
          have hj := Finset.mem_filter.1 hj
          have hj1 := Finset.mem_Icc.1 hj.1
          have x1 : (0 : ℚ) < x := x1
          have x2 : x < (1 : ℚ) := x2
          rw [← hj.2] at x1 x2
          obtain ⟨j0, j5⟩ := hj1
          interval_cases j <;> revert x1 x2 <;> decide +kernel
        rw [Finset.subset_empty.1 hsub]
        decide
      show ((mult Ex.W 0 5 x : ℕ) : ℤ) ≤ 3
      exact_mod_cast this) hcl
  exact ⟨N1, N2, h1, g1, g4, by decide +kernel⟩

end Ex

end Igakit
