import Verif.Proofs.Support
import Verif.Spec.Local
import Verif.Props.Nurbs
import Verif.Proofs.Data

/-! # C62: local control -/

set_option linter.unusedSectionVars false

namespace Igakit
open Spec

variable {K : Type} [Field K] [LinearOrder K] [IsStrictOrderedRing K] {d : ℕ}

theorem changedAt_eval {N M : Nrb K d} (hv : N.Valid) {i : Fin d → ℤ} (h : N.ChangedAt M i) (x : Fin d → K) (c : ℕ) :
    M.eval x c = N.eval x c + N.wt x i * (M.P i c - N.P i c) := by
  have hmem : i ∈ Fintype.piFinset (fun a => Finset.Icc 0 (N.n a)) :=
    Fintype.mem_piFinset.2 fun a => Finset.mem_Icc.2 ⟨(h.inNet a).1, by have := (h.inNet a).2; unfold Nrb.n; omega⟩
  have hM : M.eval x c = ∑ idx ∈ Fintype.piFinset (fun a => Finset.Icc 0 (N.n a)), N.wt x idx * M.P idx c := by
    rw [h.knots.eval_eq hv, tensor_apply]
    rfl
  rw [hM, Nrb.eval_apply, ← Finset.add_sum_erase _ _ hmem,
    ← Finset.add_sum_erase (Fintype.piFinset _) (fun idx => N.wt x idx * N.P idx c) hmem]
  have : ∑ idx ∈ (Fintype.piFinset (fun a => Finset.Icc 0 (N.n a))).erase i, N.wt x idx * M.P idx c =
      ∑ idx ∈ (Fintype.piFinset (fun a => Finset.Icc 0 (N.n a))).erase i, N.wt x idx * N.P idx c := by
    refine Finset.sum_congr rfl fun idx hidx => ?_
    obtain ⟨h1, h2⟩ := Finset.mem_erase.1 hidx
    rw [h.net idx (fun a => ?_) h1]
    have := Finset.mem_Icc.1 (Fintype.mem_piFinset.1 h2 a)
    unfold Nrb.n at this
    omega
  rw [this]
  ring

theorem wt_zero {N : Nrb K d} (hv : N.Valid) {i : Fin d → ℤ} (hi : N.InNet i) {x : Fin d → K} (hx : N.InDom x)
    (ho : ¬ N.Supp i x) : N.wt x i = 0 := by
  unfold Nrb.Supp at ho
  push Not at ho
  obtain ⟨a, ha⟩ := ho
  refine Finset.prod_eq_zero (Finset.mem_univ a) ?_
  obtain ⟨p, hp, hk, e⟩ := deg_nat hv a
  have e2 : N.n a = N.shape a - 1 := rfl
  rw [hp] at ha ⊢
  rw [Int.toNat_natCast]
  refine bsplineD_support hk (by rw [← hp]; exact (hx a).1) (by rw [← N.hi_eq]; exact (hx a).2) (hi a).1
    (by have := (hi a).2; omega) ?_
  rcases lt_or_ge (x a) (N.U a (i a)) with h | h
  · exact Or.inl h
  · exact Or.inr (ha h)

theorem wt_pos {N : Nrb K d} (hv : N.Valid) {i : Fin d → ℤ} (hi : N.InNet i) {x : Fin d → K} (hx : N.InDom x)
    (h : N.SuppInt i x) : 0 < N.wt x i := by
  refine Finset.prod_pos fun a _ => ?_
  obtain ⟨p, hp, hk, e⟩ := deg_nat hv a
  have e2 : N.n a = N.shape a - 1 := rfl
  have ha := h a
  rw [hp] at ha ⊢
  rw [Int.toNat_natCast]
  exact bsplineD_pos hk (by rw [← hp]; exact (hx a).1) (by rw [← N.hi_eq]; exact (hx a).2) (hi a).1
    (by have := (hi a).2; omega) ha.1 ha.2

section
variable (jk : ℤ → K) (je : ℤ → ℕ → K) {N M : Nrb K d} {i : Fin d → ℤ} {r : Fin d → ℤ} {X : Fin d → ℤ → K}

theorem call_both (hd : d ≤ 3) (hv : N.Valid) (h : N.ChangedAt M i) (hr : ∀ a, 0 ≤ r a)
    (hx : ∀ a j, 0 ≤ j → j ≤ r a → N.lo a ≤ X a j ∧ X a j ≤ N.hi a) :
    ∃ C C', N.call jk je r X = .ok C ∧ M.call jk je r X = .ok C' ∧
      ∀ j : Fin d → ℤ, (∀ a, 0 ≤ j a ∧ j a ≤ r a) → N.InDom (fun a => X a (j a)) ∧ ∀ c,
        (C j).1 c = N.proj (fun a => X a (j a)) c ∧ (C j).2 c = N.proj (fun a => X a (j a)) (4 + c) ∧
        (C' j).1 c = M.proj (fun a => X a (j a)) c ∧ (C' j).2 c = M.proj (fun a => X a (j a)) (4 + c) := by
  obtain ⟨C, h1, h2⟩ := C05_call jk je hd hv hr hx
  obtain ⟨C', h1', h2'⟩ := C05_call jk je hd (h.knots.valid hv) hr (X := X) (fun a j j0 j1 => by
    rw [h.knots.lo hv, h.knots.hi hv]; exact hx a j j0 j1)
  exact ⟨C, C', h1, h1', fun j hj => ⟨fun a => hx a _ (hj a).1 (hj a).2, fun c =>
    ⟨(h2 j hj c).1, (h2 j hj c).2, (h2' j hj c).1, (h2' j hj c).2⟩⟩⟩

/-- C62: a change of the control point, weight and fields with index `i` changes the result of a call only at
parameters between the knots `i` and `i + degree + 1` -/
theorem C62_outside (hd : d ≤ 3) (hv : N.Valid) (h : N.ChangedAt M i) (hr : ∀ a, 0 ≤ r a)
    (hx : ∀ a j, 0 ≤ j → j ≤ r a → N.lo a ≤ X a j ∧ X a j ≤ N.hi a) :
    ∃ C C', N.call jk je r X = .ok C ∧ M.call jk je r X = .ok C' ∧
      ∀ j : Fin d → ℤ, (∀ a, 0 ≤ j a ∧ j a ≤ r a) → ¬ N.Supp i (fun a => X a (j a)) →
        ∀ c, (C' j).1 c = (C j).1 c ∧ (C' j).2 c = (C j).2 c := by
  obtain ⟨C, C', h1, h2, h3⟩ := call_both jk je hd hv h hr hx
  refine ⟨C, C', h1, h2, fun j hj ho c => ?_⟩
  obtain ⟨hdom, h3⟩ := h3 j hj
  have e : ∀ c, M.proj (fun a => X a (j a)) c = N.proj (fun a => X a (j a)) c := by
    intro c
    unfold Nrb.proj
    rw [changedAt_eval hv h, changedAt_eval hv h, wt_zero hv h.inNet hdom ho, zero_mul, add_zero, zero_mul, add_zero]
  rw [(h3 c).1, (h3 c).2.1, (h3 c).2.2.1, (h3 c).2.2.2, e, e]
  exact ⟨rfl, rfl⟩

/-- C62: moving a control point (and its fields) by `v`, with its weight unchanged, moves every evaluated point by a
multiple of `v`; the factor lies between 0 and 1, it is the same for all coordinates and fields, positive inside the
box of the knots `i`, `i + degree + 1`, and zero outside -/
theorem C62_move (hd : d ≤ 3) (hv : N.Valid) (h : N.ChangedAt M i) (hr : ∀ a, 0 ≤ r a)
    (hx : ∀ a j, 0 ≤ j → j ≤ r a → N.lo a ≤ X a j ∧ X a j ≤ N.hi a)
    (hw : ∀ idx, N.InNet idx → 0 < N.P idx 3) {v : ℕ → K} (hv3 : v 3 = 0) (hM : ∀ c, M.P i c = N.P i c + N.P i 3 * v c) :
    ∃ C C', N.call jk je r X = .ok C ∧ M.call jk je r X = .ok C' ∧
      ∀ j : Fin d → ℤ, (∀ a, 0 ≤ j a ∧ j a ≤ r a) → ∃ R : K, 0 ≤ R ∧ R ≤ 1 ∧
        (N.SuppInt i (fun a => X a (j a)) → 0 < R) ∧ (¬ N.Supp i (fun a => X a (j a)) → R = 0) ∧
        ∀ c, (C' j).1 c = (C j).1 c + R * v c ∧ (C' j).2 c = (C j).2 c + R * v (4 + c) := by
  obtain ⟨C, C', h1, h2, h3⟩ := call_both jk je hd hv h hr hx
  refine ⟨C, C', h1, h2, fun j hj => ?_⟩
  obtain ⟨hdom, h3⟩ := h3 j hj
  set x : Fin d → K := fun a => X a (j a) with hxd
  have hbox : ∀ idx : Fin d → ℤ, (∀ a, 0 ≤ idx a ∧ idx a ≤ N.n a) → N.InNet idx := fun idx hi a => by
    have := hi a
    unfold Nrb.n at this
    omega
  have hnet : ∀ a, 0 ≤ i a ∧ i a ≤ N.n a := fun a => by
    have := h.inNet a
    unfold Nrb.n
    omega
  have hW : 0 < N.eval x 3 := Nrb.eval_pos hv hdom (fun idx hi => hw idx (hbox idx hi))
  have h0 := Nrb.wt_nonneg hv hdom hnet
  have hwi := hw i h.inNet
  have hle : N.wt x i * N.P i 3 ≤ N.eval x 3 := by
    rw [Nrb.eval_apply]
    refine Finset.single_le_sum (f := fun idx => N.wt x idx * N.P idx 3) (fun idx hidx => ?_)
      (Fintype.mem_piFinset.2 fun a => Finset.mem_Icc.2 (hnet a))
    have hb := fun a => Finset.mem_Icc.1 (Fintype.mem_piFinset.1 hidx a)
    exact mul_nonneg (Nrb.wt_nonneg hv hdom hb) (hw idx (hbox idx hb)).le
  refine ⟨N.wt x i * N.P i 3 / N.eval x 3, div_nonneg (mul_nonneg h0 hwi.le) hW.le, (div_le_one hW).2 hle,
    fun hs => div_pos (mul_pos (wt_pos hv h.inNet hdom hs) hwi) hW,
    fun ho => by rw [wt_zero hv h.inNet hdom ho, zero_mul, zero_div], fun c => ?_⟩
  have e : ∀ c, M.proj x c = N.proj x c + N.wt x i * N.P i 3 / N.eval x 3 * v c := by
    intro c
    unfold Nrb.proj
    rw [changedAt_eval hv h, changedAt_eval hv h, hM, hM, hv3]
    rw [mul_zero, add_zero, sub_self, mul_zero, add_zero]
    field_simp
    ring
  rw [(h3 c).1, (h3 c).2.1, (h3 c).2.2.1, (h3 c).2.2.2, e, e]
  exact ⟨rfl, rfl⟩

/-- C62: multiplying a weight by `μ` (with the control point and its fields in place) moves every evaluated point along
the line to this control point: towards it for `μ > 1`, away from it for `μ < 1` -/
theorem C62_weight (hd : d ≤ 3) (hv : N.Valid) (h : N.ChangedAt M i) (hr : ∀ a, 0 ≤ r a)
    (hx : ∀ a j, 0 ≤ j → j ≤ r a → N.lo a ≤ X a j ∧ X a j ≤ N.hi a)
    (hw : ∀ idx, N.InNet idx → 0 < N.P idx 3) {μ : K} (hμ : 0 < μ) (hM : ∀ c, M.P i c = μ * N.P i c) :
    ∃ C C', N.call jk je r X = .ok C ∧ M.call jk je r X = .ok C' ∧
      ∀ j : Fin d → ℤ, (∀ a, 0 ≤ j a ∧ j a ≤ r a) → ∃ τ : K, τ < 1 ∧ (1 ≤ μ → 0 ≤ τ) ∧ (μ ≤ 1 → τ ≤ 0) ∧
        (N.SuppInt i (fun a => X a (j a)) → (1 < μ → 0 < τ) ∧ (μ < 1 → τ < 0)) ∧
        (¬ N.Supp i (fun a => X a (j a)) → τ = 0) ∧
        ∀ c, (C' j).1 c = (1 - τ) * (C j).1 c + τ * (N.P i c / N.P i 3) ∧
          (C' j).2 c = (1 - τ) * (C j).2 c + τ * (N.P i (4 + c) / N.P i 3) := by
  obtain ⟨C, C', h1, h2, h3⟩ := call_both jk je hd hv h hr hx
  refine ⟨C, C', h1, h2, fun j hj => ?_⟩
  obtain ⟨hdom, h3⟩ := h3 j hj
  set x : Fin d → K := fun a => X a (j a) with hxd
  have hbox : ∀ idx : Fin d → ℤ, (∀ a, 0 ≤ idx a ∧ idx a ≤ N.n a) → N.InNet idx := fun idx hi a => by
    have := hi a
    unfold Nrb.n at this
    omega
  have hnet : ∀ a, 0 ≤ i a ∧ i a ≤ N.n a := fun a => by
    have := h.inNet a
    unfold Nrb.n
    omega
  have hW : 0 < N.eval x 3 := Nrb.eval_pos hv hdom (fun idx hi => hw idx (hbox idx hi))
  have hdomM : M.InDom x := (h.knots.inDom hv).2 hdom
  have hW' : 0 < M.eval x 3 := Nrb.eval_pos (h.knots.valid hv) hdomM (fun idx hi => by
    have hi' : N.InNet idx := hbox idx fun a => by rw [← h.knots.n]; exact hi a
    rcases eq_or_ne idx i with rfl | hne
    · rw [hM]; exact mul_pos hμ (hw _ hi')
    · rw [h.net idx hi' hne]; exact hw _ hi')
  have h0 := Nrb.wt_nonneg hv hdom hnet
  have hwi := hw i h.inNet
  have eW : M.eval x 3 = N.eval x 3 + N.wt x i * ((μ - 1) * N.P i 3) := by
    rw [changedAt_eval hv h, hM]; ring
  have h00 := mul_nonneg h0 hwi.le
  refine ⟨N.wt x i * ((μ - 1) * N.P i 3) / M.eval x 3, ?_, fun hh => ?_, fun hh => ?_, fun hs => ⟨fun hh => ?_, fun hh => ?_⟩,
    fun ho => ?_, fun c => ?_⟩
  · rw [div_lt_one hW', eW]
    linarith
  · exact div_nonneg (mul_nonneg h0 (mul_nonneg (by linarith) hwi.le)) hW'.le
  · refine div_nonpos_of_nonpos_of_nonneg ?_ hW'.le
    nlinarith
  · exact div_pos (mul_pos (wt_pos hv h.inNet hdom hs) (mul_pos (by linarith) hwi)) hW'
  · refine div_neg_of_neg_of_pos ?_ hW'
    exact mul_neg_of_pos_of_neg (wt_pos hv h.inNet hdom hs) (mul_neg_of_neg_of_pos (by linarith) hwi)
  · rw [wt_zero hv h.inNet hdom ho, zero_mul, zero_div]
  · have e : ∀ c, M.proj x c = (1 - N.wt x i * ((μ - 1) * N.P i 3) / M.eval x 3) * N.proj x c +
        N.wt x i * ((μ - 1) * N.P i 3) / M.eval x 3 * (N.P i c / N.P i 3) := by
      intro c
      unfold Nrb.proj
      have eT : 1 - N.wt x i * ((μ - 1) * N.P i 3) / M.eval x 3 = N.eval x 3 / M.eval x 3 := by
        field_simp
        rw [eW]; ring
      rw [eT, changedAt_eval hv h, hM]
      field_simp
    rw [(h3 c).1, (h3 c).2.1, (h3 c).2.2.1, (h3 c).2.2.2, e, e]
    exact ⟨rfl, rfl⟩

end

namespace Ex

/-- `S` with the weighted coordinates of the control point `(3, 1)` moved by `2 · (5, 0, -1, 0, 4)` -/
def Smoved : Nrb ℚ 2 := { S with P := fun idx c => if idx = ![3, 1] then S.P idx c + 2 * vec [5, 0, -1, 0, 4] c else S.P idx c }

/-- `S` with the weight of the control point `(3, 1)` tripled, the point in place -/
def Sheavy : Nrb ℚ 2 := { S with P := fun idx c => if idx = ![3, 1] then 3 * S.P idx c else S.P idx c }

theorem S_31 : S.InNet ![3, 1] := by
  intro a; fin_cases a <;> decide

theorem Smoved_changed : S.ChangedAt Smoved ![3, 1] :=
  ⟨⟨rfl, rfl, fun _ _ _ _ => rfl⟩, S_31, fun idx _ hne => by funext c; simp [Smoved, hne]⟩

theorem Sheavy_changed : S.ChangedAt Sheavy ![3, 1] :=
  ⟨⟨rfl, rfl, fun _ _ _ _ => rfl⟩, S_31, fun idx _ hne => by funext c; simp [Sheavy, hne]⟩

theorem S_grid : ∀ a j, 0 ≤ j → j ≤ (![0, 1] : Fin 2 → ℤ) a →
    S.lo a ≤ (![vec [3 / 2], vec [1 / 2, 0]] : Fin 2 → ℤ → ℚ) a j ∧
      (![vec [3 / 2], vec [1 / 2, 0]] : Fin 2 → ℤ → ℚ) a j ≤ S.hi a := by
  intro a i h1 h2
  fin_cases a
  · have h2 : i ≤ 0 := h2
    interval_cases i; decide +kernel
  · have h2 : i ≤ 1 := h2
    interval_cases i <;> decide +kernel

theorem S_wpos : ∀ idx, S.InNet idx → 0 < S.P idx 3 := by
  intro idx h
  have h1 : (0 : ℚ) ≤ idx 1 := by exact_mod_cast (h 1).1
  show (0 : ℚ) < 1 + idx 1
  linarith

example := C62_outside (fun _ => 7) (fun _ _ => 9) (by decide) S_valid Smoved_changed (by decide) S_grid
example := C62_move (fun _ => 7) (fun _ _ => 9) (by decide) S_valid Smoved_changed (by decide) S_grid S_wpos
  (v := fun c => vec [5, 0, -1, 0, 4] c) (by decide +kernel) (fun c => by
    have e : S.P ![3, 1] 3 = 2 := by decide +kernel
    simp only [Smoved, if_true, e])
example := C62_weight (fun _ => 7) (fun _ _ => 9) (by decide) S_valid Sheavy_changed (by decide) S_grid S_wpos
  (μ := 3) (by norm_num) (fun c => by simp only [Sheavy, if_true])
/-- the first point of the grid lies inside the box of `(3, 1)`, a parameter left of it does not -/
example : S.SuppInt ![3, 1] ![3 / 2, 1 / 2] ∧ ¬ S.Supp ![3, 1] ![1 / 2, 1 / 2] := by
  constructor
  · intro a; fin_cases a <;> decide +kernel
  · intro h; have := h 0; revert this; decide +kernel

end Ex

end Igakit
