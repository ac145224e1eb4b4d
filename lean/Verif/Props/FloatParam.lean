import Verif.Props.FloatExactMap
import Verif.Props.FloatKnotsEx

/-!
# Property C116: parameters in other units, by powers of two
-/

set_option linter.unusedSectionVars false

namespace Igakit
open Spec

variable {K : Type} [Field K] [LinearOrder K] [IsStrictOrderedRing K] {d : ℕ}

/-- C116: the knots of each axis times a positive factor that commutes with the rounding: the call at the parameters times these
factors gives exactly the same points and fields -/
theorem C116_scaled {rd : K → K} {g : Fin d → K} (g0 : ∀ a, 0 < g a) (hg : ∀ a x, rd (g a * x) = g a * rd x) (jk jk' : ℤ → Fp K)
    (je je' : ℤ → ℕ → Fp K) {N L : Nrb K d} (hd : d ≤ 3) (hv : N.Valid) (h1 : L.shape = N.shape) (h2 : L.len = N.len)
    (hU : ∀ a j, 0 ≤ j → j < N.len a → L.U a j = g a * N.U a j)
    (hP : ∀ idx, (∀ a, 0 ≤ idx a ∧ idx a < N.shape a) → L.P idx = N.P idx) {r : Fin d → ℤ} {X X' : Fin d → ℤ → K}
    (hn : ∀ a, 0 ≤ r a) (hx : ∀ a i, 0 ≤ i → i ≤ r a → N.lo a ≤ X a i ∧ X a i ≤ N.hi a)
    (hX : ∀ a i, 0 ≤ i → i ≤ r a → X' a i = g a * X a i) :
    ∃ C C', N.callF rd jk je r X = .ok C ∧ L.callF rd jk' je' r X' = .ok C' ∧
      ∀ i : Fin d → ℤ, (∀ a, 0 ≤ i a ∧ i a ≤ r a) → C' i = C i := by
  have hL : L = { N with U := L.U, P := L.P, nc := L.nc } := by
    cases L
    cases N
    simp only at h1 h2
    subst h1 h2
    rfl
  have hlo : ∀ a, L.lo a = g a * N.lo a := fun a => by
    have i1 := (hv a).one_le
    have i2 := (hv a).le
    have i3 := hv.degNat a
    have : L.lo a = L.U a (N.degree a) := by rw [hL]; rfl
    rw [this]
    refine hU a _ (by omega) ?_
    unfold Nrb.n Nrb.degree at *
    omega
  have hhi : ∀ a, L.hi a = g a * N.hi a := fun a => by
    have i1 := (hv a).one_le
    have i2 := (hv a).le
    have i3 := hv.degNat a
    have e1 : L.hi a = L.U a (N.n a + 1) := by rw [Nrb.hi_eq, hL]; rfl
    rw [e1, Nrb.hi_eq]
    refine hU a _ (by omega) ?_
    unfold Nrb.n Nrb.degree at *
    omega
  have hx' : ∀ a i, 0 ≤ i → i ≤ r a → L.lo a ≤ X' a i ∧ X' a i ≤ L.hi a := fun a i a0 a1 => by
    rw [hlo, hhi, hX a i a0 a1]
    exact ⟨mul_le_mul_of_nonneg_left (hx a i a0 a1).1 (g0 a).le, mul_le_mul_of_nonneg_left (hx a i a0 a1).2 (g0 a).le⟩
  obtain ⟨C, C', e1, e2, e3⟩ := Nrb.evaluateF_times (rd := rd) (f := fun _ => 1) (s := id) (fun _ x => by rw [one_mul, one_mul])
    jk jk' je je' hd hv g0 hg hU (P' := L.P) L.nc (fun idx h c => by
      rw [one_mul, hP idx (fun a => by
        have := h a
        unfold Nrb.n at this
        omega)]
      rfl) r hX
  rw [← hL] at e2
  have hC : ∀ i : Fin d → ℤ, (∀ a, 0 ≤ i a ∧ i a ≤ r a) → C' i = C i := fun i hi => by
    funext c
    rw [e3 i hi c]
    show (C i c).map _ = C i c
    cases C i c with
    | none => rfl
    | some x => exact congrArg some (one_mul x)
  unfold Nrb.callF
  rw [callArg_ok hn hx, callArg_ok hn hx', e1, e2]
  refine ⟨_, _, rfl, rfl, fun i hi => ?_⟩
  rw [hC i hi]

/-- C116: `remap(axis, 0, 2**e * b)` of an object whose knots along the axis run from 0 to `b` and are numbers of the machine: in
binary floating point every knot becomes `2**e` times as large exactly, and calls at parameters `2**e` times as large give
exactly the same points and fields as before -/
theorem C116_remap {t : ℕ} (ht : 1 ≤ t) (e : ℤ) {N : Nrb ℚ d} (hd : d ≤ 3) (hv : N.Valid) {axis : ℤ} {a : Fin d}
    (ha : normAxis d axis = .ok a) (hz : N.lo a = 0) (hfl : ∀ j, 0 ≤ j → j < N.len a → Ex.fl t (N.U a j) = N.U a j)
    {start : Option ℚ} (hs : start.getD 0 = 0) :
    ∃ L, N.remapF (Ex.fl t) axis start (some (2 ^ e * N.hi a)) = .ok L ∧
      (∀ j, 0 ≤ j → j < N.len a → L.U a j = 2 ^ e * N.U a j) ∧
      (L.nc = N.nc ∧ L.shape = N.shape ∧ L.len = N.len ∧ L.P = N.P ∧ ∀ b, b ≠ a → L.U b = N.U b) ∧
      ∀ (jk jk' : ℤ → Fp ℚ) (je je' : ℤ → ℕ → Fp ℚ) (r : Fin d → ℤ) (X : Fin d → ℤ → ℚ), (∀ a, 0 ≤ r a) →
        (∀ a i, 0 ≤ i → i ≤ r a → N.lo a ≤ X a i ∧ X a i ≤ N.hi a) →
        ∃ C C', N.callF (Ex.fl t) jk je r X = .ok C ∧
          L.callF (Ex.fl t) jk' je' r (Function.update X a (fun i => 2 ^ e * X a i)) = .ok C' ∧
          ∀ i : Fin d → ℤ, (∀ a, 0 ≤ i a ∧ i a ≤ r a) → C' i = C i := by
  have hp : (0 : ℚ) < 2 ^ e := by positivity
  have i1 := (hv a).one_le
  have i2 := (hv a).le
  have i3 := hv.degNat a
  have hb : 0 < N.hi a := by
    have h1 := (hv a).first
    have h2 := (hv a).sorted ((N.degree a).toNat + 1) (N.n a + 1) (by omega) (by omega) (by omega)
    rw [← hz, Nrb.hi_eq]
    show N.U a (N.degree a) < _
    rw [i3] at h2
    exact lt_of_lt_of_le h1 h2
  have hbf : Ex.fl t (N.hi a) = N.hi a := by
    rw [Nrb.hi_eq]
    refine hfl _ (by omega) ?_
    unfold Nrb.n Nrb.degree at *
    omega
  have hk : ∀ j, 0 ≤ j → j < N.len a → Fp.remapKnot (Ex.fl t) 0 (N.hi a) 0 (2 ^ e * N.hi a) (N.U a j) = 2 ^ e * N.U a j := by
    intro j j0 j1
    unfold Fp.remapKnot
    rw [sub_zero, sub_zero, sub_zero, add_zero, hfl j j0 j1, Ex.fl_scale, hbf, mul_div_assoc, div_self hb.ne', mul_one, Ex.fl_pow ht,
      mul_comm, Ex.fl_scale, hfl j j0 j1, Ex.fl_scale, hfl j j0 j1]
  have main : ∀ L : Nrb ℚ d, L.shape = N.shape → L.len = N.len → L.P = N.P → (∀ b, b ≠ a → L.U b = N.U b) →
      (∀ j, 0 ≤ j → j < N.len a → L.U a j = 2 ^ e * N.U a j) →
      ∀ (jk jk' : ℤ → Fp ℚ) (je je' : ℤ → ℕ → Fp ℚ) (r : Fin d → ℤ) (X : Fin d → ℤ → ℚ), (∀ a, 0 ≤ r a) →
        (∀ a i, 0 ≤ i → i ≤ r a → N.lo a ≤ X a i ∧ X a i ≤ N.hi a) →
        ∃ C C', N.callF (Ex.fl t) jk je r X = .ok C ∧
          L.callF (Ex.fl t) jk' je' r (Function.update X a (fun i => 2 ^ e * X a i)) = .ok C' ∧
          ∀ i : Fin d → ℤ, (∀ a, 0 ≤ i a ∧ i a ≤ r a) → C' i = C i := by
    intro L l1 l2 l3 l4 l5 jk jk' je je' r X hn hx
    refine C116_scaled (g := fun b => if b = a then 2 ^ e else 1) (fun b => ?_) (fun b x => ?_) jk jk' je je' hd hv l1 l2
      (fun b j j0 j1 => ?_) (fun idx _ => by rw [l3]) hn hx (fun b i _ _ => ?_)
    · split_ifs
      · exact hp
      · exact one_pos
    · split_ifs
      · exact Ex.fl_scale t e x
      · rw [one_mul, one_mul]
    · split_ifs with hba
      · subst hba
        exact l5 j j0 j1
      · rw [one_mul, l4 b hba]
    · split_ifs with hba
      · subst hba
        rw [Function.update_self]
      · rw [one_mul, Function.update_of_ne hba]
  unfold Nrb.remapF
  rw [ha, res_ok_bind]
  simp only [hz, hs, Option.getD_some]
  by_cases he : N.hi a = 2 ^ e * N.hi a
  · have h1 : (2 : ℚ) ^ e = 1 := by
      have : (2 : ℚ) ^ e * N.hi a = 1 * N.hi a := by rw [one_mul]; exact he.symm
      exact mul_right_cancel₀ hb.ne' this
    rw [if_pos ⟨trivial, he⟩]
    have hU : ∀ j, 0 ≤ j → j < N.len a → N.U a j = 2 ^ e * N.U a j := fun j _ _ => by rw [h1, one_mul]
    exact ⟨N, rfl, hU, ⟨rfl, rfl, rfl, rfl, fun _ _ => rfl⟩, main N rfl rfl rfl (fun _ _ => rfl) hU⟩
  · rw [if_neg (fun h => he h.2)]
    unfold pyAssert
    rw [if_pos (mul_pos hp hb)]
    refine ⟨_, rfl, fun j j0 j1 => ?_, ⟨rfl, rfl, rfl, rfl, fun b hba => Function.update_of_ne hba ..⟩, main _ rfl rfl rfl (fun b hba => ?_) (fun j j0 j1 => ?_)⟩
    · rw [← hk j j0 j1]
      show Function.update N.U a _ a j = _
      rw [Function.update_self]
    · exact Function.update_of_ne hba ..
    · rw [← hk j j0 j1]
      show Function.update N.U a _ a j = _
      rw [Function.update_self]

/-- C116: going back to the first units restores every knot, and the control points are those of the beginning -/
theorem C116_back {t : ℕ} (ht : 1 ≤ t) (e : ℤ) {N : Nrb ℚ d} (hd : d ≤ 3) (hv : N.Valid) {axis : ℤ} {a : Fin d}
    (ha : normAxis d axis = .ok a) (hz : N.lo a = 0) (hfl : ∀ j, 0 ≤ j → j < N.len a → Ex.fl t (N.U a j) = N.U a j) :
    ∃ L L', N.remapF (Ex.fl t) axis none (some (2 ^ e * N.hi a)) = .ok L ∧
      L.remapF (Ex.fl t) axis none (some (N.hi a)) = .ok L' ∧ L'.nc = N.nc ∧ L'.shape = N.shape ∧ L'.len = N.len ∧ L'.P = N.P ∧
      ∀ b j, 0 ≤ j → j < N.len b → L'.U b j = N.U b j := by
  have hp : (0 : ℚ) < 2 ^ e := by positivity
  obtain ⟨L, l1, l2, ⟨l3, l4, l5, l6, l7⟩, -⟩ := C116_remap ht e hd hv ha hz hfl (start := none) rfl
  have hn : ∀ b, L.n b = N.n b := fun b => by unfold Nrb.n; rw [l4]
  have hdeg : ∀ b, L.degree b = N.degree b := fun b => by unfold Nrb.degree; rw [l4, l5]
  have i1 := (hv a).one_le
  have i2 := (hv a).le
  have i3 := hv.degNat a
  have hin : ∀ j, 0 ≤ j → j ≤ N.n a + N.degree a + 1 → L.U a j = 2 ^ e * N.U a j := fun j j0 j1 => by
    refine l2 j j0 ?_
    unfold Nrb.n Nrb.degree at *
    omega
  have hvL : L.Valid := by
    intro b
    rw [hn, hdeg]
    by_cases hb : b = a
    · subst hb
      refine ⟨i1, i2, fun i j h0 h1 h2 => ?_, ?_, ?_⟩
      · rw [hin i h0 (by omega), hin j (by omega) (by omega)]
        exact mul_le_mul_of_nonneg_left ((hv b).sorted i j h0 h1 h2) hp.le
      · rw [hin _ (by omega) (by omega), hin _ (by omega) (by omega)]
        exact mul_lt_mul_of_pos_left (hv b).first hp
      · rw [hin _ (by omega) (by omega), hin _ (by omega) (by omega)]
        exact mul_lt_mul_of_pos_left (hv b).last hp
    · rw [l7 b hb]
      exact hv b
  have hlo : L.lo a = 0 := by
    have : L.lo a = L.U a (N.degree a) := by rw [← hdeg]; rfl
    rw [this, hin _ (by omega) (by omega)]
    show 2 ^ e * N.lo a = 0
    rw [hz, mul_zero]
  have hhi : 2 ^ (-e) * L.hi a = N.hi a := by
    rw [Nrb.hi_eq, hn, hin _ (by omega) (by omega), Nrb.hi_eq, ← mul_assoc, ← zpow_add₀ (by norm_num), neg_add_cancel, zpow_zero,
      one_mul]
  obtain ⟨L', m1, m2, ⟨m3, m4, m5, m6, m7⟩, -⟩ := C116_remap ht (-e) hd hvL ha hlo (fun j j0 j1 => by
    rw [l5] at j1
    rw [l2 j j0 j1, Ex.fl_scale, hfl j j0 j1]) (start := none) rfl
  rw [hhi] at m1
  refine ⟨L, L', l1, m1, m3.trans l3, m4.trans l4, m5.trans l5, m6.trans l6, fun b j j0 j1 => ?_⟩
  by_cases hb : b = a
  · subst hb
    rw [m2 j j0 (by rw [l5]; exact j1), l2 j j0 j1, ← mul_assoc, ← zpow_add₀ (by norm_num), neg_add_cancel, zpow_zero, one_mul]
  · rw [m7 b hb, l7 b hb]

theorem Ex.S_knots_machine : ∀ j, 0 ≤ j → j < Ex.S.len 0 → Ex.fl 53 (Ex.S.U 0 j) = Ex.S.U 0 j := by
  intro j j0 j1
  have j1 : j < 9 := j1
  interval_cases j <;> decide +kernel

/-- the first parameter of `Ex.S` in other units -/
example := C116_remap (t := 53) (by norm_num) (-3) (by norm_num) Ex.S_valid (axis := -2) (a := 0) rfl (by decide +kernel)
  Ex.S_knots_machine (start := none) rfl
example := C116_back (t := 53) (by norm_num) (-3) (by norm_num) Ex.S_valid (axis := -2) (a := 0) rfl (by decide +kernel)
  Ex.S_knots_machine

/-- C116: a factor that is no power of two is not exact: with 1/49 the last knot of `[0, 49]` is not 1 (`C74_remap_misses`), and the
factor 3 does not make 0.1 the double next to 0.3 -/
theorem Ex.C116_needed : let x : ℚ := 3602879701896397 / 2 ^ 55
    Ex.fl 53 x = x ∧ ∃ N', (Ex.polyline [0, 0, x, 1, 1]).remapF (Ex.fl 53) 0 none (some 3) = .ok N' ∧ N'.U 0 2 ≠ 3 * x :=
  ⟨by decide +kernel, _, rfl, by decide +kernel⟩

end Igakit
