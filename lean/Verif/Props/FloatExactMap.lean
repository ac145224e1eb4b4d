import Verif.Proofs.FloatExactMap
import Verif.Props.FloatTrans
import Verif.Proofs.FloatSterbenz

/-!
# Property C115: changes of the control points that the rounding does not see
-/

set_option linter.unusedSectionVars false

namespace Igakit
open Spec

variable {K : Type} [Field K] [LinearOrder K] [IsStrictOrderedRing K] {d : ℕ}

/-- quotients of numbers times factors -/
theorem div_times {rd : K → K} {f g : K} (hg : g ≠ 0) (hq : ∀ x, rd (f / g * x) = f / g * rd x) (a b : Fp K) :
    Fp.div rd (a.map (f * ·)) (b.map (g * ·)) = (Fp.div rd a b).map (f / g * ·) := by
  cases a with
  | none => rfl
  | some x =>
    cases b with
    | none => rfl
    | some y =>
      show (if g * y = 0 then none else some (rd (f * x / (g * y)))) = (if y = 0 then none else some (rd (x / y))).map (f / g * ·)
      by_cases hy : y = 0
      · rw [if_pos hy, if_pos (by rw [hy, mul_zero])]
        rfl
      · rw [if_neg hy, if_neg (mul_ne_zero hg hy), mul_div_mul_comm, hq]
        rfl

/-- C115: components of the control points in another order and times factors that commute with the rounding: the results of the call
are, exactly, those of the original object in the other order and times the factors divided by that of the weight.  Uninitialised
memory has no influence. -/
theorem C115_factors {rd : K → K} {f : ℕ → K} {s : ℕ → ℕ} (hf : ∀ c x, rd (f c * x) = f c * rd x)
    (hq : ∀ c x, rd (f c / f 3 * x) = f c / f 3 * rd x) (h3 : f 3 ≠ 0) (hs : s 3 = 3) (jk jk' : ℤ → Fp K) (je je' : ℤ → ℕ → Fp K)
    {N L : Nrb K d} (hd : d ≤ 3) (hv : N.Valid) (h1 : L.shape = N.shape) (h2 : L.len = N.len) (h4 : L.U = N.U)
    (hP : ∀ idx, (∀ a, 0 ≤ idx a ∧ idx a < N.shape a) → ∀ c, L.P idx c = f c * N.P idx (s c)) {r : Fin d → ℤ} {X : Fin d → ℤ → K}
    (hn : ∀ a, 0 ≤ r a) (hx : ∀ a i, 0 ≤ i → i ≤ r a → N.lo a ≤ X a i ∧ X a i ≤ N.hi a) :
    ∃ C C', N.callF rd jk je r X = .ok C ∧ L.callF rd jk' je' r X = .ok C' ∧ ∀ i : Fin d → ℤ, (∀ a, 0 ≤ i a ∧ i a ≤ r a) →
      (∀ c, (C' i).1 c = ((C i).1 (s c)).map (f c / f 3 * ·)) ∧
      ∀ c k, s (4 + c) = 4 + k → (C' i).2 c = ((C i).2 k).map (f (4 + c) / f 3 * ·) := by
  have hL : L = { N with U := N.U, P := L.P, nc := L.nc } := by
    cases L
    cases N
    simp only at h1 h2 h4
    subst h1 h2 h4
    rfl
  have hx' : ∀ a i, 0 ≤ i → i ≤ r a → L.lo a ≤ X a i ∧ X a i ≤ L.hi a := by rw [hL]; exact hx
  obtain ⟨C, C', e1, e2, e3⟩ := Nrb.evaluateF_times hf jk jk' je je' hd hv (g := fun _ => 1) (fun _ => one_pos)
    (fun _ x => by rw [one_mul, one_mul]) (U' := N.U) (fun _ _ _ _ => (one_mul _).symm) (P' := L.P) L.nc (fun idx h => hP idx (fun a => by
    have := h a
    unfold Nrb.n at this
    omega)) r (X := X) (X' := X) (fun _ _ _ _ => (one_mul _).symm)
  rw [← hL] at e2
  unfold Nrb.callF
  rw [callArg_ok hn hx, callArg_ok hn hx', e1, e2]
  refine ⟨_, _, rfl, rfl, fun i hi => ⟨fun c => ?_, fun c k hk => ?_⟩⟩
  · show Fp.div rd (C' i c) (C' i 3) = (Fp.div rd (C i (s c)) (C i 3)).map _
    rw [e3 i hi c, e3 i hi 3, hs, div_times h3 (hq c)]
  · show Fp.div rd (C' i (4 + c)) (C' i 3) = (Fp.div rd (C i (4 + k)) (C i 3)).map _
    rw [e3 i hi (4 + c), e3 i hi 3, hs, hk, div_times h3 (hq (4 + c))]

/-- C115: the call does not depend on uninitialised memory -/
theorem C115_memory {rd : K → K} (jk jk' : ℤ → Fp K) (je je' : ℤ → ℕ → Fp K) {N : Nrb K d} (hd : d ≤ 3) (hv : N.Valid)
    {r : Fin d → ℤ} {X : Fin d → ℤ → K} (hn : ∀ a, 0 ≤ r a) (hx : ∀ a i, 0 ≤ i → i ≤ r a → N.lo a ≤ X a i ∧ X a i ≤ N.hi a) :
    ∃ C C', N.callF rd jk je r X = .ok C ∧ N.callF rd jk' je' r X = .ok C' ∧
      ∀ i : Fin d → ℤ, (∀ a, 0 ≤ i a ∧ i a ≤ r a) → C' i = C i := by
  obtain ⟨C, C', e1, e2, e3⟩ := C115_factors (rd := rd) (f := fun _ => 1) (s := id) (fun c x => by rw [one_mul, one_mul])
    (fun c x => by rw [div_one, one_mul, one_mul]) one_ne_zero rfl jk jk' je je' hd hv rfl rfl rfl
    (fun idx _ c => (one_mul _).symm) hn hx
  have hid : ∀ a : Fp K, a.map ((1 : K) / 1 * ·) = a := fun a => by
    cases a with
    | none => rfl
    | some x => exact congrArg some (by show (1 : K) / 1 * x = x; rw [div_one, one_mul])
  refine ⟨C, C', e1, e2, fun i hi => Prod.ext (funext fun c => ?_) (funext fun c => ?_)⟩
  · rw [(e3 i hi).1 c, hid]
    rfl
  · rw [(e3 i hi).2 c c rfl, hid]

namespace Ex

/-- the exponent of a number times a power of two -/
theorem log_scale (e : ℤ) {x : ℚ} (hx : 0 < x) : Int.log 2 (2 ^ e * x) = e + Int.log 2 x := by
  have hp : (0 : ℚ) < 2 ^ e := by positivity
  have two : ((2 : ℕ) : ℚ) = 2 := by norm_num
  have l1 := Int.zpow_log_le_self (b := 2) (r := x) (by norm_num) hx
  have l2 := Int.lt_zpow_succ_log_self (b := 2) (by norm_num) x
  rw [two] at l1 l2
  apply le_antisymm
  · have := (Int.lt_zpow_iff_log_lt (R := ℚ) (b := 2) (by norm_num) (x := e + Int.log 2 x + 1) (r := 2 ^ e * x) (mul_pos hp hx)).1 (by
      rw [two, add_assoc, zpow_add₀ (by norm_num)]
      exact mul_lt_mul_of_pos_left l2 hp)
    omega
  · exact (Int.zpow_le_iff_le_log (R := ℚ) (b := 2) (by norm_num) (x := e + Int.log 2 x) (r := 2 ^ e * x) (mul_pos hp hx)).1 (by
      rw [two, zpow_add₀ (by norm_num)]
      exact mul_le_mul_of_nonneg_left l1 hp.le)

/-- powers of two commute with the rounding -/
theorem fl_scale (t : ℕ) (e : ℤ) (x : ℚ) : fl t (2 ^ e * x) = 2 ^ e * fl t x := by
  have hp : (0 : ℚ) < 2 ^ e := by positivity
  rcases eq_or_ne x 0 with rfl | hx
  · have : fl t 0 = 0 := rd_zero (fl_relErr t)
    rw [mul_zero, this, mul_zero]
  unfold fl
  rw [abs_mul, abs_of_pos hp, log_scale e (abs_pos.2 hx), show e + Int.log 2 |x| + 1 - (t : ℤ) = e + (Int.log 2 |x| + 1 - t) from by ring]
  generalize Int.log 2 |x| + 1 - (t : ℤ) = g
  unfold rnd
  have hd : ∀ y : ℚ, 2 ^ e * y / 2 ^ (e + g) = y / 2 ^ g := fun y => by
    rw [zpow_add₀ (by norm_num), mul_div_mul_left _ _ hp.ne']
  by_cases h0 : 0 ≤ x
  · rw [if_pos h0, if_pos (mul_nonneg hp.le h0), hd, zpow_add₀ (by norm_num)]
    ring
  · rw [if_neg h0, if_neg (fun h => h0 (nonneg_of_mul_nonneg_right h hp)), show -(2 ^ e * x) = 2 ^ e * -x from by ring, hd, zpow_add₀ (by norm_num)]
    ring

/-- so do their negatives -/
theorem fl_signed (t : ℕ) {f : ℚ} {e : ℤ} (h : f = 2 ^ e ∨ f = -2 ^ e) (x : ℚ) : fl t (f * x) = f * fl t x := by
  rcases h with rfl | rfl
  · exact fl_scale t e x
  · rw [neg_mul, fl_neg, fl_scale, neg_mul]

end Ex

/-- C115: reflections, exchanges of coordinates and scaling by powers of two, also different ones along the axes: the object is
transformed and evaluated in binary floating point, and every coordinate is, exactly, the one computed before, exchanged and scaled -/
theorem C115_transform (t : ℕ) {M : Mat4 ℚ} {σ : Fin 4 → Fin 4} (hM : ∀ i k, k ≠ σ i → M i k = 0)
    (hp : ∀ i, ∃ e : ℤ, M i (σ i) = 2 ^ e ∨ M i (σ i) = -2 ^ e) (hσ : σ 3 = 3) (h3 : M 3 3 = 1) {N L : Nrb ℚ d} (hd : d ≤ 3)
    (hv : N.Valid) (hfl : ∀ idx, N.InNet idx → ∀ c : Fin 4, Ex.fl t (N.P idx c) = N.P idx c) (h : N.TransformF (Ex.fl t) M L)
    (jk jk' : ℤ → Fp ℚ) (je je' : ℤ → ℕ → Fp ℚ) {r : Fin d → ℤ} {X : Fin d → ℤ → ℚ} (hn : ∀ a, 0 ≤ r a)
    (hx : ∀ a i, 0 ≤ i → i ≤ r a → N.lo a ≤ X a i ∧ X a i ≤ N.hi a) :
    ∃ C C', N.callF (Ex.fl t) jk je r X = .ok C ∧ L.callF (Ex.fl t) jk' je' r X = .ok C' ∧
      ∀ i : Fin d → ℤ, (∀ a, 0 ≤ i a ∧ i a ≤ r a) →
        (∀ c : Fin 4, (C' i).1 c = ((C i).1 (σ c)).map (M c (σ c) * ·)) ∧ ∀ c, (C' i).2 c = (C i).2 c := by
  let f : ℕ → ℚ := fun c => if h : c < 4 then M ⟨c, h⟩ (σ ⟨c, h⟩) else 1
  let s : ℕ → ℕ := fun c => if h : c < 4 then (σ ⟨c, h⟩ : ℕ) else c
  have f3 : f 3 = 1 := by
    show (if h : 3 < 4 then M ⟨3, h⟩ (σ ⟨3, h⟩) else 1) = 1
    rw [dif_pos (by norm_num)]
    show M 3 (σ 3) = 1
    rw [hσ, h3]
  have s3 : s 3 = 3 := by
    show (if h : 3 < 4 then (σ ⟨3, h⟩ : ℕ) else 3) = 3
    rw [dif_pos (by norm_num)]
    show ((σ 3 : Fin 4) : ℕ) = 3
    rw [hσ]
    rfl
  have fF : ∀ c : Fin 4, f c = M c (σ c) := fun c => dif_pos c.2
  have sF : ∀ c : Fin 4, s c = σ c := fun c => dif_pos c.2
  have f4 : ∀ c, f (4 + c) = 1 := fun c => dif_neg (by omega)
  have s4 : ∀ c, s (4 + c) = 4 + c := fun c => dif_neg (by omega)
  have hf : ∀ c x, Ex.fl t (f c * x) = f c * Ex.fl t x := by
    intro c x
    by_cases hc : c < 4
    · obtain ⟨e, he⟩ := hp ⟨c, hc⟩
      have : f c = M ⟨c, hc⟩ (σ ⟨c, hc⟩) := dif_pos hc
      rw [this]
      exact Ex.fl_signed t he x
    · have : f c = 1 := dif_neg hc
      rw [this, one_mul, one_mul]
  obtain ⟨C, C', e1, e2, e3⟩ := C115_factors hf (fun c x => by rw [f3, div_one, hf]) (by rw [f3]; exact one_ne_zero) s3 jk jk' je je'
    hd hv h.shape h.len h.U (fun idx hi c => by
      by_cases hc : c < 4
      · have a1 : f c = M ⟨c, hc⟩ (σ ⟨c, hc⟩) := dif_pos hc
        have a2 : s c = σ ⟨c, hc⟩ := dif_pos hc
        obtain ⟨e, he⟩ := hp ⟨c, hc⟩
        have := (C99_exact (Ex.fl_relErr t) h hi (i := ⟨c, hc⟩) (j := σ ⟨c, hc⟩) (hM _) (by
          rw [mul_comm, Ex.fl_signed t he, hfl idx hi])).1
        rw [a1, a2, mul_comm]
        exact this
      · obtain ⟨k, rfl⟩ := Nat.exists_eq_add_of_le (not_lt.1 hc)
        rw [f4, s4, one_mul]
        exact h.fields idx hi _ (by omega)) hn hx
  refine ⟨C, C', e1, e2, fun i hi => ⟨fun c => ?_, fun c => ?_⟩⟩
  · rw [(e3 i hi).1 c, fF, sF, f3, div_one]
  · rw [(e3 i hi).2 c c (s4 c), f4, f3, div_one]
    cases (C i).2 c with
    | none => rfl
    | some x => exact congrArg some (one_mul x)

namespace Ex

theorem S_machine : ∀ idx, S.InNet idx → ∀ c : Fin 4, fl 53 (S.P idx c) = S.P idx c := by
  intro idx hi
  have e : idx = ![idx 0, idx 1] := by
    funext a
    fin_cases a <;> rfl
  rw [e]
  exact net_le hi (fun i j => ∀ c : Fin 4, fl 53 (S.P ![i, j] c) = S.P ![i, j] c) (by decide +kernel)

/-- `(x, y, z)` becomes `(-y, x, 4 z)` -/
def turn4 : Mat4 ℚ := !![0, -1, 0, 0; 1, 0, 0, 0; 0, 0, 4, 0; 0, 0, 0, 1]

example (jk jk' : ℤ → Fp ℚ) (je je' : ℤ → ℕ → Fp ℚ) := C115_transform 53 (M := turn4) (σ := ![1, 0, 2, 3])
  (fun i k h => by fin_cases i <;> fin_cases k <;> first | rfl | exact absurd rfl h)
  (fun i => by
    fin_cases i
    · exact ⟨0, Or.inr (by decide +kernel)⟩
    · exact ⟨0, Or.inl (by decide +kernel)⟩
    · exact ⟨2, Or.inl (by decide +kernel)⟩
    · exact ⟨0, Or.inl (by decide +kernel)⟩) rfl (by decide +kernel) (by norm_num) S_valid S_machine (C99_total (fl 53) S turn4)
  jk jk' je je' (r := fun _ => 1) (X := fun _ i => if i = 0 then 1 / 2 else 1) (fun _ => by norm_num)
  (by
    intro a i i0 i1
    have : i = 0 ∨ i = 1 := by omega
    rcases this with rfl | rfl <;> revert a <;> decide +kernel)

/-- other factors do not commute with the rounding -/
theorem C115_needed : ∃ x, fl 53 (3 * x) ≠ 3 * fl 53 x := ⟨1 / 10, by decide +kernel⟩

end Ex
end Igakit
