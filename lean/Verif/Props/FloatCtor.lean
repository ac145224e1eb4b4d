import Verif.Model.FloatCtor
import Verif.Props.Ctor
import Verif.Props.FloatGrid

/-!
# Property C112: the constructor in floating point
-/

set_option linter.unusedSectionVars false

namespace Igakit
open Spec

variable {K : Type} [Field K] [LinearOrder K] [IsStrictOrderedRing K] {d : ℕ}

/-- two runs: both give results related by `Q`, or both raise the same exception -/
inductive Spec.Runs {α β : Type} (Q : α → β → Prop) : Res α → Res β → Prop
  | ok {a : α} {b : β} (h : Q a b) : Runs Q (.ok a) (.ok b)
  | error (e : Err) : Runs Q (.error e) (.error e)

theorem Runs.refl {α : Type} (x : Res α) : Runs (fun a b => a = b) x x := by
  cases x with
  | ok a => exact .ok rfl
  | error e => exact .error e

theorem Runs.bind {α β γ ε : Type} {Q : α → β → Prop} {Q' : γ → ε → Prop} {x : Res α} {y : Res β} {f : α → Res γ} {g : β → Res ε}
    (h : Runs Q x y) (hf : ∀ a b, Q a b → Runs Q' (f a) (g b)) : Runs Q' (x >>= f) (y >>= g) := by
  cases h with
  | ok h => exact hf _ _ h
  | error e => exact .error e

theorem Runs.assert {γ ε : Type} {Q' : γ → ε → Prop} {c : Prop} [Decidable c] {f : Unit → Res γ} {g : Unit → Res ε}
    (hf : c → Runs Q' (f ()) (g ())) : Runs Q' (pyAssert c >>= f) (pyAssert c >>= g) := by
  by_cases h : c
  · rw [pyAssert_ok h]; exact hf h
  · rw [pyAssert_err h]; exact .error _

/-- the nets agree up to one rounding of each entry, and in the weights -/
structure NetRel (rd : K → K) (H H' : HNet K) : Prop where
  shape : H'.shape = H.shape
  nc : H'.nc = H.nc
  weight : ∀ idx, H'.get idx 3 = H.get idx 3
  entry : ∀ idx c, H'.get idx c = H.get idx c ∨ H'.get idx c = rd (H.get idx c)

/-- specification: the objects have the same shape, knots and weights, and the other entries agree up to one rounding -/
structure Spec.RoundedOnce (rd : K → K) (N R : Nrb K d) : Prop where
  shape : R.shape = N.shape
  nc : R.nc = N.nc
  len : R.len = N.len
  U : R.U = N.U
  weight : ∀ idx, R.P idx 3 = N.P idx 3
  entry : ∀ idx c, R.P idx c = N.P idx c ∨ R.P idx c = rd (N.P idx c)

theorem ctorControl_runs (rd : K → K) (C : Nd K) (w : Option (Nd K)) :
    Runs (NetRel rd) (Nrb.ctorControl C w) (Fp.ctorControl rd C w) := by
  unfold Nrb.ctorControl Fp.ctorControl
  refine Runs.assert fun _ => Runs.assert fun _ => Runs.assert fun _ => ?_
  by_cases h4 : C.shape.getLastD 0 < 4
  · rw [if_pos h4, if_pos h4]
    cases w with
    | none => exact .ok ⟨rfl, rfl, fun _ => rfl, fun _ _ => Or.inl rfl⟩
    | some W =>
      refine Runs.assert fun _ => .ok ⟨rfl, rfl, fun idx => ?_, fun idx c => ?_⟩
      · have h : ¬ ((3 : ℕ) : ℤ) < C.shape.getLastD 0 := by omega
        simp only [if_neg h]
      · simp only
        split_ifs
        · exact Or.inr rfl
        · exact Or.inl rfl
        · exact Or.inl rfl
  · rw [if_neg h4, if_neg h4]
    exact Runs.assert fun _ => .ok ⟨rfl, rfl, fun _ => rfl, fun _ _ => Or.inl rfl⟩

theorem appendFields_rel {rd : K → K} {H H' : HNet K} (h : NetRel rd H H') (nf : ℕ) (D : List ℤ → ℕ → K) :
    NetRel rd (Nrb.appendFields H nf D) (Fp.appendFields rd H' nf D) := by
  refine ⟨h.shape, rfl, fun idx => ?_, fun idx c => ?_⟩
  · exact h.weight idx
  · unfold Nrb.appendFields Fp.appendFields
    simp only
    split_ifs
    · exact h.entry idx c
    · rw [h.weight]; exact Or.inr rfl

theorem ctorFields_runs {rd : K → K} {H H' : HNet K} (h : NetRel rd H H') (fields : Option (Nd K)) :
    Runs (NetRel rd) (Nrb.ctorFields H fields) (Fp.ctorFields rd H' fields) := by
  cases fields with
  | none => exact .ok h
  | some F =>
    unfold Nrb.ctorFields Fp.ctorFields
    simp only
    rw [h.shape]
    split_ifs
    · exact .ok (appendFields_rel h _ _)
    · exact Runs.assert fun _ => Runs.assert fun _ => .ok (appendFields_rel h _ _)

/-- C112: with control points, the constructor in floating point accepts and rejects the same arguments, and differs in at most one
rounding of each entry which is not a weight -/
theorem C112_ctor (rd : K → K) (knots : Fin d → Nd K) {C : Nd K} {W weights : Option (Nd K)} {control : CtrlArg K}
    (hp : PassedAs C W control weights) (fields : Option (Nd K)) :
    Runs (RoundedOnce rd) (Nrb.ctor knots control fields weights) (Fp.ctor rd knots control fields weights) := by
  have hargs : Nrb.ctorArgs control weights = .ok (some C, W) := by
    rcases hp with ⟨rfl, rfl⟩ | ⟨rfl, rfl⟩ <;> rfl
  unfold Nrb.ctor Fp.ctor
  refine Runs.assert fun _ => Runs.assert fun _ => Runs.assert fun _ => ?_
  rw [hargs, res_ok_bind, res_ok_bind]
  refine Runs.bind (ctorControl_runs rd C W) fun H H' h => Runs.bind (ctorFields_runs h fields) fun A A' h' => ?_
  rw [h'.shape]
  refine Runs.assert fun _ => Runs.assert fun _ => .ok ⟨?_, h'.nc, rfl, rfl, fun idx => h'.weight _, fun idx c => h'.entry _ c⟩
  rfl

/-- C112: the object which is built in floating point, evaluated in floating point: within `2 m + 2` roundings of the exact object -/
theorem C112_call {δ : K} {rd : K → K} (h0 : 0 ≤ δ) (hδ : δ < 1) (hr : RelErr δ rd) (jk : ℤ → Fp K) (je : ℤ → ℕ → Fp K)
    {knots : Fin d → Nd K} {C : Nd K} {W weights fields : Option (Nd K)} {control : CtrlArg K} (hp : PassedAs C W control weights)
    {N : Nrb K d} (hN : Nrb.ctor knots control fields weights = .ok N) (hd : d ≤ 3) (hv : N.Valid)
    (hw : ∀ idx, (∀ a, 0 ≤ idx a ∧ idx a < N.shape a) → 0 < N.P idx 3)
    {r : Fin d → ℤ} {X : Fin d → ℤ → K} (hn : ∀ a, 0 ≤ r a) (hx : ∀ a i, 0 ≤ i → i ≤ r a → N.lo a ≤ X a i ∧ X a i ≤ N.hi a)
    {m : ℕ} (hm : m = 6 * (∑ a, (N.degree a).toNat) + d + ∏ a, ((N.degree a).toNat + 1)) :
    ∃ R, Fp.ctor rd knots control fields weights = .ok R ∧ ∃ Q, R.callF rd jk je r X = .ok Q ∧
      ∀ i : Fin d → ℤ, (∀ a, 0 ≤ i a ∧ i a ≤ r a) → ∀ (c : ℕ) (B : K),
      ((∀ idx, (∀ a, 0 ≤ idx a ∧ idx a < N.shape a) → |N.P idx c / N.P idx 3| ≤ B) →
        ∃ y, (Q i).1 c = some y ∧ |y - N.proj (fun a => X a (i a)) c| ≤ (growth δ ^ (2 * m + 2) - 1) * B) ∧
      ((∀ idx, (∀ a, 0 ≤ idx a ∧ idx a < N.shape a) → |N.P idx (4 + c) / N.P idx 3| ≤ B) →
        ∃ y, (Q i).2 c = some y ∧ |y - N.proj (fun a => X a (i a)) (4 + c)| ≤ (growth δ ^ (2 * m + 2) - 1) * B) := by
  have hrun := C112_ctor rd knots hp fields
  rw [hN] at hrun
  generalize hq : Fp.ctor rd knots control fields weights = q at hrun
  obtain ⟨hR⟩ | _ := hrun
  rename_i R
  refine ⟨R, rfl, ?_⟩
  have e1 : R.degree = N.degree := by funext a; unfold Nrb.degree; rw [hR.shape, hR.len]
  have e2 : R.lo = N.lo := by funext a; unfold Nrb.lo; rw [e1, hR.U]
  have e3 : R.hi = N.hi := by funext a; unfold Nrb.hi; rw [e1, hR.U, hR.len]
  have e4 : R.n = N.n := by funext a; unfold Nrb.n; rw [hR.shape]
  have hvR : R.Valid := by
    intro a
    rw [e4, e1, hR.U]
    exact hv a
  obtain ⟨Q, q1, q2⟩ := C72_call h0 hδ hr jk je hd hvR hn (fun a i i0 i1 => by rw [e2, e3]; exact hx a i i0 i1)
    (fun idx hi => by rw [hR.weight]; rw [hR.shape] at hi; exact hw idx hi) (m := m) (by rw [hm, e1])
  refine ⟨Q, q1, fun i hi => ?_⟩
  have hin : N.InDom (fun a => X a (i a)) := fun a => hx a _ (hi a).1 (hi a).2
  have hnet : ∀ idx : Fin d → ℤ, (∀ a, 0 ≤ idx a ∧ idx a ≤ N.n a) → ∀ a, 0 ≤ idx a ∧ idx a < N.shape a := by
    intro idx h a
    have := h a
    unfold Nrb.n at this
    omega
  have hg1 : 1 + δ ≤ growth δ := by
    unfold growth
    rw [le_inv_comm₀ (by linarith) (by linarith), inv_eq_one_div, div_eq_mul_inv, one_mul]
    rw [le_inv_comm₀ (by linarith) (by linarith), inv_eq_one_div, le_div_iff₀ (by linarith)]
    nlinarith
  have close : ∀ (c : ℕ) (B : K), (∀ idx, (∀ a, 0 ≤ idx a ∧ idx a < N.shape a) → |N.P idx c / N.P idx 3| ≤ B) →
      ∀ idx, (∀ a, 0 ≤ idx a ∧ idx a < N.shape a) → |R.P idx c - N.P idx c| ≤ δ * B * N.P idx 3 ∧ |R.P idx c / R.P idx 3| ≤ (1 + δ) * B := by
    intro c B hB idx hidx
    have w := hw idx hidx
    have b := hB idx hidx
    have B0 := (abs_nonneg _).trans b
    rw [abs_div, abs_of_pos w, div_le_iff₀ w] at b
    have h1 : |R.P idx c - N.P idx c| ≤ δ * B * N.P idx 3 := by
      rcases hR.entry idx c with e | e
      · rw [e, sub_self, abs_zero]
        positivity
      · rw [e, mul_assoc]
        exact (hr _).trans (mul_le_mul_of_nonneg_left b h0)
    refine ⟨h1, ?_⟩
    rw [hR.weight, abs_div, abs_of_pos w, div_le_iff₀ w]
    have := abs_add_le (R.P idx c - N.P idx c) (N.P idx c)
    rw [sub_add_cancel] at this
    linarith
  have w3 : R.eval (fun a => X a (i a)) 3 = N.eval (fun a => X a (i a)) 3 ∧ ∀ c, R.eval (fun a => X a (i a)) c =
      ∑ idx ∈ Fintype.piFinset (fun a => Finset.Icc 0 (N.n a)), N.wt (fun a => X a (i a)) idx * R.P idx c := by
    have e : ∀ c, R.eval (fun a => X a (i a)) c =
        ∑ idx ∈ Fintype.piFinset (fun a => Finset.Icc 0 (N.n a)), N.wt (fun a => X a (i a)) idx * R.P idx c := by
      intro c
      rw [Nrb.eval_apply, e4]
      refine Finset.sum_congr rfl fun idx _ => ?_
      unfold Nrb.wt
      rw [e4, e1, hR.U]
    refine ⟨?_, e⟩
    rw [e, Nrb.eval_apply]
    exact Finset.sum_congr rfl fun idx _ => by rw [hR.weight]
  have p3 : 0 < N.eval (fun a => X a (i a)) 3 := Nrb.eval_pos hv hin (fun idx h => hw idx (hnet idx h))
  have pr : ∀ (c : ℕ) (B : K), (∀ idx, (∀ a, 0 ≤ idx a ∧ idx a < N.shape a) → |N.P idx c / N.P idx 3| ≤ B) →
      |R.proj (fun a => X a (i a)) c - N.proj (fun a => X a (i a)) c| ≤ δ * B := by
    intro c B hB
    unfold Nrb.proj
    rw [w3.1, ← sub_div, abs_div, abs_of_pos p3, div_le_iff₀ p3, w3.2, Nrb.eval_apply, Nrb.eval_apply, ← Finset.sum_sub_distrib,
      Finset.mul_sum]
    refine (Finset.abs_sum_le_sum_abs _ _).trans (Finset.sum_le_sum fun idx h => ?_)
    have h : ∀ a, 0 ≤ idx a ∧ idx a ≤ N.n a := fun a => Finset.mem_Icc.mp (Fintype.mem_piFinset.mp h a)
    have w0 := Nrb.wt_nonneg hv hin h
    rw [← mul_sub, abs_mul, abs_of_nonneg w0, mul_left_comm]
    exact mul_le_mul_of_nonneg_left (close c B hB idx (hnet idx h)).1 w0
  have fin : ∀ (c : ℕ) (B y : K), (∀ idx, (∀ a, 0 ≤ idx a ∧ idx a < N.shape a) → |N.P idx c / N.P idx 3| ≤ B) → 0 ≤ B →
      |y - R.proj (fun a => X a (i a)) c| ≤ (growth δ ^ (2 * m + 1) - 1) * ((1 + δ) * B) →
      |y - N.proj (fun a => X a (i a)) c| ≤ (growth δ ^ (2 * m + 2) - 1) * B := by
    intro c B y hB B0 hy
    have := abs_add_le (y - R.proj (fun a => X a (i a)) c) (R.proj (fun a => X a (i a)) c - N.proj (fun a => X a (i a)) c)
    rw [sub_add_sub_cancel] at this
    refine this.trans ((add_le_add hy (pr c B hB)).trans ?_)
    have hgp := Fp.growth_pow h0 hδ (2 * m + 1)
    have e : (growth δ ^ (2 * m + 1) - 1) * ((1 + δ) * B) + δ * B = (growth δ ^ (2 * m + 1) * (1 + δ) - 1) * B := by ring
    rw [e, show 2 * m + 2 = 2 * m + 1 + 1 by ring, pow_succ (growth δ) (2 * m + 1)]
    exact mul_le_mul_of_nonneg_right (sub_le_sub_right (mul_le_mul_of_nonneg_left hg1 (by linarith)) 1) B0
  have pos : ∀ (c : ℕ) (B : K), (∀ idx, (∀ a, 0 ≤ idx a ∧ idx a < N.shape a) → |N.P idx c / N.P idx 3| ≤ B) → 0 ≤ B := by
    intro c B hB
    refine (abs_nonneg _).trans (hB 0 fun a => ⟨le_rfl, ?_⟩)
    have h1 := (hv a).one_le
    have h2 := (hv a).le
    unfold Nrb.n at h2
    show 0 < N.shape a
    omega
  intro c B
  refine ⟨fun hB => ?_, fun hB => ?_⟩
  · obtain ⟨y, y1, y2⟩ := (q2 i hi c ((1 + δ) * B)).1 (fun idx h => by rw [hR.shape] at h; exact (close c B hB idx h).2)
    exact ⟨y, y1, fin c B y hB (pos c B hB) y2⟩
  · obtain ⟨y, y1, y2⟩ := (q2 i hi c ((1 + δ) * B)).2 (fun idx h => by rw [hR.shape] at h; exact (close (4 + c) B hB idx h).2)
    exact ⟨y, y1, fin (4 + c) B y hB (pos (4 + c) B hB) y2⟩

/-- C112: without control points the constructor makes a map which is close to the identity: each coordinate is off by at most
`2 m + p + 2` roundings of the largest knot, the other coordinates are zero -/
theorem C112_default {δ : K} {rd : K → K} (h0 : 0 ≤ δ) (hδ : δ < 1) (hr : RelErr δ rd) (jk : ℤ → Fp K) (je : ℤ → ℕ → Fp K)
    {knots : Fin d → Nd K} (h1 : 1 ≤ d) (h3 : d ≤ 3) {n : Fin d → ℤ} {p : Fin d → ℕ}
    (hk : ∀ a, (knots a).shape = [n a + p a + 2] ∧ ValidKnots (n a) (p a) (fun j => (knots a).get [j]) ∧
      ∀ j : ℤ, 1 ≤ j → j ≤ p a → (knots a).get [j] = (knots a).get [(p a : ℤ)]) {m : ℕ} (hm : m = 6 * (∑ a, p a) + d + ∏ a, (p a + 1)) :
    ∃ N, Fp.ctor rd knots .none none none = .ok N ∧ N.Valid ∧ (∀ a, N.degree a = p a ∧ N.n a = n a ∧
      ∀ j, N.U a j = (knots a).get [j]) ∧ ∀ (r : Fin d → ℤ) (X : Fin d → ℤ → K), (∀ a, 0 ≤ r a) →
      (∀ a i, 0 ≤ i → i ≤ r a → N.lo a ≤ X a i ∧ X a i ≤ N.hi a) → ∃ R, N.callF rd jk je r X = .ok R ∧
      ∀ g : Fin d → ℤ, (∀ a, 0 ≤ g a ∧ g a ≤ r a) →
      (∀ (a : Fin d) (B : K), (∀ j, 0 ≤ j → j ≤ n a + p a + 1 → |(knots a).get [j]| ≤ B) → ∃ y, (R g).1 a = some y ∧
        |y - X a (g a)| ≤ (growth δ ^ (2 * m + 1 + (p a + 1)) - 1) * B) ∧
      ∀ c : ℕ, d ≤ c → c < 3 → (R g).1 c = some 0 := by
  set U : Fin d → ℤ → K := fun a j => (knots a).get [j] with hU
  have hl : (fun a => (knots a).shape.headD 0) = fun a => n a + p a + 2 := by
    funext a; rw [(hk a).1]; rfl
  have hla : ∀ a, (knots a).shape.headD 0 = n a + p a + 2 := congrFun hl
  have hv : ∀ a, ValidKnots (n a) (p a) (U a) := fun a => (hk a).2.1
  have hp1 := fun a => (hv a).one_le
  have hpn := fun a => (hv a).le
  have hdeg : seqFin (fun a => degLoop (U a) (n a + p a + 2) (n a + p a + 2).toNat 1) =
      .ok (fun a => (p a : ℤ)) := by
    apply seqFin_ok
    intro a
    have := hp1 a
    have := hpn a
    refine degLoop_eq (by omega) (hv a).first.ne _ 1 (by omega) (by omega) ?_
    intro j h1 h2
    have e1 : U a j = U a (p a) := (hk a).2.2 j h1 (by omega)
    have e2 : U a (j + 1) = U a (p a) := (hk a).2.2 (j + 1) (by omega) (by omega)
    rw [e1, e2]
  have hgr : seqFin (fun a => Fp.Greville rd (p a : ℤ) (n a + p a + 2 - 1) (U a)) =
      .ok (fun a i => Fp.greville rd (p a) (U a) i) := by
    apply seqFin_ok
    intro a
    unfold Fp.Greville
    have := hpn a
    rw [if_pos ⟨hp1 a, by omega⟩]
  have hshape : (fun a : Fin d => (List.ofFn (fun a => n a + p a + 2 - 1 - (p a + 1) + 1)).getD a 0) =
      fun a => n a + 1 := by
    funext a; simp; ring
  have hres : Fp.ctor rd knots .none none none = .ok (Nrb.mk (fun a => n a + 1) 4 (fun a => n a + p a + 2) U
      (fun idx => grevNet (fun a i => Fp.greville rd (p a) (U a) i) (List.ofFn idx))) := by
    unfold Fp.ctor
    rw [pyAssert_ok h1, res_ok_bind, pyAssert_ok h3, res_ok_bind, pyAssert_ok (fun a => by
      rw [(hk a).1]; exact ⟨rfl, by have := hp1 a; have := hpn a; simp only [List.headD_cons]; omega⟩),
      res_ok_bind]
    simp only [Nrb.ctorArgs, res_pure, res_ok_bind, Fp.ctorNet]
    rw [pyAssert_ok (by rfl), res_ok_bind]
    unfold Fp.ctorDefault
    simp only [hla]
    rw [hdeg, res_ok_bind, hgr, res_ok_bind, res_pure, res_ok_bind]
    simp only [Fp.ctorFields, res_pure, res_ok_bind]
    rw [pyAssert_ok (by simp), res_ok_bind, pyAssert_ok, res_ok_bind, hshape]
    intro a
    have e : (List.ofFn (fun a => n a + p a + 2 - 1 - (p a + 1) + 1)).getD a 0 = n a + 1 := congrFun hshape a
    rw [e]
    have := hp1 a
    omega
  refine ⟨_, hres, ?_⟩
  set N : Nrb K d := Nrb.mk (fun a => n a + 1) 4 (fun a => n a + p a + 2) U
      (fun idx => grevNet (fun a i => Fp.greville rd (p a) (U a) i) (List.ofFn idx)) with hN
  have hND : ∀ a, N.degree a = p a := fun a => by simp only [hN, Nrb.degree]; ring
  have hNn : ∀ a, N.n a = n a := fun a => by simp only [hN, Nrb.n]; ring
  have hNv : N.Valid := fun a => by rw [hND, hNn]; exact hv a
  have hform : N = gridObjF rd (fun a => n a + p a + 2) (fun a => (p a : ℤ)) U := by
    rw [hN]
    unfold gridObjF
    congr 1
    funext a
    ring
  refine ⟨hNv, fun a => ⟨hND a, hNn a, fun j => rfl⟩, fun r X hn hx => ?_⟩
  obtain ⟨R, r1, r2⟩ := gridObjF_call h0 hδ hr jk je h3 hform hNv hn hx hm
  refine ⟨R, r1, fun g hg => ⟨fun a B hB => (r2 g hg).1 a B fun j j0 j1 => hB j j0 ?_, (r2 g hg).2⟩⟩
  have : j < n a + p a + 2 := j1
  omega

namespace Ex

/-- a surface with weights and fields -/
example := C112_ctor (fl 53) kn2 (C := cp2) (W := some wt2) (Or.inr ⟨rfl, rfl⟩) (some fd2)

/-- its evaluation -/
example (jk : ℤ → Fp ℚ) (je : ℤ → ℕ → Fp ℚ) : ∃ R Q, Fp.ctor (fl 53) kn2 (.pair (some cp2) (some wt2)) (some fd2) none = .ok R ∧
    R.callF (fl 53) jk je (fun _ => 0) (fun _ _ => 1 / 3) = .ok Q := by
  obtain ⟨N, n1, n2, n3, n4, -⟩ := C23_constructor fits (Or.inr ⟨rfl, rfl⟩)
  have l0 : N.len 0 = 9 := (List.cons.inj (n3 0).1).1.symm
  have l1 : N.len 1 = 6 := (List.cons.inj (n3 1).1).1.symm
  have d0 : N.degree 0 = 2 := by rw [(n3 0).2.2.1, l0]; rfl
  have d1 : N.degree 1 = 2 := by rw [(n3 1).2.2.1, l1]; rfl
  have u0 : N.U 0 = Ex.U := funext (n3 0).2.1
  have u1 : N.U 1 = Ex.W := funext (n3 1).2.1
  have v0 : N.n 0 = 5 := by unfold Nrb.n; rw [n2]; rfl
  have v1 : N.n 1 = 2 := by unfold Nrb.n; rw [n2]; rfl
  obtain ⟨R, r1, Q, q1, -⟩ := C112_call (by positivity) (by norm_num : (2 : ℚ) ^ (-(53 : ℕ) : ℤ) < 1) (fl_relErr 53) jk je
    (Or.inr ⟨rfl, rfl⟩) n1 (by norm_num) (by
      intro a
      fin_cases a
      · show ValidKnots (N.n 0) (N.degree 0) (N.U 0)
        rw [v0, d0, u0]; exact Ex.U_valid
      · show ValidKnots (N.n 1) (N.degree 1) (N.U 1)
        rw [v1, d1, u1]; exact Ex.W_valid) (by
      intro idx hidx
      have h : N.P idx 3 = 1 + (idx 0 : ℚ) := (n4 idx).1
      have := (hidx 0).1
      rw [h]
      have : (0 : ℚ) ≤ (idx 0 : ℚ) := by exact_mod_cast this
      linarith) (r := fun _ => 0) (X := fun _ _ => 1 / 3) (fun _ => le_rfl) (by
      intro a i _ _
      fin_cases a
      · show N.lo 0 ≤ 1 / 3 ∧ 1 / 3 ≤ N.hi 0
        rw [Nrb.lo_eq, Nrb.hi_eq, d0, v0, u0]
        decide +kernel
      · show N.lo 1 ≤ 1 / 3 ∧ 1 / 3 ≤ N.hi 1
        rw [Nrb.lo_eq, Nrb.hi_eq, d1, v1, u1]
        decide +kernel) rfl
  exact ⟨R, Q, r1, q1⟩

/-- the default object over a knot vector -/
example (jk : ℤ → Fp ℚ) (je : ℤ → ℕ → Fp ℚ) := C112_default (by positivity) (by norm_num : (2 : ℚ) ^ (-(53 : ℕ) : ℤ) < 1) (fl_relErr 53) jk je
  (knots := (![⟨[9], fun i => Ex.U (i.headD 0)⟩] : Fin 1 → Nd ℚ)) le_rfl (by decide)
  (n := ![5]) (p := ![2]) (by
    intro a
    fin_cases a
    refine ⟨rfl, Ex.U_valid, ?_⟩
    intro j h1 h2
    have h2 : j ≤ 2 := h2
    rcases (by omega : j = 1 ∨ j = 2) with rfl | rfl <;> decide +kernel) rfl

end Ex
end Igakit
