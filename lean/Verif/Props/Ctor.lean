import Verif.Props.Greville

/-!
# C23: the constructor stores what the accessors return
-/

set_option linter.unusedSectionVars false

namespace Igakit
open Spec

variable {K : Type} [Field K] [LinearOrder K] [IsStrictOrderedRing K] {d : ℕ}

theorem res_bind_ok_iff {α β : Type} {x : Res α} {f : α → Res β} {b : β} :
    (x >>= f) = .ok b ↔ ∃ a, x = .ok a ∧ f a = .ok b := by
  cases x with
  | error e => simp
  | ok a => simp

theorem res_bind_err_iff {α β : Type} {x : Res α} {f : α → Res β} {e : Err} :
    (x >>= f) = .error e ↔ x = .error e ∨ ∃ a, x = .ok a ∧ f a = .error e := by
  cases x with
  | error e => simp
  | ok a => simp

theorem pyAssert_ok_iff {c : Prop} [Decidable c] {u : Unit} : pyAssert c = .ok u ↔ c := by
  unfold pyAssert
  split_ifs with h <;> simp [h]

theorem pyAssert_err_iff {c : Prop} [Decidable c] {e : Err} :
    pyAssert c = .error e ↔ ¬ c ∧ e = .assertion := by
  unfold pyAssert
  split_ifs with h <;> simp [h, eq_comm]

/-- control points and weights are passed as two arguments or as a 2-tuple -/
def PassedAs (C : Nd K) (W : Option (Nd K)) (control : CtrlArg K) (weights : Option (Nd K)) : Prop :=
  (control = .arr C ∧ weights = W) ∨ (control = .pair (some C) W ∧ weights = none)

/-- the shapes fit: `d` knot vectors, a control net with `sh` points of `s` components, weights and
fields of the same shape, and degree at least one on each axis -/
structure ShapesFit (knots : Fin d → Nd K) (C : Nd K) (W F : Option (Nd K)) (sh : Fin d → ℤ) (s : ℤ) :
    Prop where
  dim : 1 ≤ d ∧ d ≤ 3
  knots : ∀ a, ∃ len, (knots a).shape = [len] ∧ 4 ≤ len ∧ 1 ≤ len - sh a - 1
  control : C.shape = List.ofFn sh ++ [s]
  comps : 2 ≤ s ∧ s ≤ 4
  weights : ∀ w, W = some w → s < 4 ∧ w.shape = List.ofFn sh
  fields : ∀ f, F = some f → f.shape = List.ofFn sh ∨ ∃ nf, f.shape = List.ofFn sh ++ [nf]

/-- the weight of control point `idx` as given by the caller -/
def givenWeight (C : Nd K) (W : Option (Nd K)) (s : ℤ) (idx : Fin d → ℤ) : K :=
  match W with
  | some w => w.get (List.ofFn idx)
  | none => if s = 4 then C.get (List.ofFn idx ++ [3]) else 1

/-- coordinate `c` of control point `idx` as given by the caller: missing coordinates are zero, and nets
with four components are homogeneous -/
def givenPoint (C : Nd K) (s : ℤ) (idx : Fin d → ℤ) (c : Fin 3) : K :=
  if s = 4 then C.get (List.ofFn idx ++ [((c : ℕ) : ℤ)]) / C.get (List.ofFn idx ++ [3])
  else if ((c : ℕ) : ℤ) < s then C.get (List.ofFn idx ++ [((c : ℕ) : ℤ)]) else 0

/-- the fields returned are those given (where the weight is nonzero) -/
def FieldsAre (N : Nrb K d) (F : Option (Nd K)) (sh : Fin d → ℤ) : Prop :=
  match F with
  | none => N.fields = none
  | some f =>
    (f.shape = List.ofFn sh → ∃ D, N.fields = some (1, D) ∧
      ∀ idx, N.weights idx ≠ 0 → D idx 0 = f.get (List.ofFn idx)) ∧
    (∀ nf : ℕ, f.shape = List.ofFn sh ++ [(nf : ℤ)] →
      (nf = 0 → N.fields = none) ∧
      (0 < nf → ∃ D, N.fields = some (nf, D) ∧
        ∀ idx (c : ℕ), c < nf → N.weights idx ≠ 0 → D idx c = f.get (List.ofFn idx ++ [(c : ℤ)])))

theorem ctorControl_ok {C : Nd K} {W : Option (Nd K)} {sh : Fin d → ℤ} {s : ℤ} (h1 : 1 ≤ d)
    (hC : C.shape = List.ofFn sh ++ [s]) (hs : 2 ≤ s ∧ s ≤ 4)
    (hW : ∀ w, W = some w → s < 4 ∧ w.shape = List.ofFn sh) :
    ∃ H : HNet K, Nrb.ctorControl C W = .ok H ∧ H.shape = List.ofFn sh ∧ H.nc = 4 ∧
      ∀ idx : Fin d → ℤ, H.get (List.ofFn idx) 3 = givenWeight C W s idx ∧
        (givenWeight C W s idx ≠ 0 → ∀ c : Fin 3,
          H.get (List.ofFn idx) c / givenWeight C W s idx = givenPoint C s idx c) := by
  have hc3 : ∀ c : Fin 3, ((c : ℕ) : ℤ) < 3 := fun c => by have := c.2; omega
  unfold Nrb.ctorControl
  rw [hC, pyAssert_ok (by simp; omega), res_ok_bind]
  simp only [List.getLastD_concat, List.dropLast_concat]
  rw [pyAssert_ok hs.1, res_ok_bind, pyAssert_ok hs.2, res_ok_bind]
  by_cases h4 : s < 4
  · rw [if_pos h4]
    cases W with
    | some w =>
      simp only
      rw [pyAssert_ok (hW w rfl).2, res_ok_bind, res_pure]
      refine ⟨_, rfl, rfl, rfl, fun idx => ⟨?_, ?_⟩⟩
      · simp only [givenWeight]
        rw [if_neg (by omega)]; simp
      · intro hw c
        simp only [givenWeight] at hw ⊢
        unfold givenPoint
        rw [if_neg (by omega : ¬ s = 4)]
        by_cases hc : ((c : ℕ) : ℤ) < s
        · rw [if_pos hc, if_pos hc, mul_div_cancel_right₀ _ hw]
        · have := hc3 c
          rw [if_neg hc, if_neg hc, if_neg (by omega), zero_div]
    | none =>
      simp only [res_pure]
      refine ⟨_, rfl, rfl, rfl, fun idx => ⟨?_, ?_⟩⟩
      · simp only [givenWeight]
        rw [if_neg (by omega : ¬ s = 4), if_neg (by omega)]; simp
      · intro hw c
        simp only [givenWeight] at hw ⊢
        unfold givenPoint
        rw [if_neg (by omega : ¬ s = 4), if_neg (by omega : ¬ s = 4), div_one]
        by_cases hc : ((c : ℕ) : ℤ) < s
        · rw [if_pos hc, if_pos hc]
        · have := hc3 c
          rw [if_neg hc, if_neg hc, if_neg (by omega)]
  · have e4 : s = 4 := by omega
    subst e4
    have hWn : W = none := by
      cases W with
      | none => rfl
      | some w => exact absurd (hW w rfl).1 h4
    subst hWn
    rw [if_neg h4, pyAssert_ok (by rfl), res_ok_bind, res_pure]
    refine ⟨_, rfl, rfl, rfl, fun idx => ⟨?_, ?_⟩⟩
    · simp only [givenWeight]; simp
    · intro hw c
      simp only [givenWeight, givenPoint]; simp

theorem ctorFields_ok {H : HNet K} {F : Option (Nd K)} {sh : Fin d → ℤ} (hH : H.shape = List.ofFn sh)
    (hnc : H.nc = 4) (hF : ∀ f, F = some f → f.shape = List.ofFn sh ∨ ∃ nf, f.shape = List.ofFn sh ++ [nf]) :
    ∃ A, Nrb.ctorFields H F = .ok A ∧ A.shape = List.ofFn sh ∧
      (∀ idx c, c < 4 → A.get idx c = H.get idx c) ∧ (F = none → A.nc = 4) ∧
      ∀ f, F = some f →
        (f.shape = List.ofFn sh → A.nc = 5 ∧ ∀ idx, A.get idx 4 = f.get idx * H.get idx 3) ∧
        (∀ nf : ℕ, f.shape = List.ofFn sh ++ [(nf : ℤ)] → A.nc = 4 + nf ∧
          ∀ idx c, A.get idx (4 + c) = f.get (idx ++ [(c : ℤ)]) * H.get idx 3) := by
  have hne : ∀ x : ℤ, List.ofFn sh ++ [x] ≠ List.ofFn sh := by
    intro x h
    have := congrArg List.length h
    simp at this
  unfold Nrb.ctorFields
  cases F with
  | none =>
    refine ⟨H, rfl, hH, fun _ _ _ => rfl, fun _ => hnc, fun f hf => by cases hf⟩
  | some f =>
    simp only
    by_cases hs : f.shape = H.shape
    · rw [if_pos hs, res_pure]
      refine ⟨_, rfl, hH, ?_, (fun h => by cases h), ?_⟩
      · intro idx c hc
        simp only [Nrb.appendFields]
        rw [if_pos hc]
      · rintro g ⟨⟩
        refine ⟨fun _ => ⟨rfl, fun idx => ?_⟩, fun nf hn => ?_⟩
        · simp only [Nrb.appendFields]
          rw [if_neg (by omega)]
        · exact absurd (hn.symm.trans (hs.trans hH)) (hne _)
    · rw [if_neg hs]
      rcases hF f rfl with h | ⟨nf, h⟩
      · exact absurd (h.trans hH.symm) hs
      · rw [h, hH, pyAssert_ok (by simp), res_ok_bind, pyAssert_ok (by simp), res_ok_bind, res_pure]
        simp only [List.getLastD_concat]
        refine ⟨_, rfl, hH, ?_, (fun h => by cases h), ?_⟩
        · intro idx c hc
          simp only [Nrb.appendFields]
          rw [if_pos hc]
        · rintro g ⟨⟩
          refine ⟨fun h' => absurd (h.symm.trans h') (hne _), fun mf hm => ?_⟩
          have e : nf = (mf : ℤ) := by
            have := h.symm.trans hm
            have := List.append_cancel_left this
            simpa using this
          subst e
          refine ⟨by simp [Nrb.appendFields], fun idx c => ?_⟩
          simp only [Nrb.appendFields]
          rw [if_neg (by omega), Nat.add_sub_cancel_left]

/-- C23: when the shapes fit, the constructor succeeds, and the accessors return the knots, the degrees,
the points, the weights and the fields that were given. -/
theorem C23_constructor {knots : Fin d → Nd K} {C : Nd K} {W F : Option (Nd K)} {sh : Fin d → ℤ} {s : ℤ}
    (h : ShapesFit knots C W F sh s) {control : CtrlArg K} {weights : Option (Nd K)}
    (hp : PassedAs C W control weights) :
    ∃ N, Nrb.ctor knots control F weights = .ok N ∧ N.shape = sh ∧
      (∀ a, (knots a).shape = [N.len a] ∧ (∀ j, N.U a j = (knots a).get [j]) ∧
        N.degree a = N.len a - sh a - 1 ∧ 1 ≤ N.degree a) ∧
      (∀ idx, N.weights idx = givenWeight C W s idx ∧
        (givenWeight C W s idx ≠ 0 → ∀ c, N.points idx c = givenPoint C s idx c)) ∧
      FieldsAre N F sh := by
  obtain ⟨hd, hk, hC, hs, hW, hF⟩ := h
  choose len hk1 hk2 hk3 using hk
  have hl : (fun a => (knots a).shape.headD 0) = len := by funext a; rw [hk1 a]; rfl
  obtain ⟨H, hH, hHs, hHn, hHg⟩ := ctorControl_ok hd.1 hC hs hW
  obtain ⟨A, hA, hAs, hAg, hAn, hAf⟩ := ctorFields_ok hHs hHn hF
  have hsh : (fun a : Fin d => A.shape.getD a 0) = sh := by funext a; rw [hAs]; simp
  have hargs : Nrb.ctorArgs control weights = .ok (some C, W) := by
    rcases hp with ⟨rfl, rfl⟩ | ⟨rfl, rfl⟩ <;> rfl
  have hres : Nrb.ctor knots control F weights = .ok
      { shape := sh, nc := A.nc, len := len, U := fun a j => (knots a).get [j],
        P := fun idx => A.get (List.ofFn idx) } := by
    unfold Nrb.ctor
    rw [pyAssert_ok hd.1, res_ok_bind, pyAssert_ok hd.2, res_ok_bind, pyAssert_ok (fun a => by
      rw [hk1 a]; exact ⟨rfl, hk2 a⟩), res_ok_bind, hargs, res_ok_bind]
    simp only [Nrb.ctorNet]
    rw [hH, res_ok_bind, hA, res_ok_bind, pyAssert_ok (by rw [hAs]; simp), res_ok_bind, pyAssert_ok,
      res_ok_bind, hl, hsh, res_pure]
    intro a
    have e1 : (knots a).shape.headD 0 = len a := congrFun hl a
    have e2 : A.shape.getD a 0 = sh a := congrFun hsh a
    rw [e1, e2]
    have := hk3 a
    omega
  refine ⟨_, hres, rfl, ?_, ?_, ?_⟩
  · intro a
    have := hk3 a
    refine ⟨hk1 a, fun j => rfl, ?_, ?_⟩ <;> simp only [Nrb.degree] <;> omega
  · intro idx
    have e : A.get (List.ofFn idx) 3 = givenWeight C W s idx := by rw [hAg _ _ (by omega), (hHg idx).1]
    refine ⟨e, fun hw c => ?_⟩
    simp only [Nrb.points, Nrb.weights]
    rw [e, hAg _ _ (by have := c.2; omega)]
    exact (hHg idx).2 hw c
  · unfold FieldsAre
    cases F with
    | none =>
      simp only [Nrb.fields]
      rw [hAn rfl, if_pos le_rfl]
    | some f =>
      obtain ⟨f1, f2⟩ := hAf f rfl
      simp only [Nrb.fields, Nrb.weights]
      refine ⟨fun hf => ?_, fun nf hf => ⟨?_, ?_⟩⟩
      · obtain ⟨e1, e2⟩ := f1 hf
        rw [e1, if_neg (by omega)]
        refine ⟨_, rfl, fun idx hw => ?_⟩
        rw [show 4 + 0 = 4 from rfl, e2, ← hAg _ 3 (by omega), mul_div_cancel_right₀ _ hw]
      · rintro rfl
        rw [(f2 0 hf).1, if_pos (by omega)]
      · intro hpos
        obtain ⟨e1, e2⟩ := f2 nf hf
        rw [e1, if_neg (by omega)]
        refine ⟨_, by rw [Nat.add_sub_cancel_left], fun idx c hc hw => ?_⟩
        rw [e2, ← hAg _ 3 (by omega), mul_div_cancel_right₀ _ hw]

theorem ctorControl_inv {C : Nd K} {W : Option (Nd K)} {r : Res (HNet K)} (h : Nrb.ctorControl C W = r) :
    r = .error .assertion ∨ ∃ H, r = .ok H ∧ 2 ≤ C.shape.length ∧ 2 ≤ C.shape.getLastD 0 ∧
      C.shape.getLastD 0 ≤ 4 ∧ H.shape = C.shape.dropLast ∧
      ∀ w, W = some w → C.shape.getLastD 0 < 4 ∧ w.shape = C.shape.dropLast := by
  subst h
  unfold Nrb.ctorControl
  by_cases h1 : 2 ≤ C.shape.length
  · rw [pyAssert_ok h1, res_ok_bind]
    dsimp only
    by_cases h2 : 2 ≤ C.shape.getLastD 0
    · rw [pyAssert_ok h2, res_ok_bind]
      by_cases h3 : C.shape.getLastD 0 ≤ 4
      · rw [pyAssert_ok h3, res_ok_bind]
        by_cases h4 : C.shape.getLastD 0 < 4
        · rw [if_pos h4]
          cases W with
          | none => exact Or.inr ⟨_, rfl, h1, h2, h3, rfl, fun w h => by cases h⟩
          | some w =>
            simp only
            by_cases h5 : w.shape = C.shape.dropLast
            · rw [pyAssert_ok h5]
              refine Or.inr ⟨_, rfl, h1, h2, h3, rfl, fun w' h => ?_⟩
              cases h
              exact ⟨h4, h5⟩
            · rw [pyAssert_err h5]; exact Or.inl rfl
        · rw [if_neg h4]
          cases W with
          | none => exact Or.inr ⟨_, rfl, h1, h2, h3, rfl, fun w h => by cases h⟩
          | some w => exact Or.inl rfl
      · rw [pyAssert_err h3]; exact Or.inl rfl
    · rw [pyAssert_err h2]; exact Or.inl rfl
  · rw [pyAssert_err h1]; exact Or.inl rfl

theorem ctorFields_inv {H : HNet K} {F : Option (Nd K)} {r : Res (HNet K)} (h : Nrb.ctorFields H F = r) :
    r = .error .assertion ∨ ∃ A, r = .ok A ∧ A.shape = H.shape ∧
      ∀ f, F = some f → f.shape = H.shape ∨
        ((f.shape.length : ℤ) - 1 = H.shape.length ∧ f.shape.dropLast = H.shape) := by
  subst h
  unfold Nrb.ctorFields
  cases F with
  | none => exact Or.inr ⟨_, rfl, rfl, fun f h => by cases h⟩
  | some f =>
    simp only
    by_cases h1 : f.shape = H.shape
    · rw [if_pos h1]
      refine Or.inr ⟨_, rfl, rfl, fun f' h => ?_⟩
      cases h
      exact Or.inl h1
    · rw [if_neg h1]
      by_cases h2 : (f.shape.length : ℤ) - 1 = H.shape.length
      · rw [pyAssert_ok h2, res_ok_bind]
        by_cases h3 : f.shape.dropLast = H.shape
        · rw [pyAssert_ok h3, res_ok_bind]
          refine Or.inr ⟨_, rfl, rfl, fun f' h => ?_⟩
          cases h
          exact Or.inr ⟨h2, h3⟩
        · rw [pyAssert_err h3]; exact Or.inl rfl
      · rw [pyAssert_err h2]; exact Or.inl rfl

/-- C23: arguments whose shapes do not fit are rejected with AssertionError. -/
theorem C23_rejects {knots : Fin d → Nd K} {C : Nd K} {W F : Option (Nd K)} {control : CtrlArg K}
    {weights : Option (Nd K)} (hp : PassedAs C W control weights)
    (h : ∀ sh s, ¬ ShapesFit knots C W F sh s) :
    Nrb.ctor knots control F weights = .error .assertion := by
  have hargs : Nrb.ctorArgs control weights = .ok (some C, W) := by
    rcases hp with ⟨rfl, rfl⟩ | ⟨rfl, rfl⟩ <;> rfl
  unfold Nrb.ctor
  by_cases h1 : 1 ≤ d
  swap
  · rw [pyAssert_err h1]; rfl
  rw [pyAssert_ok h1, res_ok_bind]
  by_cases h2 : d ≤ 3
  swap
  · rw [pyAssert_err h2]; rfl
  rw [pyAssert_ok h2, res_ok_bind]
  by_cases h3 : ∀ a, (knots a).shape.length = 1 ∧ 4 ≤ (knots a).shape.headD 0
  swap
  · rw [pyAssert_err h3]; rfl
  rw [pyAssert_ok h3, res_ok_bind, hargs, res_ok_bind]
  simp only [Nrb.ctorNet]
  rcases ctorControl_inv (C := C) (W := W) rfl with e | ⟨H, e, c1, c2, c3, c4, c5⟩
  · rw [e]; rfl
  rw [e, res_ok_bind]
  rcases ctorFields_inv (H := H) (F := F) rfl with e | ⟨A, e, a1, a2⟩
  · rw [e]; rfl
  rw [e, res_ok_bind]
  by_cases h4 : A.shape.length = d
  swap
  · rw [pyAssert_err h4]; rfl
  rw [pyAssert_ok h4, res_ok_bind]
  by_cases h5 : ∀ a : Fin d, 1 ≤ ((knots a).shape.headD 0 - 1) - (A.shape.getD a 0 - 1) - 1
  swap
  · rw [pyAssert_err h5]; rfl
  exfalso
  have hsh : List.ofFn (fun a : Fin d => A.shape.getD a 0) = C.shape.dropLast := by
    rw [← c4, ← a1]
    apply List.ext_getElem (by simp [h4])
    intro i hi hi'
    simp [List.getElem?_eq_getElem hi']
  have hCn : C.shape ≠ [] := by rintro h; rw [h] at c1; simp at c1
  refine h (fun a => A.shape.getD a 0) (C.shape.getLastD 0) ⟨⟨h1, h2⟩, ?_, ?_, ⟨c2, c3⟩, ?_, ?_⟩
  · intro a
    obtain ⟨k1, k2⟩ := h3 a
    obtain ⟨len, hlen⟩ := List.length_eq_one_iff.mp k1
    refine ⟨len, hlen, by simpa [hlen] using k2, ?_⟩
    have := h5 a
    rw [hlen] at this
    simp only [List.headD_cons] at this
    omega
  · rw [hsh, List.getLastD_eq_getLast?, List.getLast?_eq_some_getLast hCn]
    simp [List.dropLast_append_getLast hCn]
  · rw [hsh]; exact c5
  · intro f hf
    rw [hsh, ← c4]
    rcases a2 f hf with e | ⟨e1, e2⟩
    · exact Or.inl e
    · have hfn : f.shape ≠ [] := by rintro h; rw [h] at e1; simp at e1
      exact Or.inr ⟨f.shape.getLast hfn, by rw [← e2, List.dropLast_append_getLast hfn]⟩

/-- C23: weights given twice (in a pair with the points and by keyword), and weights given without
control points, are rejected with AssertionError. -/
theorem C23_ambiguous (knots : Fin d → Nd K) (F : Option (Nd K)) (W : Nd K) :
    (∀ C W', Nrb.ctor knots (.pair C W') F (some W) = .error .assertion) ∧
      Nrb.ctor knots .none F (some W) = .error .assertion ∧
      Nrb.ctor knots (.pair none (some W)) F none = .error .assertion := by
  have key : ∀ control weights, (Nrb.ctorArgs control weights = .error .assertion ∨
      Nrb.ctorArgs control weights = .ok (none, some W)) →
      Nrb.ctor knots control F weights = .error .assertion := by
    intro control weights h
    unfold Nrb.ctor
    by_cases h1 : 1 ≤ d
    swap
    · rw [pyAssert_err h1]; rfl
    rw [pyAssert_ok h1, res_ok_bind]
    by_cases h2 : d ≤ 3
    swap
    · rw [pyAssert_err h2]; rfl
    rw [pyAssert_ok h2, res_ok_bind]
    by_cases h3 : ∀ a, (knots a).shape.length = 1 ∧ 4 ≤ (knots a).shape.headD 0
    swap
    · rw [pyAssert_err h3]; rfl
    rw [pyAssert_ok h3, res_ok_bind]
    rcases h with h | h
    · rw [h]; rfl
    · rw [h, res_ok_bind]; rfl
  exact ⟨fun C W' => key _ _ (Or.inl rfl), key _ _ (Or.inr rfl), key _ _ (Or.inr rfl)⟩

theorem degLoop_eq {U : ℤ → K} {len p : ℤ} (hp : p + 1 < len) (hne : U p ≠ U (p + 1)) :
    ∀ (fuel : ℕ) (q : ℤ), q ≤ p → p - q < fuel → (∀ j, q ≤ j → j < p → U j = U (j + 1)) →
      degLoop U len fuel q = .ok p := by
  intro fuel
  induction fuel with
  | zero => intro q h1 h2; omega
  | succ fuel ih =>
    intro q h1 h2 h3
    unfold degLoop
    rw [if_pos (by omega)]
    by_cases h : q = p
    · subst h; rw [if_neg hne]
    · rw [if_pos (h3 q le_rfl (by omega)), ih (q + 1) (by omega) (by push_cast at h2; omega)
        (fun j a b => h3 j (by omega) b)]

/-- C23: without control points, on open knot vectors of multiplicity `p + 1` at the start, the
constructor finds the degree and makes the identity map of the parameter box. -/
theorem C23_default {knots : Fin d → Nd K} (h1 : 1 ≤ d) (h3 : d ≤ 3) {n : Fin d → ℤ} {p : Fin d → ℕ}
    (hk : ∀ a, (knots a).shape = [n a + p a + 2] ∧ ValidKnots (n a) (p a) (fun j => (knots a).get [j]) ∧
      ∀ j : ℤ, 1 ≤ j → j ≤ p a → (knots a).get [j] = (knots a).get [(p a : ℤ)]) :
    ∃ N, Nrb.ctor knots .none none none = .ok N ∧ N.Valid ∧ (∀ a, N.degree a = p a ∧ N.n a = n a ∧
      ∀ j, N.U a j = (knots a).get [j]) ∧ N.IsIdentity := by
  set U : Fin d → ℤ → K := fun a j => (knots a).get [j] with hU
  have hl : (fun a => (knots a).shape.headD 0) = fun a => n a + p a + 2 := by
    funext a; rw [(hk a).1]; rfl
  have hla : ∀ a, (knots a).shape.headD 0 = n a + p a + 2 := congrFun hl
  have hv : ∀ a, ValidKnots (n a) (p a) (U a) := fun a => (hk a).2.1
  have hp1 := fun a => (hv a).one_le
  have hpn := fun a => (hv a).le
  have hdeg : seqFin (fun a => degLoop (U a) (n a + p a + 2) (n a + p a + 2).toNat 1) =
      .ok (fun a => (p a : ℤ)) := by
    apply seqFin_ok
    intro a
    have := hp1 a
    have := hpn a
    refine degLoop_eq (by omega) (hv a).first.ne _ 1 (by omega) (by omega) ?_
    intro j h1 h2
    have e1 : U a j = U a (p a) := (hk a).2.2 j h1 (by omega)
    have e2 : U a (j + 1) = U a (p a) := (hk a).2.2 (j + 1) (by omega) (by omega)
    rw [e1, e2]
  have hgr : seqFin (fun a => BSp.Greville (p a : ℤ) (n a + p a + 2 - 1) (U a)) =
      .ok (fun a i => greville (p a) (U a) i) := by
    apply seqFin_ok
    intro a
    unfold BSp.Greville
    have := hpn a
    rw [if_pos ⟨hp1 a, by omega⟩]
  have hshape : (fun a : Fin d => (List.ofFn (fun a => n a + p a + 2 - 1 - (p a + 1) + 1)).getD a 0) =
      fun a => n a + 1 := by
    funext a; simp; ring
  have hres : Nrb.ctor knots .none none none = .ok (Nrb.mk (fun a => n a + 1) 4 (fun a => n a + p a + 2) U
      (fun idx => grevNet (fun a i => greville (p a) (U a) i) (List.ofFn idx))) := by
    unfold Nrb.ctor
    rw [pyAssert_ok h1, res_ok_bind, pyAssert_ok h3, res_ok_bind, pyAssert_ok (fun a => by
      rw [(hk a).1]; exact ⟨rfl, by have := hp1 a; have := hpn a; simp only [List.headD_cons]; omega⟩),
      res_ok_bind]
    simp only [Nrb.ctorArgs, res_pure, res_ok_bind, Nrb.ctorNet]
    rw [pyAssert_ok (by rfl), res_ok_bind]
    unfold Nrb.ctorDefault
    simp only [hla]
    rw [hdeg, res_ok_bind, hgr, res_ok_bind, res_pure, res_ok_bind]
    simp only [Nrb.ctorFields, res_pure, res_ok_bind]
    rw [pyAssert_ok (by simp), res_ok_bind, pyAssert_ok, res_ok_bind, hshape]
    intro a
    have e : (List.ofFn (fun a => n a + p a + 2 - 1 - (p a + 1) + 1)).getD a 0 = n a + 1 := congrFun hshape a
    rw [e]
    have := hp1 a
    omega
  refine ⟨_, hres, ?_⟩
  set N : Nrb K d := Nrb.mk (fun a => n a + 1) 4 (fun a => n a + p a + 2) U
      (fun idx => grevNet (fun a i => greville (p a) (U a) i) (List.ofFn idx)) with hN
  have hND : ∀ a, N.degree a = p a := fun a => by simp only [hN, Nrb.degree]; ring
  have hNn : ∀ a, N.n a = n a := fun a => by simp only [hN, Nrb.n]; ring
  have hNv : N.Valid := fun a => by rw [hND, hNn]; exact hv a
  refine ⟨hNv, fun a => ⟨hND a, hNn a, fun j => rfl⟩, identity_of_grevNet h3 hNv rfl ?_⟩
  intro idx c _ _
  simp only [hND]
  rfl

namespace Ex

/-- knot vectors of a 6 x 3 surface -/
def kn2 : Fin 2 → Nd ℚ := ![⟨[9], fun i => Ex.U (i.headD 0)⟩, ⟨[6], fun i => Ex.W (i.headD 0)⟩]
/-- planar control points -/
def cp2 : Nd ℚ := ⟨[6, 3, 2], fun i => i.sum⟩
/-- weights -/
def wt2 : Nd ℚ := ⟨[6, 3], fun i => 1 + i.headD 0⟩
/-- two fields -/
def fd2 : Nd ℚ := ⟨[6, 3, 2], fun i => 7 * i.sum⟩

theorem fits : ShapesFit kn2 cp2 (some wt2) (some fd2) ![6, 3] 2 where
  dim := by decide
  knots := by
    intro a
    fin_cases a
    · exact ⟨9, rfl, by decide, by decide⟩
    · exact ⟨6, rfl, by decide, by decide⟩
  control := rfl
  comps := by decide
  weights := by rintro w ⟨⟩; exact ⟨by decide, rfl⟩
  fields := by rintro w ⟨⟩; exact Or.inr ⟨2, rfl⟩

example := C23_constructor fits (Or.inr ⟨rfl, rfl⟩)

/-- a net with the wrong number of points -/
example : Nrb.ctor kn2 (.arr ⟨[6, 5, 2], fun _ => 0⟩) none none = .error .assertion :=
  C23_rejects (Or.inl ⟨rfl, rfl⟩) (by
    intro sh s h
    obtain ⟨len, e1, e2, e3⟩ := h.knots 1
    have e4 : len = 6 := by
      have : [(6 : ℤ)] = [len] := e1
      simpa using this.symm
    have e5 : sh 1 = 5 := by
      have : [(6 : ℤ), 5, 2] = List.ofFn sh ++ [s] := h.control
      simp [List.ofFn_succ] at this
      exact this.2.1.symm
    omega)

/-- weights given twice -/
example := (C23_ambiguous kn2 none wt2).1 (some cp2) (some wt2)

example := C23_default (knots := (![⟨[9], fun i => Ex.U (i.headD 0)⟩] : Fin 1 → Nd ℚ)) le_rfl (by decide)
  (n := ![5]) (p := ![2]) (by
    intro a
    fin_cases a
    refine ⟨rfl, Ex.U_valid, ?_⟩
    intro j h1 h2
    have h2 : j ≤ 2 := h2
    rcases (by omega : j = 1 ∨ j = 2) with rfl | rfl <;> decide +kernel)

end Ex

end Igakit
