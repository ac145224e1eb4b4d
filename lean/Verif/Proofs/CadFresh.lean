import Verif.Proofs.CadHeap

/-! # The result of `cad.refine` shares no array -/

set_option linter.unusedSectionVars false

namespace Igakit

variable {K : Type} [Field K] [LinearOrder K]

namespace Heap

/-- `clamp` gives the object a new net and new knots on the axis -/
theorem clamp_obj {H H' : Heap K} {o d A : ℕ} {k : Fin (d + 1) → ℕ} (ho : o < H.no) (hx : H.obj o = ⟨d + 1, A, k⟩)
    {env : Env K} {jn : Scratch K} {axis : ℤ} {a : Fin (d + 1)} (ha : normAxis (d + 1) axis = .ok a) {side : Option ℤ}
    (h : Heap.clamp env jn o axis side H = (.ok (), H')) :
    H'.obj o = ⟨d + 1, H.na + 1, Function.update k a H.na⟩ := by
  unfold Heap.clamp at h
  rw [getObj_run ho, hx] at h
  dsimp only at h
  rw [ha] at h
  rw [bind_ok (m := lift (.ok a)) (x := a) (H' := H) rfl, contents_run] at h
  cases hl : Nrb.sideFlags side with
  | error e => rw [hl, bind_err (m := lift (.error e)) (e := e) (H' := H) rfl] at h; cases (Prod.mk.inj h).1
  | ok lr =>
    rw [hl, bind_ok (m := lift (.ok lr)) (x := lr) (H' := H) rfl] at h
    change (lift (BSp.Clamp env.eps jn.rows ((H.nrb ⟨d + 1, A, k⟩).n a) ((H.nrb ⟨d + 1, A, k⟩).degree a)
      ((H.nrb ⟨d + 1, A, k⟩).U a) ((H.nrb ⟨d + 1, A, k⟩).row a) lr.1 lr.2) >>= _) H = _ at h
    generalize BSp.Clamp env.eps jn.rows ((H.nrb ⟨d + 1, A, k⟩).n a) ((H.nrb ⟨d + 1, A, k⟩).degree a)
      ((H.nrb ⟨d + 1, A, k⟩).U a) ((H.nrb ⟨d + 1, A, k⟩).row a) lr.1 lr.2 = r at h
    cases r with
    | error e => rw [bind_err (m := lift (.error e)) (e := e) (H' := H) rfl] at h; cases (Prod.mk.inj h).1
    | ok VQ =>
      rw [bind_ok (m := lift (.ok VQ)) (x := VQ) (H' := H) rfl] at h
      rw [← (Prod.mk.inj h).2]
      dsimp only
      rw [Function.update_self, Function.update_self]

/-- a condition that holds after every statement, with an exception or not -/
structure Stable (na0 o : ℕ) (H : Heap K) : Prop where
  sound : H.Sound
  na : na0 ≤ H.na
  lt : o < H.no

/-- the axes in `T` have new knots, and the net is new if there are any -/
def NewOn (na0 o d : ℕ) (T : Fin (d + 1) → Prop) (H : Heap K) : Prop :=
  ∃ A k, H.obj o = ⟨d + 1, A, k⟩ ∧ (∀ a, T a → na0 ≤ k a) ∧ ((∃ a, T a) → na0 ≤ A)

theorem geo_stable {na0 o : ℕ} {H : Heap K} (h : Stable na0 o H) (env : Env K) (jn : Scratch K) (g : Geo K) :
    Stable na0 o (g.run env jn o H).2 := by
  have he := geo_ext h.sound env jn o g
  exact ⟨he.sound h.sound fun i hi => hi.2, h.na.trans he.na, lt_of_lt_of_le h.lt he.no⟩

theorem clamp_tri {na0 o d : ℕ} (env : Env K) (jn : Scratch K) (a : Fin (d + 1)) (T : Fin (d + 1) → Prop) :
    Tri (Stable na0 o) (NewOn na0 o d T) (Heap.clamp env jn o ((a : ℕ) : ℤ) none)
      (fun _ => NewOn na0 o d (fun b => T b ∨ b = a)) := by
  rintro H hI ⟨A, k, hx, h1, h2⟩
  refine ⟨geo_stable hI env jn (.clamp ((a : ℕ) : ℤ) none), fun x hx' => ?_⟩
  have := clamp_obj (H' := (Heap.clamp env jn o ((a : ℕ) : ℤ) none H).2) hI.lt hx (normAxis_self a) (Prod.ext hx' rfl)
  refine ⟨_, _, this, fun b hb => ?_, fun _ => hI.na.trans (Nat.le_succ _)⟩
  by_cases e : b = a
  · rw [e, Function.update_self]; exact hI.na
  · rw [Function.update_of_ne e]
    exact h1 b (hb.resolve_right e)

theorem clamps_tri {na0 o d : ℕ} (env : Env K) (S : ℕ → Scratch K) : ∀ (l : List (Fin (d + 1))) (T : Fin (d + 1) → Prop),
    Tri (Stable na0 o) (NewOn na0 o d T) (forEach l (fun a => Heap.clamp env (S a) o ((a : ℕ) : ℤ) none))
      (fun _ => NewOn na0 o d (fun b => T b ∨ b ∈ l))
  | [], T => fun H hI hP => ⟨hI, fun _ _ => by
      obtain ⟨A, k, hx, h1, h2⟩ := hP
      exact ⟨A, k, hx, fun a ha => h1 a (ha.resolve_right List.not_mem_nil), fun ⟨a, ha⟩ =>
        h2 ⟨a, ha.resolve_right List.not_mem_nil⟩⟩⟩
  | a :: l, T => by
    unfold forEach
    refine Tri.bind (clamp_tri env (S a) a T) fun _ => ?_
    intro H hI hP
    obtain ⟨r1, r2⟩ := clamps_tri env S l (fun b => T b ∨ b = a) H hI hP
    refine ⟨r1, fun x hx => ?_⟩
    obtain ⟨A, k, hx, h1, h2⟩ := r2 x hx
    have e : ∀ b, (T b ∨ b ∈ a :: l) ↔ ((T b ∨ b = a) ∨ b ∈ l) := fun b => by rw [List.mem_cons, or_assoc]
    exact ⟨A, k, hx, fun b hb => h1 b ((e b).1 hb), fun ⟨b, hb⟩ => h2 ⟨b, (e b).1 hb⟩⟩

/-- the object refers to new arrays only -/
def AllNew (na0 o : ℕ) (H : Heap K) : Prop := ∀ i, (H.obj o).Uses i → na0 ≤ i

theorem geo_new {na0 o : ℕ} (env : Env K) (jn : Scratch K) (g : Geo K) :
    Tri (Stable na0 o) (AllNew na0 o) (g.run env jn o) (fun _ => AllNew na0 o) := by
  intro H hI hP
  refine ⟨geo_stable hI env jn g, fun _ _ i hi => ?_⟩
  have he := geo_ext hI.sound env jn o g
  rcases he.uses o (lt_of_lt_of_le hI.lt he.no) (Or.inl rfl) i hi with h | h
  · exact hP i h.1
  · exact hI.na.trans h.1

theorem Tri.forEach {α : Type} {I P : Heap K → Prop} {f : α → HM K Unit} (h : ∀ x, Tri I P (f x) (fun _ => P)) :
    ∀ l : List α, Tri I P (Heap.forEach l f) (fun _ => P)
  | [] => fun _ hI hP => ⟨hI, fun _ _ => hP⟩
  | x :: l => by
    unfold Heap.forEach
    exact Tri.bind (h x) fun _ => Tri.forEach h l

theorem Tri.numbers {I P : Heap K → Prop} (d o : ℕ) : Tri I P (Heap.numbers d o) (fun _ => P) := by
  intro H hI hP
  unfold Heap.numbers
  split_ifs <;> exact ⟨hI, fun _ _ => hP⟩

namespace Cad

theorem refine_new {d o : ℕ} {H : Heap K} (hs : H.Sound) {N : Nrb K (d + 1)} (h : Is H o N) (env : Env K)
    (S : RefScratch K) (factor : PyArg Factor) (degree continuity : PyArg ℤ) {r : ℕ} {H' : Heap K}
    (he : Cad.refine env S d o factor degree continuity H = (.ok r, H')) : ∀ i, (H'.obj r).Uses i → H.na ≤ i := by
  obtain ⟨H1, e1, k1, i1, a1, o1⟩ := clone_run hs h
  have hr : r = H.no ∧ AllNew H.na H.no H' := by
    have key : Tri (Stable H.na H.no) (fun H2 => H2 = H1) (do
        let axes := List.finRange (d + 1)
        forEach axes (fun a => clamp env (S.clamp a) H.no ((a : ℕ) : ℤ) none)
        let X ← numbers (d + 1) H.no
        let deg ← lift (Igakit.Cad.arg degree (fun a => X.degree a))
        lift (pyAssert (∀ a, deg a > 0))
        forEach axes (fun a => do
          let X ← numbers (d + 1) H.no
          let t := deg a - X.degree a
          if t > 0 then elevate env (S.elevate a) H.no ((a : ℕ) : ℤ) (some t) else pure ())
        let X ← numbers (d + 1) H.no
        let fac ← lift (Igakit.Cad.arg factor (fun _ => Factor.all 1))
        lift (pyAssert (∀ a, (fac a).Pos))
        let con ← lift (Igakit.Cad.arg continuity (fun _ => -1))
        let C := fun a => if con a < 0 then con a + X.degree a else con a
        lift (pyAssert (∀ a, C a ≥ 0))
        lift (pyAssert (∀ a, C a < X.degree a))
        forEach axes (fun a => do
          let X ← numbers (d + 1) H.no
          let us ← lift (X.breakMults env.eps ((a : ℕ) : ℤ))
          lift (pyAssert ((fac a).Fits (us.1.length - 1)))
          Heap.refine env (S.refine a) H.no ((a : ℕ) : ℤ)
            (.fresh (Igakit.Cad.refineVals (X.degree a) (C a) us.1 us.2 (fac a))))
        pure H.no : HM K ℕ) (fun r H2 => r = H.no ∧ AllNew H.na H.no H2) := by
      dsimp only
      refine Tri.bind (Q := fun _ => AllNew H.na H.no) ?_ fun _ => ?_
      · have := (clamps_tri (na0 := H.na) (o := H.no) env S.clamp (List.finRange (d + 1)) (fun _ => False)).pre
          (P := fun H2 => H2 = H1) (fun H2 _ e => by
            obtain ⟨A, k, hx, -⟩ := i1.obj
            rw [e]
            exact ⟨A, k, hx, fun _ h => h.elim, fun ⟨_, h⟩ => h.elim⟩)
        intro H2 hI hP
        obtain ⟨t1, t2⟩ := this H2 hI hP
        refine ⟨t1, fun x hx => ?_⟩
        obtain ⟨A, k, hx, h1, h2⟩ := t2 x hx
        intro i hi
        rw [hx] at hi
        rcases hi with rfl | ⟨a, rfl⟩
        · exact h2 ⟨0, Or.inr (List.mem_finRange _)⟩
        · exact h1 a (Or.inr (List.mem_finRange _))
      · refine Tri.bind (Tri.numbers _ _) fun X => Tri.bind (Tri.lift' _) fun deg => Tri.bind (Tri.lift' _) fun _ => ?_
        refine Tri.bind (Tri.forEach (fun a => Tri.bind (Tri.numbers _ _) fun X => ?_) _) fun _ => ?_
        · by_cases ht : deg a - X.degree a > 0
          · rw [if_pos ht]
            exact geo_new env (S.elevate a) (.elevate ((a : ℕ) : ℤ) (some (deg a - X.degree a)))
          · rw [if_neg ht]
            exact fun _ hI hP => ⟨hI, fun _ _ => hP⟩
        refine Tri.bind (Tri.numbers _ _) fun X => Tri.bind (Tri.lift' _) fun fac => Tri.bind (Tri.lift' _) fun _ =>
          Tri.bind (Tri.lift' _) fun con => Tri.bind (Tri.lift' _) fun _ => Tri.bind (Tri.lift' _) fun _ => ?_
        refine Tri.bind (Tri.forEach (fun a => Tri.bind (Tri.numbers _ _) fun X => Tri.bind (Tri.lift' _) fun us =>
          Tri.bind (Tri.lift' _) fun _ => ?_) _) fun _ => ?_
        · exact geo_new env (S.refine a) (.refine ((a : ℕ) : ℤ) (.fresh _))
        · exact fun _ hI hP => ⟨hI, fun r hr => by cases hr; exact ⟨rfl, hP⟩⟩
    have := (key H1 ⟨k1.sound, k1.na, i1.lt⟩ rfl).2 r
    unfold Cad.refine at he
    rw [bind_ok e1] at he
    dsimp only at he this
    rw [he] at this
    exact this rfl
  rw [hr.1]
  exact hr.2

end Cad
end Heap
end Igakit
