import Verif.Spec.TransHeap
import Verif.Props.Transform

/-!
# Property C69: transform objects do not disturb each other
-/

set_option linter.unusedSectionVars false

namespace Igakit
open Spec

namespace THeap

/-- the references of the objects are in use -/
def WF (H : THeap) : Prop := ∀ o, o < H.no → H.obj o < H.nm

/-- no array belongs to two objects -/
def Unshared (H : THeap) : Prop := ∀ o o', o < H.no → o' < H.no → H.obj o = H.obj o' → o = o'

/-- the heap and the values agree -/
structure Sim (H : THeap) (V : TVals) : Prop where
  wf : H.WF
  no : V.no = H.no
  val : ∀ o, o < H.no → V.val o = H.val o

end THeap

open THeap

namespace THeap.Sim
variable {H : THeap} {V : TVals}

theorem alloc (h : Sim H V) (M : Mat4 ℝ) : Sim (H.alloc M).2 V := by
  refine ⟨fun o ho => ?_, h.no, fun o ho => ?_⟩
  · have := h.wf o ho
    show H.obj o < H.nm + 1
    omega
  · have := h.wf o ho
    rw [h.val o ho]
    show H.mat (H.obj o) = Function.update H.mat H.nm M (H.obj o)
    rw [Function.update_of_ne (by omega)]

theorem newObj (h : Sim H V) {r : ℕ} (hr : r < H.nm) : (H.newObj r).1 = (V.creates (.ok (H.mat r))).1 ∧
    Sim (H.newObj r).2 (V.creates (.ok (H.mat r))).2 := by
  refine ⟨by simp [THeap.newObj, TVals.creates, h.no], fun o ho => ?_, ?_, fun o ho => ?_⟩
  · show Function.update H.obj H.no r o < H.nm
    by_cases e : o = H.no
    · rw [e, Function.update_self]; exact hr
    · rw [Function.update_of_ne e]
      have : o < H.no + 1 := ho
      exact h.wf o (by omega)
  · show V.no + 1 = H.no + 1
    rw [h.no]
  · show (if o = V.no then H.mat r else V.val o) = H.mat (Function.update H.obj H.no r o)
    rw [h.no]
    by_cases e : o = H.no
    · rw [if_pos e, e, Function.update_self]
    · rw [if_neg e, Function.update_of_ne e]
      have : o < H.no + 1 := ho
      exact h.val o (by omega)

theorem fresh (h : Sim H V) (M : Mat4 ℝ) : ((H.alloc M).2.newObj (H.alloc M).1).1 = (V.creates (.ok M)).1 ∧
    Sim ((H.alloc M).2.newObj (H.alloc M).1).2 (V.creates (.ok M)).2 := by
  have := (h.alloc M).newObj (r := (H.alloc M).1) (by show H.nm < H.nm + 1; omega)
  have e : (H.alloc M).2.mat (H.alloc M).1 = M := Function.update_self ..
  rwa [e] at this

theorem assign (h : Sim H V) (o : ℕ) (r : Res (Mat4 ℝ)) : (H.assign o r).1 = (V.changes o r).1 ∧
    Sim (H.assign o r).2 (V.changes o r).2 := by
  cases r with
  | error e => exact ⟨rfl, h⟩
  | ok M =>
    refine ⟨rfl, fun o' ho => ?_, h.no, fun o' ho => ?_⟩
    · show Function.update H.obj o H.nm o' < H.nm + 1
      by_cases e : o' = o
      · rw [e, Function.update_self]; omega
      · rw [Function.update_of_ne e]
        have := h.wf o' ho
        omega
    · show (if o' = o then M else V.val o') = Function.update H.mat H.nm M (Function.update H.obj o H.nm o')
      by_cases e : o' = o
      · rw [if_pos e, e, Function.update_self, Function.update_self]
      · rw [if_neg e, Function.update_of_ne e]
        have := h.wf o' ho
        rw [Function.update_of_ne (by omega)]
        exact h.val o' ho

theorem arg_lt (h : Sim H V) {o : ℕ} (ho : o < H.no) : V.arg (.trans o) = .ok (H.val o) := by
  show (if o < V.no then _ else _) = _
  rw [h.no, if_pos ho, h.val o ho]

theorem arg_ge (h : Sim H V) {o : ℕ} (ho : ¬ o < H.no) : V.arg (.trans o) = .error .index := by
  show (if o < V.no then _ else _) = _
  rw [h.no, if_neg ho]

theorem composeArg (h : Sim H V) (m : TSrc) : H.composeArg m = V.arg m := by
  cases m with
  | trans o =>
    show (if o < H.no then _ else _) = _
    by_cases ho : o < H.no
    · rw [if_pos ho, h.arg_lt ho]
    · rw [if_neg ho, h.arg_ge ho]
  | _ => rfl

end THeap.Sim

/-- is the statement an assignment to an entry? -/
def TCmd.isWrite : TCmd → Prop
  | .write .. => True
  | _ => False

/-- is the statement a call of `clone`? -/
def TCmd.isClone : TCmd → Prop
  | .clone _ => True
  | _ => False

theorem sim_step {H : THeap} {V : TVals} (h : Sim H V) (c : TCmd) (hc : ¬ c.isWrite ∨ H.Unshared) :
    (H.exec c).1 = (V.step c).1 ∧ Sim (H.exec c).2 (V.step c).2 := by
  cases c with
  | new m =>
    cases m with
    | none => exact h.fresh 1
    | trans o =>
      show (if o < H.no then _ else _ : Res ℕ × THeap).1 = (V.creates (V.arg (.trans o))).1 ∧ _
      by_cases ho : o < H.no
      · have := h.fresh (H.val o)
        rw [← h.arg_lt ho] at this
        show (if o < H.no then _ else _ : Res ℕ × THeap).1 = _ ∧ Sim (if o < H.no then _ else _ : Res ℕ × THeap).2 _
        rw [if_pos ho]
        exact this
      · show (if o < H.no then _ else _ : Res ℕ × THeap).1 = _ ∧ Sim (if o < H.no then _ else _ : Res ℕ × THeap).2 (V.creates (V.arg (.trans o))).2
        rw [if_neg ho, h.arg_ge ho]
        exact ⟨rfl, h⟩
    | arr4 M => exact h.fresh M
    | arr3 R => exact ⟨rfl, h⟩
    | other => exact ⟨rfl, h⟩
  | copy o =>
    show (if o < H.no then _ else _ : Res ℕ × THeap).1 = (V.creates (V.arg (.trans o))).1 ∧
      Sim (if o < H.no then _ else _ : Res ℕ × THeap).2 (V.creates (V.arg (.trans o))).2
    by_cases ho : o < H.no
    · rw [if_pos ho, h.arg_lt ho]; exact h.fresh _
    · rw [if_neg ho, h.arg_ge ho]; exact ⟨rfl, h⟩
  | clone o =>
    show (if o < H.no then _ else _ : Res ℕ × THeap).1 = (V.creates (V.arg (.trans o))).1 ∧
      Sim (if o < H.no then _ else _ : Res ℕ × THeap).2 (V.creates (V.arg (.trans o))).2
    by_cases ho : o < H.no
    · rw [if_pos ho, h.arg_lt ho]; exact h.newObj (h.wf o ho)
    · rw [if_neg ho, h.arg_ge ho]; exact ⟨rfl, h⟩
  | inverse o =>
    show (if o < H.no then _ else _ : Res ℕ × THeap).1 = (V.creates (V.arg (.trans o) >>= _)).1 ∧
      Sim (if o < H.no then _ else _ : Res ℕ × THeap).2 (V.creates (V.arg (.trans o) >>= _)).2
    by_cases ho : o < H.no
    · rw [if_pos ho, h.arg_lt ho, res_ok_bind]
      obtain ⟨h1, h2⟩ := h.newObj (h.wf o ho)
      have hval : (H.newObj (H.obj o)).2.val H.no = H.val o := by
        show H.mat (Function.update H.obj H.no (H.obj o) H.no) = _
        rw [Function.update_self]; rfl
      unfold THeap.invert
      rw [hval]
      unfold Transform.inverse
      obtain ⟨h3, h4⟩ := h2.assign H.no (.ok (H.val o)⁻¹)
      by_cases hd : (H.val o).det = 0
      · rw [if_pos hd]
        exact ⟨rfl, h⟩
      · rw [if_neg hd]
        refine ⟨by show Except.ok H.no = Except.ok V.no; rw [h.no], h4.wf, h4.no, fun o' ho' => ?_⟩
        refine Eq.trans ?_ (h4.val o' ho')
        show (if o' = V.no then _ else V.val o') = if o' = H.no then _ else if o' = V.no then _ else V.val o'
        rw [h.no]
        split_ifs <;> rfl
    · rw [if_neg ho, h.arg_ge ho]; exact ⟨rfl, h⟩
  | invert o =>
    show (if o < H.no then _ else _ : Res ℕ × THeap).1 = (V.changes o (V.arg (.trans o) >>= _)).1 ∧
      Sim (if o < H.no then _ else _ : Res ℕ × THeap).2 (V.changes o (V.arg (.trans o) >>= _)).2
    by_cases ho : o < H.no
    · rw [if_pos ho, h.arg_lt ho, res_ok_bind]
      have := h.assign o (Transform.inverse (H.val o))
      unfold Transform.inverse at this
      unfold THeap.invert Transform.inverse
      convert this
    · rw [if_neg ho, h.arg_ge ho]; exact ⟨rfl, h⟩
  | compose o m =>
    show (if o < H.no then _ else _ : Res ℕ × THeap).1 = (V.changes o (V.arg (.trans o) >>= _)).1 ∧
      Sim (if o < H.no then _ else _ : Res ℕ × THeap).2 (V.changes o (V.arg (.trans o) >>= _)).2
    by_cases ho : o < H.no
    · rw [if_pos ho, h.arg_lt ho, res_ok_bind]
      unfold THeap.compose
      rw [h.composeArg]
      exact h.assign o _
    · rw [if_neg ho, h.arg_ge ho]; exact ⟨rfl, h⟩
  | translate o v a =>
    show (if o < H.no then _ else _ : Res ℕ × THeap).1 = (V.changes o (V.arg (.trans o) >>= _)).1 ∧
      Sim (if o < H.no then _ else _ : Res ℕ × THeap).2 (V.changes o (V.arg (.trans o) >>= _)).2
    by_cases ho : o < H.no
    · rw [if_pos ho, h.arg_lt ho, res_ok_bind]; exact h.assign o _
    · rw [if_neg ho, h.arg_ge ho]; exact ⟨rfl, h⟩
  | scale o v a =>
    show (if o < H.no then _ else _ : Res ℕ × THeap).1 = (V.changes o (V.arg (.trans o) >>= _)).1 ∧
      Sim (if o < H.no then _ else _ : Res ℕ × THeap).2 (V.changes o (V.arg (.trans o) >>= _)).2
    by_cases ho : o < H.no
    · rw [if_pos ho, h.arg_lt ho, res_ok_bind]; exact h.assign o _
    · rw [if_neg ho, h.arg_ge ho]; exact ⟨rfl, h⟩
  | rotate o v a =>
    show (if o < H.no then _ else _ : Res ℕ × THeap).1 = (V.changes o (V.arg (.trans o) >>= _)).1 ∧
      Sim (if o < H.no then _ else _ : Res ℕ × THeap).2 (V.changes o (V.arg (.trans o) >>= _)).2
    by_cases ho : o < H.no
    · rw [if_pos ho, h.arg_lt ho, res_ok_bind]
      by_cases hv : v = 0
      · rw [if_pos hv]
        unfold Transform.rotate
        rw [if_pos hv]
        refine ⟨rfl, h.wf, h.no, fun o' ho' => ?_⟩
        show (if o' = o then H.val o else V.val o') = H.val o'
        split_ifs with e
        · rw [e]
        · exact h.val o' ho'
      · rw [if_neg hv]; exact h.assign o _
    · rw [if_neg ho, h.arg_ge ho]; exact ⟨rfl, h⟩
  | write o i j v =>
    show (if o < H.no then _ else _ : Res ℕ × THeap).1 = (V.changes o (V.arg (.trans o) >>= _)).1 ∧
      Sim (if o < H.no then _ else _ : Res ℕ × THeap).2 (V.changes o (V.arg (.trans o) >>= _)).2
    by_cases ho : o < H.no
    · rw [if_pos ho, h.arg_lt ho, res_ok_bind]
      have hu : H.Unshared := hc.resolve_left (fun h => h trivial)
      refine ⟨rfl, h.wf, h.no, fun o' ho' => ?_⟩
      show (if o' = o then _ else V.val o') = Function.update H.mat (H.obj o) _ (H.obj o')
      by_cases e : o' = o
      · rw [if_pos e, e, Function.update_self]
      · rw [if_neg e, Function.update_of_ne (fun h' => e (hu _ _ ho' ho h'))]
        exact h.val o' ho'
    · rw [if_neg ho, h.arg_ge ho]; exact ⟨rfl, h⟩

theorem unshared_step {H : THeap} (hw : H.WF) (hu : H.Unshared) (c : TCmd) (hc : ¬ c.isClone) :
    (H.exec c).2.Unshared := by
  have halloc : ∀ M, ((H.alloc M).2.newObj (H.alloc M).1).2.Unshared := by
    intro M o o' ho ho' e
    have ho : o < H.no + 1 := ho
    have ho' : o' < H.no + 1 := ho'
    have e : Function.update H.obj H.no H.nm o = Function.update H.obj H.no H.nm o' := e
    by_cases c1 : o = H.no <;> by_cases c2 : o' = H.no
    · rw [c1, c2]
    · rw [c1, Function.update_self, Function.update_of_ne c2] at e
      have := hw o' (by omega); omega
    · rw [c2, Function.update_self, Function.update_of_ne c1] at e
      have := hw o (by omega); omega
    · rw [Function.update_of_ne c1, Function.update_of_ne c2] at e
      exact hu _ _ (by omega) (by omega) e
  have hassign : ∀ (o : ℕ) (r : Res (Mat4 ℝ)), (H.assign o r).2.Unshared := by
    intro o r
    cases r with
    | error e => exact hu
    | ok M =>
      intro o1 o2 h1 h2 e
      have h1 : o1 < H.no := h1
      have h2 : o2 < H.no := h2
      have e : Function.update H.obj o H.nm o1 = Function.update H.obj o H.nm o2 := e
      have b1 := hw o1 h1
      have b2 := hw o2 h2
      by_cases c1 : o1 = o <;> by_cases c2 : o2 = o
      · rw [c1, c2]
      · rw [c1, Function.update_self, Function.update_of_ne c2] at e; omega
      · rw [c2, Function.update_self, Function.update_of_ne c1] at e; omega
      · rw [Function.update_of_ne c1, Function.update_of_ne c2] at e
        exact hu _ _ h1 h2 e
  have hif : ∀ (o : ℕ) (x : Res ℕ × THeap), x.2.Unshared →
      (if o < H.no then x else (.error .index, H) : Res ℕ × THeap).2.Unshared := by
    intro o x hx
    split_ifs
    · exact hx
    · exact hu
  cases c with
  | new m =>
    cases m with
    | none => exact halloc _
    | trans o => exact hif o _ (halloc _)
    | arr4 M => exact halloc _
    | arr3 R => exact hu
    | other => exact hu
  | copy o => exact hif o _ (halloc _)
  | clone o => exact absurd trivial hc
  | inverse o =>
    refine hif o _ ?_
    unfold THeap.invert Transform.inverse
    split_ifs with hd
    · exact hu
    · intro o1 o2 h1 h2 e
      have h1 : o1 < H.no + 1 := h1
      have h2 : o2 < H.no + 1 := h2
      have e : Function.update (Function.update H.obj H.no (H.obj o)) H.no H.nm o1 =
        Function.update (Function.update H.obj H.no (H.obj o)) H.no H.nm o2 := e
      rw [Function.update_idem] at e
      exact halloc 1 o1 o2 h1 h2 e
  | invert o => exact hif o _ (hassign _ _)
  | compose o m => exact hif o _ (hassign _ _)
  | translate o v a => exact hif o _ (hassign _ _)
  | scale o v a => exact hif o _ (hassign _ _)
  | rotate o v a =>
    refine hif o _ ?_
    split_ifs
    · exact hu
    · exact hassign _ _
  | write o i j v => exact hif o _ hu

theorem sim_run {cs : List TCmd} : ∀ {H : THeap} {V : TVals}, Sim H V →
    (∀ c ∈ cs, ¬ c.isWrite) ∨ (H.Unshared ∧ ∀ c ∈ cs, ¬ c.isClone) →
    (H.run cs).1 = (V.run cs).1 ∧ Sim (H.run cs).2 (V.run cs).2 := by
  induction cs with
  | nil => intro H V h _; exact ⟨rfl, h⟩
  | cons c cs ih =>
    intro H V h hc
    obtain ⟨h1, h2⟩ := sim_step h c (hc.imp (fun h => h c (by simp)) (fun h => h.1))
    obtain ⟨h3, h4⟩ := ih h2 (by
      rcases hc with hc | ⟨hu, hc⟩
      · exact Or.inl fun c' hc' => hc c' (by simp [hc'])
      · exact Or.inr ⟨unshared_step h.wf hu c (hc c (by simp)), fun c' hc' => hc c' (by simp [hc'])⟩)
    exact ⟨by simp only [THeap.run, TVals.run, h1, h3], h4⟩

/-- no objects yet -/
def THeap.empty : THeap := ⟨fun _ => 0, 0, fun _ => 0, 0⟩

/-- no objects yet -/
def Spec.TVals.empty : TVals := ⟨fun _ => 0, 0⟩

/-- C69: transforms behave like values under their methods.  Every program that makes transforms and calls `copy`, `clone`,
`inverse`, `invert`, `compose`, `translate`, `scale`, `rotate` on any of them, in any order, returns the same objects,
raises the same exceptions and ends with the same matrices as if every name had a matrix of its own: a method changes its
own object only, although clones share the array, and an exception changes nothing. -/
theorem C69_methods (cs : List TCmd) (h : ∀ c ∈ cs, ¬ c.isWrite) :
    (THeap.empty.run cs).1 = (TVals.empty.run cs).1 ∧ (TVals.empty.run cs).2.no = (THeap.empty.run cs).2.no ∧
    ∀ o, o < (THeap.empty.run cs).2.no → (TVals.empty.run cs).2.val o = (THeap.empty.run cs).2.val o := by
  obtain ⟨h1, h2⟩ := sim_run (cs := cs) (H := THeap.empty) (V := TVals.empty)
    ⟨fun o ho => absurd ho (by simp [THeap.empty]), rfl, fun o ho => absurd ho (by simp [THeap.empty])⟩ (Or.inl h)
  exact ⟨h1, h2.no, h2.val⟩

/-- C69: programs that also assign entries, `t.matrix[i, j] = v`, behave like this as long as they do not call `clone`
(`copy`, `inverse` and `transform(t)` are independent of `t` even then). -/
theorem C69_writes (cs : List TCmd) (h : ∀ c ∈ cs, ¬ c.isClone) :
    (THeap.empty.run cs).1 = (TVals.empty.run cs).1 ∧ (TVals.empty.run cs).2.no = (THeap.empty.run cs).2.no ∧
    ∀ o, o < (THeap.empty.run cs).2.no → (TVals.empty.run cs).2.val o = (THeap.empty.run cs).2.val o := by
  obtain ⟨h1, h2⟩ := sim_run (cs := cs) (H := THeap.empty) (V := TVals.empty)
    ⟨fun o ho => absurd ho (by simp [THeap.empty]), rfl, fun o ho => absurd ho (by simp [THeap.empty])⟩
    (Or.inr ⟨fun o _ ho => absurd ho (by simp [THeap.empty]), h⟩)
  exact ⟨h1, h2.no, h2.val⟩

/-- C69: both restrictions are needed: after `t = transform(); s = t.clone(); s.matrix[0, 3] = 5` the matrix of `t` has
changed as well. -/
theorem C69_clone_shares : ∃ cs : List TCmd,
    (THeap.empty.run cs).2.val 0 0 3 = 5 ∧ (TVals.empty.run cs).2.val 0 0 3 = 0 := by
  refine ⟨[.new .none, .clone 0, .write 1 0 3 5], ?_, ?_⟩
  · simp [THeap.run, THeap.exec, THeap.new, THeap.alloc, THeap.newObj, THeap.empty, THeap.val]
  · simp [TVals.run, TVals.step, TVals.creates, TVals.changes, TVals.arg, TVals.add, TVals.set, TVals.empty, res_ok_bind]

/-- a translation, a clone of it made singular, and a copy of it scaled: the translation is what it was; the second
program assigns an entry of a copy -/
example : (THeap.empty.run [.new .none, .translate 0 (.vec [1, 2, 3]) none, .clone 0, .compose 1 (.arr4 0), .invert 1, .copy 0,
    .scale 2 (.scalar 2) none, .compose 2 (.trans 0)]).2.val 0 0 3 = 1 ∧
    (THeap.empty.run [.new .none, .copy 0, .write 1 0 3 5]).2.val 0 0 3 = 0 := by
  obtain ⟨-, h1, h2⟩ := C69_methods [.new .none, .translate 0 (.vec [1, 2, 3]) none, .clone 0, .compose 1 (.arr4 0), .invert 1,
    .copy 0, .scale 2 (.scalar 2) none, .compose 2 (.trans 0)] (by simp [TCmd.isWrite])
  obtain ⟨-, h3, h4⟩ := C69_writes [.new .none, .copy 0, .write 1 0 3 5] (by simp [TCmd.isClone])
  constructor
  · rw [← h2 0]
    · simp [TVals.run, TVals.step, TVals.creates, TVals.changes, TVals.arg, TVals.add, TVals.set, TVals.empty, res_ok_bind,
        Transform.translate, Transform.transVec, Transform.scale, Transform.scaleVec, Transform.compose, Transform.transMat,
        pyAssert]
    · rw [← h1]
      simp [TVals.run, TVals.step, TVals.creates, TVals.changes, TVals.arg, TVals.add, TVals.set, TVals.empty, res_ok_bind,
        Transform.translate, Transform.transVec, Transform.scale, Transform.scaleVec, Transform.compose, Transform.transMat,
        pyAssert]
  · rw [← h4 0]
    · simp [TVals.run, TVals.step, TVals.creates, TVals.changes, TVals.arg, TVals.add, TVals.set, TVals.empty, res_ok_bind]
    · rw [← h3]
      simp [TVals.run, TVals.step, TVals.creates, TVals.changes, TVals.arg, TVals.add, TVals.set, TVals.empty, res_ok_bind]

end Igakit
