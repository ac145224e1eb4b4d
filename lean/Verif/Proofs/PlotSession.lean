import Verif.Model.PlotSession
import Mathlib.Tactic.SplitIfs
import Mathlib.Data.List.Pairwise

/-!
# Lemmas about plotting sessions
-/

set_option linter.unusedSectionVars false

namespace Igakit

namespace SM

variable {K α β : Type}

theorem bind_ok {m : SM K α} {f : α → SM K β} {s s' : Sess K} {a : α} (h : m s = (.ok a, s')) : (m >>= f) s = f a s' := by
  show SM.bind m f s = _
  simp only [SM.bind, h]

theorem bind_error {m : SM K α} {f : α → SM K β} {s s' : Sess K} {e : PErr} (h : m s = (.error e, s')) :
    (m >>= f) s = (.error e, s') := by
  show SM.bind m f s = _
  simp only [SM.bind, h]

theorem pure_apply (a : α) (s : Sess K) : (pure a : SM K α) s = (.ok a, s) := rfl

theorem lift_ok {r : Res α} {a : α} (h : r = .ok a) (s : Sess K) : SM.lift r s = (.ok a, s) := by
  simp only [lift, h]

theorem lift_error {r : Res α} {e : Err} (h : r = .error e) (s : Sess K) : (SM.lift r : SM K α) s = (.error (.py e), s) := by
  simp only [lift, h]

theorem lift_state (r : Res α) (s : Sess K) : ((SM.lift r : SM K α) s).2 = s := by
  unfold lift
  cases r <;> rfl

/-- the final state is related to the initial one -/
def Rel (R : Sess K → Sess K → Prop) (m : SM K α) : Prop := ∀ s, R s (m s).2

section

variable {R : Sess K → Sess K → Prop} (hr : ∀ s, R s s) (ht : ∀ s t u, R s t → R t u → R s u)

include hr in
theorem Rel.pure (a : α) : Rel R (pure a : SM K α) := fun s => hr s

include hr in
theorem Rel.lift (r : Res α) : Rel R (SM.lift r : SM K α) := fun s => by
  rw [lift_state]
  exact hr s

include ht in
theorem Rel.bind {m : SM K α} {f : α → SM K β} (hm : Rel R m) (hf : ∀ a, Rel R (f a)) : Rel R (m >>= f) := by
  intro s
  have h := hm s
  rcases hms : m s with ⟨o, s'⟩
  rw [hms] at h
  cases o with
  | error e => rw [bind_error hms]; exact h
  | ok a => rw [bind_ok hms]; exact ht _ _ _ h (hf a s')

include hr ht in
theorem Rel.each {f : ℕ → α → SM K β} (hf : ∀ k x, Rel R (f k x)) : ∀ (l : List α) (k : ℕ), Rel R (SM.each f k l)
  | [], _ => Rel.pure hr _
  | x :: l, k => by
    unfold SM.each
    exact Rel.bind ht (hf k x) (fun y => Rel.bind ht (Rel.each hf l (k + 1)) (fun ys => Rel.pure hr _))

end

end SM

namespace Session

variable {K : Type}

/-! ## names -/

/-- the seven names -/
theorem key_cases (name : String) :
    moduleKey ((aliasOf name).getD name) =
      if name = "mpl" ∨ name = "matplotlib" then some .mpl
      else if name = "myv" ∨ name = "mayavi" then some .myv
      else if name = "nul" ∨ name = "null" ∨ name = "none" then some .nul
      else none := by
  unfold aliasOf
  split
  · rfl
  · rfl
  · rfl
  · rfl
  · rename_i h1 h2 h3 h4
    simp only [Option.getD_none]
    unfold moduleKey
    split
    · rfl
    · rfl
    · rfl
    · rename_i h5 h6 h7
      rw [if_neg (by rintro (h | h); exact h5 h; exact h1 h), if_neg (by rintro (h | h); exact h6 h; exact h2 h),
        if_neg (by rintro (h | h | h); exact h7 h; exact h3 h; exact h4 h)]

/-! ## `set_backend` -/

theorem use_unknown (W : World K) (i : ℕ) {name : String} (h : moduleKey ((aliasOf name).getD name) = none) (s : Sess K) :
    use W i name s = (.error (.py .value), s) := by
  unfold use setBackend
  simp only [h]
  rfl

theorem use_known (W : World K) (i : ℕ) {name : String} {b : Backend} (h : moduleKey ((aliasOf name).getD name) = some b) :
    use W i name = (do
      let missing ← isNone b
      if missing then load W b else pure ()
      assign i b) := by
  unfold use setBackend
  simp only [h]

theorem use_loaded (W : World K) (i : ℕ) {name : String} {b : Backend} (h : moduleKey ((aliasOf name).getD name) = some b)
    {s : Sess K} (hl : s.loaded b = true) :
    use W i name s = (.ok (), { s with cur := Function.update s.cur i (some b) }) := by
  rw [use_known W i h, SM.bind_ok (s' := s) (a := false) (by simp only [isNone, hl]; rfl)]
  rfl

theorem use_load (W : World K) (i : ℕ) {name : String} {b : Backend} (h : moduleKey ((aliasOf name).getD name) = some b)
    {s : Sess K} (hl : s.loaded b = false) :
    use W i name s =
      match W.imp s.tries b with
      | .ok => (.ok (), { s with
          tries := s.tries ++ [(b, .ok)]
          loaded := Function.update s.loaded b true
          cur := Function.update s.cur i (some b) })
      | .importErr => (.error .importErr, { s with tries := s.tries ++ [(b, .importErr)] })
      | .other n => (.error (.other n), { s with tries := s.tries ++ [(b, .other n)] }) := by
  rw [use_known W i h, SM.bind_ok (s' := s) (a := true) (by simp only [isNone, hl]; rfl)]
  simp only [if_true]
  rcases hr : W.imp s.tries b with _ | _ | n
  · rw [SM.bind_ok (a := ()) (by simp only [load, hr]; rfl)]
    rfl
  · rw [SM.bind_error (e := .importErr) (by simp only [load, hr]; rfl)]
  · rw [SM.bind_error (e := .other n) (by simp only [load, hr]; rfl)]

/-! ## the invariant -/

/-- what holds at any time -/
structure Inv (s : Sess K) : Prop where
  loaded : ∀ b, s.loaded b = true ↔ (b, Imp.ok) ∈ s.tries
  once : s.tries.Pairwise (fun x y => x.2 = Imp.ok → y.1 ≠ x.1)
  cur : ∀ i b, s.cur i = some b → s.loaded b = true
  fresh : ∀ i, s.count ≤ i → s.cur i = none
  log : ∀ e ∈ s.log, s.loaded e.at_ = true ∧ e.who < s.count

/-- what an operation on plotter `i` may do to `cur`, `tries` and `loaded` -/
structure Loads (s t : Sess K) : Prop where
  count : t.count = s.count
  log : t.log = s.log
  mono : ∀ b, s.loaded b = true → t.loaded b = true
  tries : ∃ l, t.tries = s.tries ++ l

/-- effect of `use` on the other plotters and on what is loaded -/
theorem use_cases (W : World K) (i : ℕ) (name : String) (s : Sess K) :
    ((∃ b, use W i name s = (.ok (), { s with cur := Function.update s.cur i (some b) }) ∧
        moduleKey ((aliasOf name).getD name) = some b ∧ s.loaded b = true) ∨
      (∃ b, use W i name s = (.ok (), { s with
          tries := s.tries ++ [(b, .ok)]
          loaded := Function.update s.loaded b true
          cur := Function.update s.cur i (some b) }) ∧ moduleKey ((aliasOf name).getD name) = some b ∧ s.loaded b = false ∧
            W.imp s.tries b = .ok) ∨
      (∃ e b r, use W i name s = (.error e, { s with tries := s.tries ++ [(b, r)] }) ∧
        moduleKey ((aliasOf name).getD name) = some b ∧ s.loaded b = false ∧ r ≠ Imp.ok) ∨
      (use W i name s = (.error (.py .value), s) ∧ moduleKey ((aliasOf name).getD name) = none)) := by
  rcases hk : moduleKey ((aliasOf name).getD name) with _ | b
  · exact Or.inr (Or.inr (Or.inr ⟨use_unknown W i hk s, rfl⟩))
  · cases hl : s.loaded b with
    | true => exact Or.inl ⟨b, use_loaded W i hk hl, rfl, hl⟩
    | false =>
      have h := use_load W i hk hl
      rcases hr : W.imp s.tries b with _ | _ | n
      · rw [hr] at h; exact Or.inr (Or.inl ⟨b, h, rfl, hl, hr⟩)
      · rw [hr] at h; exact Or.inr (Or.inr (Or.inl ⟨_, b, _, h, rfl, hl, by simp⟩))
      · rw [hr] at h; exact Or.inr (Or.inr (Or.inl ⟨_, b, _, h, rfl, hl, by simp⟩))

theorem Inv.not_tried {s : Sess K} (hs : Inv s) {b : Backend} (hl : s.loaded b = false) :
    ∀ x ∈ s.tries, x.2 = Imp.ok → b ≠ x.1 := by
  intro x hx ho hb
  have : (b, Imp.ok) ∈ s.tries := by
    have : x = (b, Imp.ok) := by rw [hb, ← ho]
    rwa [← this]
  rw [← hs.loaded] at this
  rw [hl] at this
  exact absurd this (by decide)

theorem Inv.use {s : Sess K} (hs : Inv s) (W : World K) {i : ℕ} (hi : i < s.count) (name : String) : Inv (use W i name s).2 := by
  rcases use_cases W i name s with ⟨b, h, hk, hl⟩ | ⟨b, h, hk, hl, _⟩ | ⟨e, b, r, h, hk, hl, hr⟩ | ⟨h, _⟩
  · rw [h]
    refine ⟨hs.loaded, hs.once, ?_, ?_, hs.log⟩
    · intro j b' hj
      dsimp only at hj ⊢
      by_cases hij : j = i
      · subst hij
        rw [Function.update_self] at hj
        injection hj with hj
        rw [← hj]
        exact hl
      · rw [Function.update_of_ne hij] at hj
        exact hs.cur j b' hj
    · intro j hj
      dsimp only at hj ⊢
      rw [Function.update_of_ne (by omega)]
      exact hs.fresh j hj
  · rw [h]
    have hmono : ∀ b', s.loaded b' = true → Function.update s.loaded b true b' = true := by
      intro b' h'
      by_cases hb : b' = b
      · subst hb; rw [Function.update_self]
      · rw [Function.update_of_ne hb]; exact h'
    refine ⟨?_, ?_, ?_, ?_, ?_⟩
    · intro b'
      dsimp only
      by_cases hb : b' = b
      · subst hb
        simp
      · rw [Function.update_of_ne hb, hs.loaded]
        simp [hb]
    · dsimp only
      rw [List.pairwise_append]
      refine ⟨hs.once, List.pairwise_singleton _ _, ?_⟩
      intro x hx y hy ho
      rw [List.mem_singleton] at hy
      subst hy
      exact hs.not_tried hl x hx ho
    · intro j b' hj
      dsimp only at hj ⊢
      by_cases hij : j = i
      · subst hij
        rw [Function.update_self] at hj
        injection hj with hj
        rw [← hj, Function.update_self]
      · rw [Function.update_of_ne hij] at hj
        exact hmono _ (hs.cur j b' hj)
    · intro j hj
      dsimp only at hj ⊢
      rw [Function.update_of_ne (by omega)]
      exact hs.fresh j hj
    · intro e he
      exact ⟨hmono _ (hs.log e he).1, (hs.log e he).2⟩
  · rw [h]
    refine ⟨?_, ?_, hs.cur, hs.fresh, hs.log⟩
    · intro b'
      dsimp only
      rw [hs.loaded, List.mem_append, List.mem_singleton, Prod.mk.injEq]
      exact ⟨Or.inl, fun h => h.resolve_right (fun h' => hr h'.2.symm)⟩
    · dsimp only
      rw [List.pairwise_append]
      refine ⟨hs.once, List.pairwise_singleton _ _, ?_⟩
      intro x hx y hy ho
      rw [List.mem_singleton] at hy
      subst hy
      exact hs.not_tried hl x hx ho
  · rw [h]
    exact hs

/-! ## what an operation other than `use` does -/

/-- effect of a method of plotter `i` -/
structure Good (i : ℕ) (s t : Sess K) : Prop where
  count : t.count = s.count
  others : ∀ j, j ≠ i → t.cur j = s.cur j
  keep : ∀ b, s.cur i = some b → t.cur i = some b
  mono : ∀ b, s.loaded b = true → t.loaded b = true
  inv : Inv s → i < s.count → Inv t
  log : ∃ l, t.log = s.log ++ l ∧ ∀ e ∈ l, e.who = i ∧ t.cur i = some e.at_
  tries : ∃ l, t.tries = s.tries ++ l ∧ (s.cur i ≠ none → l = [])

theorem Good.refl (i : ℕ) (s : Sess K) : Good i s s :=
  ⟨rfl, fun _ _ => rfl, fun _ h => h, fun _ h => h, fun h _ => h, ⟨[], by simp, by simp⟩, ⟨[], by simp, fun _ => rfl⟩⟩

theorem Good.trans (i : ℕ) (s t u : Sess K) (h1 : Good i s t) (h2 : Good i t u) : Good i s u := by
  refine ⟨h2.count.trans h1.count, fun j hj => (h2.others j hj).trans (h1.others j hj), fun b h => h2.keep b (h1.keep b h),
    fun b h => h2.mono b (h1.mono b h), fun h hi => h2.inv (h1.inv h hi) (h1.count ▸ hi), ?_, ?_⟩
  · obtain ⟨l, hl, hl'⟩ := h1.log
    obtain ⟨m, hm, hm'⟩ := h2.log
    refine ⟨l ++ m, by rw [hm, hl, List.append_assoc], ?_⟩
    intro e he
    rcases List.mem_append.mp he with he | he
    · exact ⟨(hl' e he).1, h2.keep _ (hl' e he).2⟩
    · exact hm' e he
  · obtain ⟨l, hl, hl'⟩ := h1.tries
    obtain ⟨m, hm, hm'⟩ := h2.tries
    refine ⟨l ++ m, by rw [hm, hl, List.append_assoc], ?_⟩
    intro h
    have ht : t.cur i ≠ none := by
      obtain ⟨b, hb⟩ := Option.ne_none_iff_exists'.mp h
      rw [h1.keep b hb]
      simp
    rw [hl' h, hm' ht]
    rfl

/-- `use` on a plotter whose backend is not set -/
theorem Good.use (W : World K) (i : ℕ) (name : String) {s : Sess K} (hn : s.cur i = none) : Good i s (use W i name s).2 := by
  have hinv : Inv s → i < s.count → Inv (Session.use W i name s).2 := fun h hi => h.use W hi name
  rcases use_cases W i name s with ⟨b, h, hk, hl⟩ | ⟨b, h, hk, hl, _⟩ | ⟨e, b, r, h, hk, hl, hr⟩ | ⟨h, _⟩
  · rw [h] at hinv ⊢
    refine ⟨rfl, fun j hj => by dsimp only; rw [Function.update_of_ne hj], fun b' hb' => by simp [hn] at hb', fun _ h => h, hinv,
      ⟨[], by simp, by simp⟩, ⟨[], by simp, fun _ => rfl⟩⟩
  · rw [h] at hinv ⊢
    refine ⟨rfl, fun j hj => by dsimp only; rw [Function.update_of_ne hj], fun b' hb' => by simp [hn] at hb', ?_, hinv,
      ⟨[], by simp, by simp⟩, ⟨[(b, .ok)], rfl, fun h => absurd hn h⟩⟩
    intro b' h'
    dsimp only
    by_cases hb : b' = b
    · subst hb; rw [Function.update_self]
    · rw [Function.update_of_ne hb]; exact h'
  · rw [h] at hinv ⊢
    exact ⟨rfl, fun j hj => rfl, fun b' hb' => hb', fun _ h => h, hinv, ⟨[], by simp, by simp⟩,
      ⟨[(b, r)], rfl, fun h => absurd hn h⟩⟩
  · rw [h]
    exact Good.refl i s

theorem use_fail_cur {W : World K} {i : ℕ} {name : String} {s s' : Sess K} {e : PErr} (h : use W i name s = (.error e, s')) :
    s'.cur = s.cur := by
  rcases use_cases W i name s with ⟨b, h', _⟩ | ⟨b, h', _⟩ | ⟨e', b, r, h', _⟩ | ⟨h', _⟩
  · rw [h'] at h; simp at h
  · rw [h'] at h; simp at h
  · rw [h'] at h
    injection h with h1 h2
    rw [← h2]
  · rw [h'] at h
    injection h with h1 h2
    rw [← h2]

theorem use_ok_cur {W : World K} {i : ℕ} {name : String} {s s' : Sess K} (h : use W i name s = (.ok (), s')) :
    ∃ b, moduleKey ((aliasOf name).getD name) = some b ∧ s'.cur i = some b := by
  rcases use_cases W i name s with ⟨b, h', hk, _⟩ | ⟨b, h', hk, _⟩ | ⟨e', b, r, h', _⟩ | ⟨h', _⟩
  · rw [h'] at h
    injection h with h1 h2
    exact ⟨b, hk, by rw [← h2]; simp⟩
  · rw [h'] at h
    injection h with h1 h2
    exact ⟨b, hk, by rw [← h2]; simp⟩
  · rw [h'] at h; simp at h
  · rw [h'] at h; simp at h

theorem readBackend_state (i : ℕ) (s : Sess K) : (readBackend i s).2 = s := by
  unfold readBackend
  split <;> rfl

theorem readBackend_ok {i : ℕ} {s s' : Sess K} {b : Backend} (h : readBackend i s = (.ok b, s')) : s' = s ∧ s.cur i = some b := by
  unfold readBackend at h
  split at h
  · rename_i b' hb
    injection h with h1 h2
    injection h1 with h1
    exact ⟨h2.symm, by rw [hb, h1]⟩
  · simp at h

theorem readBackend_set {i : ℕ} {s : Sess K} {b : Backend} (h : s.cur i = some b) : readBackend i s = (.ok b, s) := by
  unfold readBackend
  rw [h]

theorem getBackend_set (W : World K) (i : ℕ) {s : Sess K} {b : Backend} (h : s.cur i = some b) : getBackend W i s = (.ok b, s) := by
  unfold getBackend
  simp only [h]
  exact readBackend_set h

theorem getBackend_ok (W : World K) (i : ℕ) {s s' : Sess K} {b : Backend} (h : getBackend W i s = (.ok b, s')) :
    s'.cur i = some b := by
  have read : ∀ {s1 : Sess K}, readBackend i s1 = (.ok b, s') → s'.cur i = some b := by
    intro s1 h
    obtain ⟨h1, h2⟩ := readBackend_ok h
    rw [h1]
    exact h2
  unfold getBackend at h
  split at h
  · exact read h
  · split at h
    · exact read h
    · split at h
      · exact read h
      · simp at h
    · simp at h

theorem Good.getBackend (W : World K) (i : ℕ) : SM.Rel (Good i) (getBackend W i) := by
  intro s
  rcases hc : s.cur i with _ | b
  · unfold Session.getBackend
    simp only [hc]
    have hu := Good.use W i "mayavi" hc
    rcases hm : Session.use W i "mayavi" s with ⟨o, s1⟩
    rw [hm] at hu
    cases o with
    | ok a =>
      dsimp only
      rw [readBackend_state]
      exact hu
    | error e =>
      cases e with
      | importErr =>
        dsimp only
        have hc1 : s1.cur i = none := by rw [use_fail_cur hm]; exact hc
        have hu2 := Good.use W i "matplotlib" hc1
        rcases hm2 : Session.use W i "matplotlib" s1 with ⟨o, s2⟩
        rw [hm2] at hu2
        cases o with
        | ok a =>
          dsimp only
          rw [readBackend_state]
          exact Good.trans i _ _ _ hu hu2
        | error e => exact Good.trans i _ _ _ hu hu2
      | py e => exact hu
      | attrErr => exact hu
      | other n => exact hu
      | name => exact hu
  · rw [getBackend_set W i hc]
    exact Good.refl i s

theorem Good.event {i : ℕ} {s : Sess K} {b : Backend} (hb : s.cur i = some b) (w : What K) :
    Good i s { s with log := s.log ++ [⟨i, b, w⟩] } := by
  refine ⟨rfl, fun _ _ => rfl, fun _ h => h, fun _ h => h, ?_, ⟨_, rfl, ?_⟩, ⟨[], by simp, fun _ => rfl⟩⟩
  · intro hs hi
    refine ⟨hs.loaded, hs.once, hs.cur, hs.fresh, ?_⟩
    intro e he
    rcases List.mem_append.mp he with he | he
    · exact hs.log e he
    · rw [List.mem_singleton] at he
      subst he
      exact ⟨hs.cur i b hb, hi⟩
  · intro e he
    rw [List.mem_singleton] at he
    subst he
    exact ⟨rfl, hb⟩

/-- `invoke` once the backend is known -/
theorem invoke_cases (W : World K) (i : ℕ) (dat : Data K) (o : Opts) (s s1 : Sess K) (b : Backend)
    (h : getBackend W i s = (.ok b, s1)) :
    ((b = .mpl ∧ ∃ l v, dat = .quiver l v) ∧ invoke W i dat o s = (.error .attrErr, s1)) ∨
      (¬ (b = .mpl ∧ ∃ l v, dat = .quiver l v) ∧ invoke W i dat o s = receive W ⟨i, b, .call dat o⟩ s1) := by
  unfold invoke
  rw [SM.bind_ok h]
  cases b <;> cases dat <;> simp [SM.raise]

theorem Good.receive (W : World K) {i : ℕ} {s : Sess K} {b : Backend} (hb : s.cur i = some b) (w : What K) :
    Good i s (receive W ⟨i, b, w⟩ s).2 := by
  unfold Session.receive
  split
  · exact Good.event hb w
  · exact Good.event hb w

theorem receive_ok {W : World K} {ev : Ev K} {s s' : Sess K} {b : Backend} (h : receive W ev s = (.ok b, s')) :
    b = ev.at_ ∧ s' = { s with log := s.log ++ [ev] } := by
  unfold Session.receive at h
  split at h
  · simp at h
  · injection h with h1 h2
    injection h1 with h1
    exact ⟨h1.symm, h2.symm⟩

theorem Good.invoke (W : World K) (i : ℕ) (dat : Data K) (o : Opts) : SM.Rel (Good i) (invoke W i dat o) := by
  intro s
  have hg := Good.getBackend W i s
  rcases hgb : Session.getBackend W i s with ⟨r, s1⟩
  rw [hgb] at hg
  cases r with
  | error e =>
    unfold Session.invoke
    rw [SM.bind_error hgb]
    exact hg
  | ok b =>
    rcases invoke_cases W i dat o s s1 b hgb with ⟨_, h⟩ | ⟨_, h⟩
    · rw [h]
      exact hg
    · rw [h]
      exact Good.trans i _ _ _ hg (Good.receive W (getBackend_ok W i hgb) _)

theorem invoke_ok {W : World K} {i : ℕ} {dat : Data K} {o : Opts} {s s' : Sess K} {b : Backend}
    (h : invoke W i dat o s = (.ok b, s')) : s'.cur i = some b := by
  rcases hgb : Session.getBackend W i s with ⟨r, s1⟩
  cases r with
  | error e =>
    unfold Session.invoke at h
    rw [SM.bind_error hgb] at h
    simp at h
  | ok b' =>
    rcases invoke_cases W i dat o s s1 b' hgb with ⟨_, h'⟩ | ⟨_, h'⟩
    · rw [h'] at h
      simp at h
    · rw [h'] at h
      obtain ⟨h1, h2⟩ := receive_ok h
      have := getBackend_ok W i hgb
      rw [h2, h1]
      exact this

/-- a call and the change of the handle -/
theorem Good.glyph (W : World K) (i : ℕ) (dat : Data K) (o : Opts) (den : ℕ) :
    SM.Rel (Good i) (Session.invoke W i dat o >>= fun b => Session.rescale i b o den) := by
  intro s
  have hg := Good.invoke W i dat o s
  rcases hgb : Session.invoke W i dat o s with ⟨r, s1⟩
  rw [hgb] at hg
  cases r with
  | error e => rw [SM.bind_error hgb]; exact hg
  | ok b =>
    rw [SM.bind_ok hgb]
    have hb := invoke_ok hgb
    refine Good.trans i _ _ _ hg ?_
    unfold Session.rescale
    split
    · exact Good.event hb _
    · exact Good.refl i s1

section

variable [Field K] [LinearOrder K] {d : ℕ}

local macro "rb" : term => `(SM.Rel.bind (Good.trans _))
local macro "rp" : term => `(SM.Rel.pure (Good.refl _) _)
local macro "rl" : term => `(SM.Rel.lift (Good.refl _) _)

theorem Good.cpoint (W : World K) (i : ℕ) (N : Nrb K d) (kw : Opts) : SM.Rel (Good i) (cpoint W i N kw) :=
  rb rl (fun _ => Good.glyph W i _ _ _)

theorem Good.cwire (W : World K) (i : ℕ) (N : Nrb K d) (kw : Opts) : SM.Rel (Good i) (cwire W i N kw) :=
  rb rl (fun _ => rb rl (fun _ => rb (Good.invoke W i _ _) (fun _ => rp)))

theorem Good.kpoint (W : World K) (i : ℕ) (M : PlotMem K) (N : Nrb K d) (kw : Opts) : SM.Rel (Good i) (kpoint W i M N kw) :=
  rb rl (fun _ => Good.glyph W i _ _ _)

theorem Good.kwire (W : World K) (i : ℕ) (M : PlotMem K) (N : Nrb K d) (axes : Plot.AxesArg) (kw : Opts) :
    SM.Rel (Good i) (kwire W i M N axes kw) :=
  rb rl (fun _ => rb (SM.Rel.each (Good.refl i) (Good.trans i)
    (fun _ _ => rb rl (fun _ => rb (Good.getBackend W i) (fun _ => rl))) _ _)
    (fun _ => rb rl (fun _ => rb rl (fun _ => rb (Good.invoke W i _ _) (fun _ => rp)))))

theorem Good.ksurf (W : World K) (i : ℕ) (eps : K) (M : PlotMem K) (N : Nrb K (d + 1)) (axes : Plot.AxesArg) (kw : Opts) :
    SM.Rel (Good i) (ksurf W i eps M N axes kw) :=
  rb (SM.Rel.each (Good.refl i) (Good.trans i)
    (fun _ _ => rb rl (fun _ => SM.Rel.each (Good.refl i) (Good.trans i)
      (fun _ _ => rb rl (fun _ => rb (Good.getBackend W i) (fun _ => rl))) _ _)) _ _)
    (fun _ => rb rl (fun _ => rb (Good.invoke W i _ _) (fun _ => rp)))

theorem Good.curve (W : World K) (i : ℕ) (eps : K) (M : PlotMem K) (kw : Opts) :
    ∀ {d : ℕ} (key : List ℕ) (N : Nrb K d), SM.Rel (Good i) (curve W i eps M kw key N)
  | 0, _, _ => rp
  | 1, _, _ => rb (Good.getBackend W i) (fun _ => rb rl (fun _ => rb rl (fun _ => rb rl (fun _ =>
      rb (Good.invoke W i _ _) (fun _ => rp)))))
  | _ + 2, _, _ => rb rl (fun _ => rb (SM.Rel.each (Good.refl i) (Good.trans i)
      (fun _ _ => Good.curve W i eps M kw _ _) _ _) (fun _ => rp))

theorem Good.surfLoop (W : World K) (i : ℕ) (M : PlotMem K) (kw : Opts) (l : List (Nrb K d)) :
    SM.Rel (Good i) (surfLoop W i M kw l) :=
  rb (SM.Rel.each (Good.refl i) (Good.trans i) (fun _ _ => rb (Good.getBackend W i) (fun _ => rl)) _ _)
    (fun _ => rb rl (fun _ => rb (Good.invoke W i _ _) (fun _ => rp)))

theorem Good.surface (W : World K) (i : ℕ) (eps : K) (M : PlotMem K) (kw : Opts) :
    ∀ {d : ℕ} (N : Nrb K d), SM.Rel (Good i) (surface W i eps M kw N)
  | 0, _ => rp
  | 1, _ => rp
  | 2, _ => Good.surfLoop W i M kw _
  | _ + 3, _ => rb rl (fun _ => Good.surfLoop W i M kw _)

theorem Good.volume (W : World K) (i : ℕ) (eps : K) (M : PlotMem K) (N : Nrb K d) (kw : Opts) :
    SM.Rel (Good i) (volume W i eps M N kw) := by
  unfold Session.volume
  split_ifs
  · exact rp
  · exact Good.surface W i eps M kw N

theorem Good.draw (W : World K) (i : ℕ) (kw : Opts) (m : Meth K) : SM.Rel (Good i) (draw W i kw m) := by
  cases m with
  | points P => exact rb rl (fun _ => rb (Good.invoke W i _ _) (fun _ => rp))
  | quiver P V => exact rb rl (fun _ => rb (Good.invoke W i _ _) (fun _ => rp))
  | cpoint N => exact Good.cpoint W i N kw
  | cwire N => exact Good.cwire W i N kw
  | kpoint M N => exact Good.kpoint W i M N kw
  | kwire M N axes => exact Good.kwire W i M N axes kw
  | ksurf eps M N axes => exact Good.ksurf W i eps M N axes kw
  | curve eps M N => exact Good.curve W i eps M kw [] N
  | surface eps M N => exact Good.surface W i eps M kw N
  | volume eps M N => exact Good.volume W i eps M N kw
  | cplot N => exact rb (Good.cpoint W i N kw) (fun _ => Good.cwire W i N kw)
  | kplot M M' N => exact rb (Good.kpoint W i M N kw) (fun _ => Good.kwire W i M' N _ kw)
  | plot eps M N =>
    show SM.Rel (Good i) (Session.plot W i eps M N kw)
    unfold Session.plot
    split_ifs
    · exact Good.curve W i eps M kw [] N
    · exact Good.surface W i eps M kw N
    · exact Good.volume W i eps M N kw
    · exact rp

/-! ## histories -/

theorem Inv.start : Inv (start : Sess K) := by
  refine ⟨?_, List.Pairwise.nil, ?_, ?_, ?_⟩
  · intro b; simp [Session.start]
  · intro i b h; simp [Session.start] at h
  · intro i h; rfl
  · intro e he; simp [Session.start] at he

/-- the same plotter with a larger number of plotters -/
theorem Inv.grow {s : Sess K} (hs : Inv s) : Inv { s with count := s.count + 1 } :=
  ⟨hs.loaded, hs.once, hs.cur, fun i hi => hs.fresh i (by dsimp only at hi; omega),
    fun e he => ⟨(hs.log e he).1, by have := (hs.log e he).2; dsimp only; omega⟩⟩

theorem Inv.new {s : Sess K} (hs : Inv s) (W : World K) (backend : Option String) : Inv (new W backend s).2 := by
  unfold Session.new
  cases backend with
  | none => exact hs.grow
  | some name =>
    have hg := hs.grow
    have hu := hg.use W (i := s.count) (by simp) name
    have hn := hs.fresh s.count (le_refl _)
    dsimp only
    rcases use_cases W s.count name s with ⟨b, h, hk, hl⟩ | ⟨b, h, hk, hl, ho⟩ | ⟨e, b, r, h, hk, hl, hr⟩ | ⟨h, _⟩
    · rw [h]
      rw [use_loaded W s.count hk (s := { s with count := s.count + 1 }) hl] at hu
      exact hu
    · rw [h]
      rw [use_load W s.count hk (s := { s with count := s.count + 1 }) hl] at hu
      dsimp only at hu
      rw [ho] at hu
      exact hu
    · rw [h]
      refine ⟨?_, ?_, hs.cur, hs.fresh, hs.log⟩
      · intro b'
        dsimp only
        rw [hs.loaded, List.mem_append, List.mem_singleton, Prod.mk.injEq]
        exact ⟨Or.inl, fun h => h.resolve_right (fun h' => hr h'.2.symm)⟩
      · dsimp only
        rw [List.pairwise_append]
        refine ⟨hs.once, List.pairwise_singleton _ _, ?_⟩
        intro x hx y hy ho
        rw [List.mem_singleton] at hy
        subst hy
        exact hs.not_tried hl x hx ho
    · rw [h]
      exact hs

theorem Inv.step {s : Sess K} (hs : Inv s) (W : World K) (op : Op K) : Inv (step W op s).2 := by
  cases op with
  | new backend => exact hs.new W backend
  | use i name =>
    show Inv (if i < s.count then Session.use W i name s else (.error .name, s)).2
    split_ifs with hi
    · exact hs.use W hi name
    · exact hs
  | attr i =>
    show Inv (if i < s.count then (do let _ ← Session.getBackend W i; pure () : SM K Unit) s else (.error .name, s)).2
    split_ifs with hi
    · exact (SM.Rel.bind (Good.trans i) (Good.getBackend W i) (fun _ => SM.Rel.pure (Good.refl i) ()) s).inv hs hi
    · exact hs
  | draw i kw m =>
    show Inv (if i < s.count then Session.draw W i kw m s else (.error .name, s)).2
    split_ifs with hi
    · exact (Good.draw W i kw m s).inv hs hi
    · exact hs

theorem Inv.run {W : World K} : ∀ (ops : List (Op K)) {s : Sess K}, Inv s → Inv (run W ops s)
  | [], _, h => h
  | op :: ops, _, h => Inv.run ops (h.step W op)

end

end Session

end Igakit
