import Verif.Proofs.PlotSession

/-!
# The backend is chosen when it is first needed
-/

set_option linter.unusedSectionVars false

namespace Igakit

namespace Session

variable {K α β : Type}

/-- the choice of the backend can be made beforehand: the program does the same, or does not come to need a backend; if the choice
fails, so does the program, unless it does not come to need a backend -/
structure Defers (W : World K) (i : ℕ) (m : SM K α) : Prop where
  ok : ∀ s b s1, getBackend W i s = (.ok b, s1) → m s = m s1 ∨ ∃ r, m s = (r, s) ∧ m s1 = (r, s1)
  err : ∀ s e s1, getBackend W i s = (.error e, s1) → m s = (.error e, s1) ∨ ∃ r, m s = (r, s)

theorem Defers.lift (W : World K) (i : ℕ) (r : Res α) : Defers W i (SM.lift r : SM K α) := by
  constructor
  · intro s b s1 _
    cases h : r with
    | ok a => exact Or.inr ⟨.ok a, SM.lift_ok rfl s, SM.lift_ok rfl s1⟩
    | error e => exact Or.inr ⟨.error (.py e), SM.lift_error rfl s, SM.lift_error rfl s1⟩
  · intro s _ s1 _
    cases h : r with
    | ok a => exact Or.inr ⟨.ok a, SM.lift_ok rfl s⟩
    | error e => exact Or.inr ⟨.error (.py e), SM.lift_error rfl s⟩

theorem Defers.pure (W : World K) (i : ℕ) (a : α) : Defers W i (pure a : SM K α) :=
  ⟨fun s _ s1 _ => Or.inr ⟨.ok a, rfl, rfl⟩, fun s _ s1 _ => Or.inr ⟨.ok a, rfl⟩⟩

theorem Defers.bind {W : World K} {i : ℕ} {m : SM K α} {f : α → SM K β} (hm : Defers W i m) (hf : ∀ a, Defers W i (f a)) :
    Defers W i (m >>= f) := by
  constructor
  · intro s b s1 h
    rcases hm.ok s b s1 h with h1 | ⟨r, h1, h2⟩
    · left
      show SM.bind m f s = SM.bind m f s1
      unfold SM.bind
      rw [h1]
    · cases r with
      | error e => exact Or.inr ⟨.error e, SM.bind_error h1, SM.bind_error h2⟩
      | ok a =>
        rw [SM.bind_ok h1, SM.bind_ok h2]
        exact (hf a).ok s b s1 h
  · intro s e s1 h
    rcases hm.err s e s1 h with h1 | ⟨r, h1⟩
    · exact Or.inl (SM.bind_error h1)
    · cases r with
      | error e => exact Or.inr ⟨.error e, SM.bind_error h1⟩
      | ok a =>
        rw [SM.bind_ok h1]
        exact (hf a).err s e s1 h

theorem Defers.each {W : World K} {i : ℕ} {f : ℕ → α → SM K β} (hf : ∀ k x, Defers W i (f k x)) :
    ∀ (l : List α) (k : ℕ), Defers W i (SM.each f k l)
  | [], _ => Defers.pure W i _
  | x :: l, k => by
    unfold SM.each
    exact Defers.bind (hf k x) (fun y => Defers.bind (Defers.each hf l (k + 1)) (fun ys => Defers.pure W i _))

theorem Defers.getBackend (W : World K) (i : ℕ) : Defers W i (getBackend W i) := by
  refine ⟨fun s b s1 h => Or.inl ?_, fun s e s1 h => Or.inl h⟩
  rw [h, getBackend_set W i (getBackend_ok W i h)]

theorem Defers.glyph (W : World K) (i : ℕ) (dat : Data K) (o : Opts) (f : Backend → SM K α) :
    Defers W i (Session.invoke W i dat o >>= f) := by
  constructor
  · intro s b s1 h
    left
    show SM.bind _ f s = SM.bind _ f s1
    unfold SM.bind
    have : Session.invoke W i dat o s = Session.invoke W i dat o s1 := by
      unfold Session.invoke
      rw [SM.bind_ok h, SM.bind_ok (getBackend_set W i (getBackend_ok W i h))]
    rw [this]
  · intro s e s1 h
    left
    have : Session.invoke W i dat o s = (.error e, s1) := by
      unfold Session.invoke
      rw [SM.bind_error h]
    rw [SM.bind_error this]

section

variable [Field K] [LinearOrder K] {d : ℕ}

local macro "rb" : term => `(Defers.bind)
local macro "rp" : term => `(Defers.pure _ _ _)
local macro "rl" : term => `(Defers.lift _ _ _)

theorem Defers.kwire (W : World K) (i : ℕ) (M : PlotMem K) (N : Nrb K d) (axes : Plot.AxesArg) (kw : Opts) :
    Defers W i (kwire W i M N axes kw) :=
  rb rl (fun _ => rb (Defers.each (fun _ _ => rb rl (fun _ => rb (Defers.getBackend W i) (fun _ => rl))) _ _)
    (fun _ => rb rl (fun _ => rb rl (fun _ => Defers.glyph W i _ _ _))))

theorem Defers.curve (W : World K) (i : ℕ) (eps : K) (M : PlotMem K) (kw : Opts) :
    ∀ {d : ℕ} (key : List ℕ) (N : Nrb K d), Defers W i (curve W i eps M kw key N)
  | 0, _, _ => rp
  | 1, _, _ => rb (Defers.getBackend W i) (fun _ => rb rl (fun _ => rb rl (fun _ => rb rl (fun _ =>
      Defers.glyph W i _ _ _))))
  | _ + 2, _, _ => rb rl (fun _ => rb (Defers.each (fun _ _ => Defers.curve W i eps M kw _ _) _ _) (fun _ => rp))

theorem Defers.surfLoop (W : World K) (i : ℕ) (M : PlotMem K) (kw : Opts) (l : List (Nrb K d)) :
    Defers W i (surfLoop W i M kw l) :=
  rb (Defers.each (fun _ _ => rb (Defers.getBackend W i) (fun _ => rl)) _ _)
    (fun _ => rb rl (fun _ => Defers.glyph W i _ _ _))

theorem Defers.surface (W : World K) (i : ℕ) (eps : K) (M : PlotMem K) (kw : Opts) :
    ∀ {d : ℕ} (N : Nrb K d), Defers W i (surface W i eps M kw N)
  | 0, _ => rp
  | 1, _ => rp
  | 2, _ => Defers.surfLoop W i M kw _
  | _ + 3, _ => rb rl (fun _ => Defers.surfLoop W i M kw _)

theorem Defers.volume (W : World K) (i : ℕ) (eps : K) (M : PlotMem K) (N : Nrb K d) (kw : Opts) :
    Defers W i (volume W i eps M N kw) := by
  unfold Session.volume
  split_ifs
  · exact rp
  · exact Defers.surface W i eps M kw N

theorem Defers.draw (W : World K) (i : ℕ) (kw : Opts) (m : Meth K) : Defers W i (draw W i kw m) := by
  cases m with
  | points P => exact rb rl (fun _ => Defers.glyph W i _ _ _)
  | quiver P V => exact rb rl (fun _ => Defers.glyph W i _ _ _)
  | cpoint N => exact rb rl (fun _ => Defers.glyph W i _ _ _)
  | cwire N => exact rb rl (fun _ => rb rl (fun _ => Defers.glyph W i _ _ _))
  | kpoint M N => exact rb rl (fun _ => Defers.glyph W i _ _ _)
  | kwire M N axes => exact Defers.kwire W i M N axes kw
  | ksurf eps M N axes =>
    exact rb (Defers.each
      (fun _ _ => rb rl (fun _ => Defers.each
        (fun _ _ => rb rl (fun _ => rb (Defers.getBackend W i) (fun _ => rl))) _ _)) _ _)
      (fun _ => rb rl (fun _ => Defers.glyph W i _ _ _))
  | curve eps M N => exact Defers.curve W i eps M kw [] N
  | surface eps M N => exact Defers.surface W i eps M kw N
  | volume eps M N => exact Defers.volume W i eps M N kw
  | cplot N =>
    exact rb (rb rl (fun _ => Defers.glyph W i _ _ _))
      (fun _ => rb rl (fun _ => rb rl (fun _ => Defers.glyph W i _ _ _)))
  | kplot M M' N => exact rb (rb rl (fun _ => Defers.glyph W i _ _ _)) (fun _ => Defers.kwire W i M' N _ kw)
  | plot eps M N =>
    show Defers W i (Session.plot W i eps M N kw)
    unfold Session.plot
    split_ifs
    · exact Defers.curve W i eps M kw [] N
    · exact Defers.surface W i eps M kw N
    · exact Defers.volume W i eps M N kw
    · exact rp

end

end Session

end Igakit
