import Verif.Proofs.PlotCalls
import Verif.Proofs.PlotLazy
import Verif.Props.PlotEx

/-!
# C81: the backend of a plotter; C82: what the backend receives
-/

set_option linter.unusedSectionVars false

namespace Igakit
open Spec Session

variable {K : Type}

/-! ## C81 -/

/-- seven names are known -/
theorem C81_names (name : String) : moduleKey ((aliasOf name).getD name) = backendOf name := by
  rw [key_cases]
  unfold backendOf
  simp only [List.mem_cons, List.not_mem_nil, or_false]

/-- C81: `use(name)`, for every name and in every state.  An unknown name is a ValueError and changes nothing.  A backend that has been
imported before is selected without another import.  Otherwise it is imported, once; if that fails the exception is passed on and
no plotter and no entry of the table of modules changes. -/
theorem C81_use (W : World K) (i : ℕ) (name : String) (s : Sess K) :
    (backendOf name = none → use W i name s = (.error (.py .value), s)) ∧
    ∀ b, backendOf name = some b →
      (s.loaded b = true → use W i name s = (.ok (), { s with cur := Function.update s.cur i (some b) })) ∧
      (s.loaded b = false →
        (W.imp s.tries b = .ok → use W i name s = (.ok (), { s with
          tries := s.tries ++ [(b, .ok)]
          loaded := Function.update s.loaded b true
          cur := Function.update s.cur i (some b) })) ∧
        (W.imp s.tries b = .importErr → use W i name s = (.error .importErr, { s with tries := s.tries ++ [(b, .importErr)] })) ∧
        (∀ n, W.imp s.tries b = .other n → use W i name s = (.error (.other n), { s with tries := s.tries ++ [(b, .other n)] }))) := by
  rw [← C81_names]
  refine ⟨fun h => use_unknown W i h s, fun b h => ⟨fun hl => use_loaded W i h hl, fun hl => ?_⟩⟩
  have hu := use_load W i h hl
  refine ⟨fun hr => ?_, fun hr => ?_, fun n hr => ?_⟩
  · rw [hu, hr]
  · rw [hu, hr]
  · rw [hu, hr]

/-- C81: the backend of a plotter that has been given one is not changed by being asked for -/
theorem C81_get_set (W : World K) (i : ℕ) {s : Sess K} {b : Backend} (h : s.cur i = some b) : getBackend W i s = (.ok b, s) :=
  getBackend_set W i h

/-- C81: a plotter without backend takes mayavi, and matplotlib if and only if mayavi cannot be imported; if neither can, the
exception of matplotlib is raised and the plotter stays without backend -/
theorem C81_get_default (W : World K) (i : ℕ) {s : Sess K} (h : s.cur i = none) :
    (∀ s1, use W i "mayavi" s = (.ok (), s1) → getBackend W i s = (.ok .myv, s1) ∧ s1.cur i = some .myv) ∧
    (∀ s1, use W i "mayavi" s = (.error .importErr, s1) →
      (∀ s2, use W i "matplotlib" s1 = (.ok (), s2) → getBackend W i s = (.ok .mpl, s2) ∧ s2.cur i = some .mpl) ∧
      (∀ e s2, use W i "matplotlib" s1 = (.error e, s2) → getBackend W i s = (.error e, s2) ∧ s2.cur i = none)) ∧
    (∀ e s1, use W i "mayavi" s = (.error e, s1) → e ≠ .importErr → getBackend W i s = (.error e, s1) ∧ s1.cur i = none) := by
  refine ⟨fun s1 hu => ?_, fun s1 hu => ⟨fun s2 hu2 => ?_, fun e s2 hu2 => ?_⟩, fun e s1 hu he => ?_⟩
  · obtain ⟨b, hb, hc⟩ := use_ok_cur hu
    have : b = .myv := by
      have : moduleKey ((aliasOf "mayavi").getD "mayavi") = some .myv := rfl
      rw [this] at hb
      injection hb with hb
      exact hb.symm
    subst this
    refine ⟨?_, hc⟩
    unfold getBackend
    simp only [h, hu]
    exact readBackend_set hc
  · obtain ⟨b, hb, hc⟩ := use_ok_cur hu2
    have : b = .mpl := by
      have : moduleKey ((aliasOf "matplotlib").getD "matplotlib") = some .mpl := rfl
      rw [this] at hb
      injection hb with hb
      exact hb.symm
    subst this
    refine ⟨?_, hc⟩
    unfold getBackend
    simp only [h, hu, hu2]
    exact readBackend_set hc
  · refine ⟨?_, ?_⟩
    · unfold getBackend
      simp only [h, hu, hu2]
    · rw [use_fail_cur hu2, use_fail_cur hu, h]
  · refine ⟨?_, ?_⟩
    · unfold getBackend
      simp only [h, hu]
    · rw [use_fail_cur hu, h]

section

variable [Field K] [LinearOrder K]

/-- C81: at any time in any history, whatever the libraries do: a backend counts as imported if and only if some import of it
succeeded; after that it is never imported again; the backend of a plotter has been imported; backends that receive calls have been
imported -/
theorem C81_history (W : World K) (ops : List (Op K)) :
    let s := run W ops start
    (∀ b, s.loaded b = true ↔ (b, Imp.ok) ∈ s.tries) ∧
    s.tries.Pairwise (fun x y => x.2 = .ok → y.1 ≠ x.1) ∧
    (∀ i b, s.cur i = some b → (b, Imp.ok) ∈ s.tries) ∧
    (∀ e ∈ s.log, (e.at_, Imp.ok) ∈ s.tries ∧ e.who < s.count) := by
  have h : Inv (run W ops start) := Inv.run ops Inv.start
  exact ⟨h.loaded, h.once, fun i b hb => (h.loaded b).mp (h.cur i b hb),
    fun e he => ⟨(h.loaded _).mp (h.log e he).1, (h.log e he).2⟩⟩

/-- the number of successful imports of a backend -/
def imports (l : List (Backend × Imp)) (b : Backend) : ℕ := l.count (b, .ok)

/-- C81: a backend is successfully imported at most once in a session -/
theorem C81_once (W : World K) (ops : List (Op K)) (b : Backend) : imports (run W ops start).tries b ≤ 1 := by
  have h := (C81_history W ops).2.1
  unfold imports
  generalize (run W ops start).tries = l at h
  induction l with
  | nil => simp
  | cons x l ih =>
    rw [List.pairwise_cons] at h
    rw [List.count_cons]
    split_ifs with hx
    · have hx : x = (b, .ok) := by simpa using hx
      subst hx
      have : l.count (b, Imp.ok) = 0 := by
        rw [List.count_eq_zero]
        intro hm
        exact h.1 _ hm rfl rfl
      omega
    · have := ih h.2
      omega

/-- C81: one operation.  Plotters other than the one operated on keep their backends; a plotter changes its backend only by `use`;
the calls of a drawing method all go to one backend, which then is that of the plotter -/
theorem C81_draw (W : World K) (i : ℕ) (kw : Opts) (m : Meth K) (s : Sess K) :
    (∀ j, j ≠ i → (draw W i kw m s).2.cur j = s.cur j) ∧
    (∀ b, s.cur i = some b → (draw W i kw m s).2.cur i = some b) ∧
    (∀ b, s.cur i = some b → (draw W i kw m s).2.tries = s.tries) ∧
    ∃ l, (draw W i kw m s).2.log = s.log ++ l ∧ ∀ e ∈ l, e.who = i ∧ (draw W i kw m s).2.cur i = some e.at_ := by
  have h := Good.draw W i kw m s
  refine ⟨h.others, h.keep, fun b hb => ?_, h.log⟩
  obtain ⟨l, h1, h2⟩ := h.tries
  rw [h1, h2 (by rw [hb]; simp), List.append_nil]

/-- `use` touches one plotter and no log -/
theorem use_frame (W : World K) (i : ℕ) (name : String) (s : Sess K) :
    (∀ j, j ≠ i → (use W i name s).2.cur j = s.cur j) ∧ (use W i name s).2.log = s.log ∧ (use W i name s).2.count = s.count := by
  rcases use_cases W i name s with ⟨b, h, _⟩ | ⟨b, h, _⟩ | ⟨e, b, r, h, _⟩ | ⟨h, _⟩
  · rw [h]
    exact ⟨fun j hj => by dsimp only; rw [Function.update_of_ne hj], rfl, rfl⟩
  · rw [h]
    exact ⟨fun j hj => by dsimp only; rw [Function.update_of_ne hj], rfl, rfl⟩
  · rw [h]
    exact ⟨fun j hj => rfl, rfl, rfl⟩
  · rw [h]
    exact ⟨fun j hj => rfl, rfl, rfl⟩

/-- one operation that does not select a backend for `i` -/
theorem step_keep (W : World K) {i : ℕ} {op : Op K} (hop : ¬ Selects i op) {s : Sess K} (hi : i < s.count) {b : Backend}
    (hs : s.cur i = some b) : (step W op s).2.cur i = some b ∧ i < (step W op s).2.count ∧
      ∃ l, (step W op s).2.log = s.log ++ l ∧ ∀ e ∈ l, e.who = i → e.at_ = b := by
  cases op with
  | new backend =>
    show (new W backend s).2.cur i = some b ∧ i < (new W backend s).2.count ∧ ∃ l, (new W backend s).2.log = s.log ++ l ∧ _
    unfold new
    cases backend with
    | none => exact ⟨hs, by dsimp only; omega, [], by simp, by simp⟩
    | some name =>
      have hf := use_frame W s.count name s
      dsimp only
      rcases hu : use W s.count name s with ⟨r, s'⟩
      rw [hu] at hf
      cases r with
      | ok a =>
        refine ⟨?_, by dsimp only; omega, [], ?_, by simp⟩
        · dsimp only
          rw [hf.1 i (by omega)]
          exact hs
        · simpa using hf.2.1
      | error e =>
        refine ⟨?_, ?_, [], ?_, by simp⟩
        · rw [hf.1 i (by omega)]
          exact hs
        · rw [hf.2.2]
          exact hi
        · simpa using hf.2.1
  | use j name =>
    have hj : i ≠ j := by
      rintro rfl
      exact hop ⟨name, rfl⟩
    show (if j < s.count then Session.use W j name s else (.error .name, s)).2.cur i = some b ∧
      i < (if j < s.count then Session.use W j name s else (.error .name, s)).2.count ∧
      ∃ l, (if j < s.count then Session.use W j name s else (.error .name, s)).2.log = s.log ++ l ∧ _
    have hf := use_frame W j name s
    split_ifs
    · exact ⟨by rw [hf.1 i hj]; exact hs, by rw [hf.2.2]; exact hi, [], by simpa using hf.2.1, by simp⟩
    · exact ⟨hs, hi, [], by simp, by simp⟩
  | attr j =>
    show (if j < s.count then (do let _ ← Session.getBackend W j; pure () : SM K Unit) s else (.error .name, s)).2.cur i = some b ∧
      i < (if j < s.count then (do let _ ← Session.getBackend W j; pure () : SM K Unit) s else (.error .name, s)).2.count ∧
      ∃ l, (if j < s.count then (do let _ ← Session.getBackend W j; pure () : SM K Unit) s else (.error .name, s)).2.log
        = s.log ++ l ∧ _
    split_ifs
    · have hg := SM.Rel.bind (Good.trans j) (Good.getBackend W j) (fun _ => SM.Rel.pure (Good.refl j) ()) s
      obtain ⟨l, h1, h2⟩ := hg.log
      by_cases hj : i = j
      · subst hj
        refine ⟨hg.keep b hs, by rw [hg.count]; exact hi, l, h1, fun e he _ => ?_⟩
        have := (h2 e he).2
        rw [hg.keep b hs] at this
        injection this with this
        exact this.symm
      · exact ⟨by rw [hg.others i hj]; exact hs, by rw [hg.count]; exact hi, l, h1,
          fun e he hw => absurd ((h2 e he).1.symm.trans hw) (Ne.symm hj)⟩
    · exact ⟨hs, hi, [], by simp, by simp⟩
  | draw j kw m =>
    show (if j < s.count then Session.draw W j kw m s else (.error .name, s)).2.cur i = some b ∧
      i < (if j < s.count then Session.draw W j kw m s else (.error .name, s)).2.count ∧
      ∃ l, (if j < s.count then Session.draw W j kw m s else (.error .name, s)).2.log = s.log ++ l ∧ _
    split_ifs
    · have hg := Good.draw W j kw m s
      obtain ⟨l, h1, h2⟩ := hg.log
      by_cases hj : i = j
      · subst hj
        refine ⟨hg.keep b hs, by rw [hg.count]; exact hi, l, h1, fun e he _ => ?_⟩
        have := (h2 e he).2
        rw [hg.keep b hs] at this
        injection this with this
        exact this.symm
      · exact ⟨by rw [hg.others i hj]; exact hs, by rw [hg.count]; exact hi, l, h1,
          fun e he hw => absurd ((h2 e he).1.symm.trans hw) (Ne.symm hj)⟩
    · exact ⟨hs, hi, [], by simp, by simp⟩

/-- C81: a plotter keeps its backend through every history in which no other is selected for it, and everything it draws goes there,
whatever happens to the other plotters and whatever fails -/
theorem C81_keep (W : World K) {i : ℕ} {b : Backend} : ∀ (ops : List (Op K)) {s : Sess K}, (∀ op ∈ ops, ¬ Selects i op) →
    i < s.count → s.cur i = some b →
    (run W ops s).cur i = some b ∧ ∃ l, (run W ops s).log = s.log ++ l ∧ ∀ e ∈ l, e.who = i → e.at_ = b
  | [], s, _, hi, hs => ⟨hs, [], by simp [run], by simp⟩
  | op :: ops, s, ho, hi, hs => by
    obtain ⟨h1, h2, l, h3, h4⟩ := step_keep W (ho op List.mem_cons_self) hi hs
    obtain ⟨g1, m, g3, g4⟩ := C81_keep W ops (fun o h => ho o (List.mem_cons_of_mem _ h)) h2 h1
    refine ⟨g1, l ++ m, ?_, ?_⟩
    · show (run W ops (step W op s).2).log = _
      rw [g3, h3, List.append_assoc]
    · intro e he hw
      rcases List.mem_append.mp he with he | he
      · exact h4 e he hw
      · exact g4 e he hw

/-- C81: a drawing method chooses the backend when it first needs one: it does what it would do if the backend had been asked for
before, and fails as that would, unless it fails or ends before it needs a backend -/
theorem C81_lazy (W : World K) (i : ℕ) (kw : Opts) (m : Meth K) (s : Sess K) :
    (∀ b s1, getBackend W i s = (.ok b, s1) →
      draw W i kw m s = draw W i kw m s1 ∨ ∃ r, draw W i kw m s = (r, s) ∧ draw W i kw m s1 = (r, s1)) ∧
    (∀ e s1, getBackend W i s = (.error e, s1) → draw W i kw m s = (.error e, s1) ∨ ∃ r, draw W i kw m s = (r, s)) :=
  ⟨(Defers.draw W i kw m).ok s, (Defers.draw W i kw m).err s⟩

end

/-! ## C82 -/

section

variable [Field K] [LinearOrder K] [IsStrictOrderedRing K] {d : ℕ} {W : World K} (hW : Quiet W) {i : ℕ} {b : Backend} {s : Sess K}
  (hs : s.cur i = some b)

include hW hs in
/-- C82: `points` -/
theorem C82_points {P : Nd K} {l : Xyz K} (hl : Plot.points P = .ok l) (kw : Opts) :
    ∃ o, PointOpts none "sphere" kw o ∧ draw W i kw (.points P) s = (.ok (), saw s i b [.call (.points l) o]) := by
  refine ⟨_, pointOpts_none _ kw, ?_⟩
  show Session.points W i P kw s = _
  unfold Session.points
  rw [SM.bind_ok (SM.lift_ok hl s), SM.bind_ok (invoke_points hW hs l _)]
  rfl

include hW hs in
/-- C82: `quiver`.  The matplotlib backend has no such function: AttributeError, and nothing is drawn. -/
theorem C82_quiver {P V : Nd K} {l v : Xyz K} (hl : Plot.quiver P V = .ok (l, v)) (kw : Opts) :
    (b = .mpl → draw W i kw (.quiver P V) s = (.error .attrErr, s)) ∧
    (b ≠ .mpl → ∃ o, PointOpts none "arrow" kw o ∧
      draw W i kw (.quiver P V) s = (.ok (), saw s i b [.call (.quiver l v) o])) := by
  constructor
  · intro hb
    show Session.quiver W i P V kw s = _
    unfold Session.quiver
    rw [SM.bind_ok (SM.lift_ok hl s)]
    rcases invoke_cases W i (.quiver l v) (kw.default "mode" (.str "arrow")) s s b (getBackend_set W i hs) with ⟨_, h⟩ | ⟨h, _⟩
    · rw [SM.bind_error h]
    · exact absurd ⟨hb, l, v, rfl⟩ h
  · intro hb
    refine ⟨_, pointOpts_none _ kw, ?_⟩
    show Session.quiver W i P V kw s = _
    unfold Session.quiver
    rw [SM.bind_ok (SM.lift_ok hl s), SM.bind_ok (invoke_quiet hW hs _ _ (by rintro ⟨h, _⟩; exact hb h))]
    rfl

include hW hs in
/-- C82: the control net: `cpoint`, `cwire` and `cplot`.  A mode other than line or tube is an AssertionError of `cwire`, with which
`cplot` ends after it has drawn the points. -/
theorem C82_control {N : Nrb K d} {l : Xyz K} {ls : List (Xyz K)} (hl : Plot.cpoint N = .ok l) (hls : Plot.cwire N = .ok ls)
    (kw : Opts) :
    ∃ o, PointOpts (some (.tup [1, 0, 0])) "sphere" kw o ∧
      draw W i kw (.cpoint N) s = (.ok (), saw s i b (.call (.points l) o :: shrink b kw 8)) ∧
      (LineMode (modeOr "line" kw) → ∃ o', WireOpts (colorOr (.tup [0, 0, 1]) kw) (modeOr "line" kw) kw o' ∧
        draw W i kw (.cwire N) s = (.ok (), saw s i b [.call (.lines ls) o']) ∧
        draw W i kw (.cplot N) s = (.ok (), saw s i b (.call (.points l) o :: shrink b kw 8 ++ [.call (.lines ls) o']))) ∧
      (¬ LineMode (modeOr "line" kw) →
        draw W i kw (.cwire N) s = (.error (.py .assertion), s) ∧
        draw W i kw (.cplot N) s = (.error (.py .assertion), saw s i b (.call (.points l) o :: shrink b kw 8))) := by
  obtain ⟨o, ho, h1⟩ := cpoint_calls hW hs hl kw
  refine ⟨o, ho, h1, fun hm => ?_, fun hm => ?_⟩
  · obtain ⟨o', ho', h2⟩ := cwire_calls hW hs hls hm
    obtain ⟨o'', ho'', h3⟩ := cwire_calls hW (s := saw s i b (.call (.points l) o :: shrink b kw 8)) hs hls hm
    have heq : o' = o'' := by
      funext k
      by_cases hk : k ∈ ["mode", "color", "representation", "tube_radius"]
      · simp only [List.mem_cons, List.not_mem_nil, or_false] at hk
        rcases hk with rfl | rfl | rfl | rfl
        · rw [ho'.mode, ho''.mode]
        · rw [ho'.color, ho''.color]
        · rw [ho'.repr, ho''.repr]
        · rw [ho'.tube, ho''.tube]
      · rw [ho'.others k hk, ho''.others k hk]
    subst heq
    refine ⟨o', ho', h2, ?_⟩
    show Session.cplot W i N kw s = _
    unfold Session.cplot
    rw [SM.bind_ok h1, h3, saw_append]
  · refine ⟨cwire_mode hls hm s, ?_⟩
    show Session.cplot W i N kw s = _
    unfold Session.cplot
    rw [SM.bind_ok h1, cwire_mode hls hm]

include hW hs in
/-- C82: the knots: `kpoint`, `kwire` and `kplot`, at the resolution of the backend -/
theorem C82_knots {M M' : PlotMem K} {N : Nrb K d} {l : Xyz K} {ls : List (Xyz K)} (hl : Plot.kpoint M N = .ok l)
    (hls : Plot.kwire M' (res1 b) N .none = .ok ls) (kw : Opts) :
    ∃ o, PointOpts (some (.tup [0, 1, 0])) "cube" kw o ∧
      draw W i kw (.kpoint M N) s = (.ok (), saw s i b (.call (.points l) o :: shrink b kw 10)) ∧
      (LineMode (modeOr "line" kw) → ∃ o', WireOpts (colorOr (.tup [0, 1, 0]) kw) (modeOr "line" kw) kw o' ∧
        draw W i kw (.kplot M M' N) s = (.ok (), saw s i b (.call (.points l) o :: shrink b kw 10 ++ [.call (.lines ls) o']))) ∧
      (¬ LineMode (modeOr "line" kw) →
        draw W i kw (.kplot M M' N) s = (.error (.py .assertion), saw s i b (.call (.points l) o :: shrink b kw 10))) := by
  obtain ⟨o, ho, h1⟩ := kpoint_calls hW hs hl kw
  refine ⟨o, ho, h1, fun hm => ?_, fun hm => ?_⟩
  · obtain ⟨o', ho', h3⟩ := kwire_calls hW (s := saw s i b (.call (.points l) o :: shrink b kw 10)) hs hls hm
    refine ⟨o', ho', ?_⟩
    show Session.kplot W i M M' N kw s = _
    unfold Session.kplot
    rw [SM.bind_ok h1, h3, saw_append]
  · show Session.kplot W i M M' N kw s = _
    unfold Session.kplot
    rw [SM.bind_ok h1, kwire_mode (s := saw s i b (.call (.points l) o :: shrink b kw 10)) hs hls hm]

include hW hs in
/-- C82: `kwire` and `ksurf` on any axes -/
theorem C82_kwire {M : PlotMem K} {N : Nrb K d} {axes : Plot.AxesArg} {ls : List (Xyz K)}
    (hls : Plot.kwire M (res1 b) N axes = .ok ls) (kw : Opts) :
    (LineMode (modeOr "line" kw) → ∃ o, WireOpts (colorOr (.tup [0, 1, 0]) kw) (modeOr "line" kw) kw o ∧
        draw W i kw (.kwire M N axes) s = (.ok (), saw s i b [.call (.lines ls) o])) ∧
    (¬ LineMode (modeOr "line" kw) → draw W i kw (.kwire M N axes) s = (.error (.py .assertion), s)) :=
  ⟨fun hm => kwire_calls hW hs hls hm, fun hm => kwire_mode hs hls hm⟩

include hW hs in
/-- C82: `ksurf` -/
theorem C82_ksurf {eps : K} {M : PlotMem K} {N : Nrb K (d + 1)} {axes : Plot.AxesArg} {ls : List (Xyz K)}
    (hls : Plot.ksurf eps M (res2 b) N axes = .ok ls) (kw : Opts) :
    ∃ o, SurfOpts (colorOr (.tup [0, 1, 0]) kw) kw o ∧ draw W i kw (.ksurf eps M N axes) s = (.ok (), saw s i b [.call (.surfs ls) o]) :=
  ksurf_calls hW hs hls kw

include hW hs in
/-- C82: `curve`: one call for each line, all with the same options -/
theorem C82_curve {eps : K} {M : PlotMem K} {N : Nrb K d} {ls : List (Xyz K)} (hls : Plot.curve eps M (res1 b) [] N = .ok ls)
    {kw : Opts} (hm : LineMode (modeOr "tube" kw)) :
    ∃ o, WireOpts (colorOrYellow kw) (modeOr "tube" kw) kw o ∧
      draw W i kw (.curve eps M N) s = (.ok (), saw s i b (ls.map (fun l => .call (.lines [l]) o))) := by
  obtain ⟨o, h1, h2⟩ := wireOpts_yellow hm
  exact ⟨o, h2, curve_calls hW h1 hs hls⟩

include hs in
/-- C82: a curve in another mode is an AssertionError, and nothing is drawn -/
theorem C82_curve_mode {eps : K} {M : PlotMem K} {N : Nrb K 1} {ls : List (Xyz K)} (hls : Plot.curve eps M (res1 b) [] N = .ok ls)
    {kw : Opts} (hm : ¬ LineMode (modeOr "tube" kw)) :
    draw W i kw (.curve eps M N) s = (.error (.py .assertion), s) := by
  show Session.curve W i eps M kw [] N s = _
  unfold Plot.curve at hls
  unfold Session.curve
  cases h1 : Plot.sampled M [] (res1 b) N with
  | error e => rw [h1] at hls; simp [Bind.bind, Except.bind] at hls
  | ok C =>
    rw [h1] at hls
    dsimp only [Bind.bind, Except.bind] at hls
    cases h2 : Plot.unpack3 C with
    | error e => rw [h2] at hls; simp at hls
    | ok l =>
      rw [SM.bind_ok (getBackend_set W i hs), SM.bind_ok (SM.lift_ok h1 s), SM.bind_ok (SM.lift_ok h2 s),
        SM.bind_error (SM.lift_error (wireMode_yellow_error hm) s)]

include hW hs in
/-- C82: `surface` and `volume`: one call with all surfaces.  Nothing is drawn of an object with too few parameters. -/
theorem C82_surface {eps : K} {M : PlotMem K} {N : Nrb K d} {ls : List (Xyz K)} (hls : Plot.surface eps M (res2 b) N = .ok ls)
    (kw : Opts) :
    (2 ≤ d → ∃ o, SurfOpts (colorOrYellow kw) kw o ∧
      draw W i kw (.surface eps M N) s = (.ok (), saw s i b [.call (.surfs ls) o]) ∧
      (3 ≤ d → draw W i kw (.volume eps M N) s = (.ok (), saw s i b [.call (.surfs ls) o]))) ∧
    (d < 2 → draw W i kw (.surface eps M N) s = (.ok (), s)) ∧ (d < 3 → draw W i kw (.volume eps M N) s = (.ok (), s)) := by
  refine ⟨fun hd => ?_, fun hd => ?_, fun hd => ?_⟩
  · obtain ⟨o, h1, h2⟩ := surface_calls hW hs hd hls kw
    refine ⟨o, h1, h2, fun h3 => ?_⟩
    show Session.volume W i eps M N kw s = _
    unfold Session.volume
    rw [if_neg (by omega)]
    exact h2
  · match d, N, hd with
    | 0, N, _ => rfl
    | 1, N, _ => rfl
  · show Session.volume W i eps M N kw s = _
    unfold Session.volume
    rw [if_pos hd]
    rfl

theorem res1_eq (b : Backend) : res1 b = curvePoints b := by cases b <;> rfl
theorem res2_eq (b : Backend) : res2 b = surfPoints b := by cases b <;> rfl

include hW hs in
/-- C82: what a backend receives when a curve is plotted: one line, points of the curve at evenly spaced parameters, as many as the
backend asks for -/
theorem C82_plot_curve {eps : K} (heps : 0 < eps) (M : PlotMem K) {N : Nrb K 1} (hv : N.Valid) {kw : Opts}
    (hm : LineMode (modeOr "tube" kw)) :
    ∃ o l, WireOpts (colorOrYellow kw) (modeOr "tube" kw) kw o ∧
      l.IsLine (curvePoints b) (fun j => N.pt (fun a => evenly (N.lo a) (N.hi a) (curvePoints b) j)) ∧
      draw W i kw (.plot eps M N) s = (.ok (), saw s i b [.call (.lines [l]) o]) := by
  rw [← res1_eq]
  have h1 : 0 < res1 b := by cases b <;> decide
  obtain ⟨l, h2, h3⟩ := (C63_plot heps M h1 h1).1 hv
  have hc : Plot.curve eps M (res1 b) [] N = .ok [l] := by
    unfold Plot.plot at h2
    rw [if_pos rfl] at h2
    cases hc : Plot.curve eps M (res1 b) [] N with
    | error e => rw [hc] at h2; simp [Bind.bind, Except.bind] at h2
    | ok ls =>
      rw [hc] at h2
      have : (Except.ok (⟨ls, []⟩ : Plot.Drawn K) : Res _) = .ok ⟨[l], []⟩ := h2
      injection this with this
      injection this with this
      rw [this]
  obtain ⟨o, g1, g2⟩ := C82_curve hW hs hc hm
  refine ⟨o, l, g1, h3, ?_⟩
  show Session.plot W i eps M N kw s = _
  unfold Session.plot
  rw [if_pos rfl]
  exact g2

include hW hs in
/-- C82: what a backend receives when a surface is plotted: one net of points of the surface -/
theorem C82_plot_surface {eps : K} (heps : 0 < eps) (M : PlotMem K) {N : Nrb K 2} (hv : N.Valid) (kw : Opts) :
    ∃ o l, SurfOpts (colorOrYellow kw) kw o ∧
      l.Shows (fun _ => surfPoints b) (fun j => N.pt (fun a => evenly (N.lo a) (N.hi a) (surfPoints b) (j a))) ∧
      draw W i kw (.plot eps M N) s = (.ok (), saw s i b [.call (.surfs [l]) o]) := by
  rw [← res2_eq]
  have h1 : 0 < res2 b := by cases b <;> decide
  obtain ⟨l, h2, h3⟩ := C63_surface (eps := eps) M h1 hv
  obtain ⟨o, g1, g2, _⟩ := (C82_surface hW hs h2 kw).1 (by omega)
  refine ⟨o, l, g1, h3, ?_⟩
  show Session.plot W i eps M N kw s = _
  unfold Session.plot
  rw [if_neg (by omega), if_pos rfl]
  exact g2

include hW hs in
/-- C82: what a backend receives when a volume is plotted: its six faces -/
theorem C82_plot_volume {eps : K} (heps : 0 < eps) (M : PlotMem K) {N : Nrb K 3} (hv : N.Valid) (hE : N.HasSides eps) (kw : Opts) :
    ∃ o ls, SurfOpts (colorOrYellow kw) kw o ∧
      List.Forall₂ (fun (f : Fin 3 × Bool) l =>
        l.Shows (fun _ => surfPoints b) (fun j => N.pt (N.faceAt f.1 (N.endOf f.1 f.2) (surfPoints b) j)))
        [(0, false), (0, true), (1, false), (1, true), (2, false), (2, true)] ls ∧
      draw W i kw (.plot eps M N) s = (.ok (), saw s i b [.call (.surfs ls) o]) := by
  rw [← res2_eq]
  have h1 : 0 < res2 b := by cases b <;> decide
  obtain ⟨ls, h2, _, h3⟩ := C63_volume heps M h1 hv hE
  obtain ⟨o, g1, _, g2⟩ := (C82_surface hW hs h2 kw).1 (by omega)
  refine ⟨o, ls, g1, h3, ?_⟩
  show Session.plot W i eps M N kw s = _
  unfold Session.plot
  rw [if_neg (by omega), if_neg (by omega), if_pos rfl]
  exact g2 (by omega)

end

/-! ### matplotlib -/

/-- options of mayavi that plot_mpl.py removes everywhere -/
def mayaviOnly : List String := ["name", "representation", "opacity", "colormap", "resolution", "line_width"]

theorem dels_eq (o : Opts) (ks : List String) (k : String) : dels o ks k = if k ∈ ks then none else o k := by
  induction ks generalizing o with
  | nil => simp [dels]
  | cons x ks ih =>
    show dels (o.del x) ks k = _
    rw [ih]
    by_cases hx : k = x
    · subst hx
      simp [del_self]
    · by_cases hk : k ∈ ks
      · simp [hk]
      · simp [hk, hx, del_ne _ hx]

/-- C82: what matplotlib's `scatter` gets: the shape of the marker follows the mode; of the rest, the options of glyphs and those of
mayavi are left out -/
theorem C82_mpl_scatter (kw : Opts) :
    mplScatter kw "mode" = none ∧
    mplScatter kw "marker" = (
      if modeOr "sphere" kw = .str "sphere" then some (.str "o")
      else if modeOr "sphere" kw = .str "cube" then some (.str "s")
      else if modeOr "sphere" kw = .str "cone" then some (.str "^")
      else kw "marker") ∧
    (∀ k, k ∈ "scale_factor" :: "scale_mode" :: mayaviOnly → mplScatter kw k = none) ∧
    (∀ k, k ∉ "mode" :: "marker" :: "scale_factor" :: "scale_mode" :: mayaviOnly → mplScatter kw k = kw k) := by
  have hmode : (dels kw ["name", "representation", "opacity", "colormap", "resolution", "scale_factor", "scale_mode", "line_width"]
      "mode").getD (.str "sphere") = modeOr "sphere" kw := by
    rw [dels_eq, if_neg (by decide), modeOr_eq]
  have key : ∀ k, mplScatter kw k =
      if k = "marker" then (
        if modeOr "sphere" kw = .str "sphere" then some (.str "o")
        else if modeOr "sphere" kw = .str "cube" then some (.str "s")
        else if modeOr "sphere" kw = .str "cone" then some (.str "^")
        else kw "marker")
      else if k = "mode" then none
      else if k ∈ ["name", "representation", "opacity", "colormap", "resolution", "scale_factor", "scale_mode", "line_width"] then none
      else kw k := by
    intro k
    unfold mplScatter
    simp only [hmode]
    generalize modeOr "sphere" kw = m
    by_cases h1 : m = .str "sphere"
    · subst h1
      simp only [Val.str.injEq, String.reduceEq, if_true, if_false]
      by_cases hk : k = "marker"
      · subst hk; rw [put_self, if_pos rfl]
      · rw [put_ne _ hk, if_neg hk]
        by_cases hm : k = "mode"
        · subst hm; rw [del_self, if_pos rfl]
        · rw [del_ne _ hm, if_neg hm, dels_eq]
    · by_cases h2 : m = .str "cube"
      · subst h2
        simp only [Val.str.injEq, String.reduceEq, if_true, if_false]
        by_cases hk : k = "marker"
        · subst hk; rw [put_self, if_pos rfl]
        · rw [put_ne _ hk, if_neg hk]
          by_cases hm : k = "mode"
          · subst hm; rw [del_self, if_pos rfl]
          · rw [del_ne _ hm, if_neg hm, dels_eq]
      · by_cases h3 : m = .str "cone"
        · subst h3
          simp only [Val.str.injEq, String.reduceEq, if_true, if_false]
          by_cases hk : k = "marker"
          · subst hk; rw [put_self, if_pos rfl]
          · rw [put_ne _ hk, if_neg hk]
            by_cases hm : k = "mode"
            · subst hm; rw [del_self, if_pos rfl]
            · rw [del_ne _ hm, if_neg hm, dels_eq]
        · rw [if_neg h3, if_neg h2, if_neg h1, if_neg h1, if_neg h2, if_neg h3]
          by_cases hk : k = "marker"
          · subst hk; rw [del_ne _ (by decide), dels_eq, if_neg (by decide), if_pos rfl]
          · rw [if_neg hk]
            by_cases hm : k = "mode"
            · subst hm; rw [del_self, if_pos rfl]
            · rw [del_ne _ hm, if_neg hm, dels_eq]
  refine ⟨?_, ?_, ?_, ?_⟩
  · rw [key, if_neg (by decide), if_pos rfl]
  · rw [key, if_pos rfl]
  · intro k hk
    rw [key]
    simp only [mayaviOnly, List.mem_cons, List.not_mem_nil, or_false] at hk
    rcases hk with rfl | rfl | rfl | rfl | rfl | rfl | rfl | rfl <;> simp
  · intro k hk
    simp only [mayaviOnly, List.mem_cons, List.not_mem_nil, or_false, not_or] at hk
    rw [key, if_neg hk.2.1, if_neg hk.1, if_neg]
    simp only [List.mem_cons, List.not_mem_nil, or_false, not_or]
    tauto

/-- C82: what matplotlib's `plot` gets: the options of tubes and those of mayavi are left out -/
theorem C82_mpl_line (kw : Opts) :
    (∀ k, k ∈ "tube_radius" :: "tube_sides" :: mayaviOnly → mplLineOpts kw k = none) ∧
    (∀ k, k ∉ "tube_radius" :: "tube_sides" :: mayaviOnly → mplLineOpts kw k = kw k) ∧
    (∀ k, k ≠ "rstride" → k ≠ "cstride" → mplWireOpts kw k = mplLineOpts kw k) ∧
    mplWireOpts kw "rstride" = some (.obj 1) ∧ mplWireOpts kw "cstride" = some (.obj 1) := by
  refine ⟨?_, ?_, ?_, ?_, ?_⟩
  · intro k hk
    unfold mplLineOpts
    rw [dels_eq, if_pos]
    simp only [mayaviOnly, List.mem_cons, List.not_mem_nil, or_false] at hk ⊢
    tauto
  · intro k hk
    unfold mplLineOpts
    rw [dels_eq, if_neg]
    simp only [mayaviOnly, List.mem_cons, List.not_mem_nil, or_false] at hk ⊢
    tauto
  · intro k h1 h2
    unfold mplWireOpts
    rw [put_ne _ h2, put_ne _ h1]
  · unfold mplWireOpts
    rw [put_ne _ (by decide), put_self]
  · unfold mplWireOpts
    rw [put_self]

/-- C82: what matplotlib's `plot_surface` gets: strides one, shading, no lines unless asked for, and a colour map if there is neither
colour nor colour map; the options of glyphs and tubes and those of mayavi are left out -/
theorem C82_mpl_surf (kw : Opts) :
    mplSurfOpts kw "rstride" = some (.obj 1) ∧ mplSurfOpts kw "cstride" = some (.obj 1) ∧
    mplSurfOpts kw "shade" = some (.obj 2) ∧ mplSurfOpts kw "antialiased" = some (.obj 2) ∧
    mplSurfOpts kw "linewidth" = some ((kw "linewidth").getD (.obj 0)) ∧
    mplSurfOpts kw "color" = kw "color" ∧
    mplSurfOpts kw "cmap" = (if kw "color" = none ∧ kw "cmap" = none then some (.obj 3) else kw "cmap") ∧
    (∀ k, k ∈ "scale_factor" :: "scale_mode" :: "tube_radius" :: "tube_sides" :: mayaviOnly → mplSurfOpts kw k = none) ∧
    (∀ k, k ∉ "scale_factor" :: "scale_mode" :: "tube_radius" :: "tube_sides" :: "rstride" :: "cstride" :: "shade" ::
      "antialiased" :: "linewidth" :: "cmap" :: mayaviOnly → mplSurfOpts kw k = kw k) := by
  have key : ∀ k, mplSurfOpts kw k =
      if k = "antialiased" then some (.obj 2) else if k = "shade" then some (.obj 2)
      else if k = "cmap" ∧ kw "color" = none ∧ kw "cmap" = none then some (.obj 3)
      else if k = "linewidth" then some ((kw "linewidth").getD (.obj 0))
      else if k = "cstride" then some (.obj 1) else if k = "rstride" then some (.obj 1)
      else if k ∈ ["name", "representation", "opacity", "colormap", "resolution", "scale_factor", "scale_mode", "tube_radius",
        "tube_sides", "line_width"] then none else kw k := by
    intro k
    unfold mplSurfOpts
    have hc : ∀ o : Opts, (((o.put "rstride" (.obj 1)).put "cstride" (.obj 1)).default "linewidth" (.obj 0)) "color" = o "color" :=
      fun o => by rw [default_ne _ (by decide), put_ne _ (by decide), put_ne _ (by decide)]
    have hm : ∀ o : Opts, (((o.put "rstride" (.obj 1)).put "cstride" (.obj 1)).default "linewidth" (.obj 0)) "cmap" = o "cmap" :=
      fun o => by rw [default_ne _ (by decide), put_ne _ (by decide), put_ne _ (by decide)]
    have hd : ∀ k, k ∉ ["name", "representation", "opacity", "colormap", "resolution", "scale_factor", "scale_mode", "tube_radius",
        "tube_sides", "line_width"] → dels kw ["name", "representation", "opacity", "colormap", "resolution", "scale_factor",
        "scale_mode", "tube_radius", "tube_sides", "line_width"] k = kw k := fun k hk => by rw [dels_eq, if_neg hk]
    rw [hc, hm, hd "color" (by decide), hd "cmap" (by decide)]
    by_cases h1 : k = "antialiased"
    · subst h1; rw [put_self, if_pos rfl]
    rw [put_ne _ h1, if_neg h1]
    by_cases h2 : k = "shade"
    · subst h2; rw [put_self, if_pos rfl]
    rw [put_ne _ h2, if_neg h2]
    have rest : ∀ o : Opts, ((((o.put "rstride" (.obj 1)).put "cstride" (.obj 1)).default "linewidth" (.obj 0)) : Opts) k =
        if k = "linewidth" then some ((o "linewidth").getD (.obj 0)) else if k = "cstride" then some (.obj 1)
        else if k = "rstride" then some (.obj 1) else o k := by
      intro o
      by_cases h3 : k = "linewidth"
      · subst h3; rw [default_self, if_pos rfl, put_ne _ (by decide), put_ne _ (by decide)]
      rw [default_ne _ h3, if_neg h3]
      by_cases h4 : k = "cstride"
      · subst h4; rw [put_self, if_pos rfl]
      rw [put_ne _ h4, if_neg h4]
      by_cases h5 : k = "rstride"
      · subst h5; rw [put_self, if_pos rfl]
      rw [put_ne _ h5, if_neg h5]
    by_cases hcm : kw "color" = none ∧ kw "cmap" = none
    · rw [if_pos hcm]
      by_cases h3 : k = "cmap"
      · subst h3; rw [put_self, if_pos ⟨rfl, hcm⟩]
      rw [put_ne _ h3, if_neg (fun h => h3 h.1), rest, hd "linewidth" (by decide), dels_eq]
    · rw [if_neg hcm, if_neg (fun h => hcm h.2), rest, hd "linewidth" (by decide), dels_eq]
  refine ⟨?_, ?_, ?_, ?_, ?_, ?_, ?_, ?_, ?_⟩
  · rw [key]; simp
  · rw [key]; simp
  · rw [key]; simp
  · rw [key]; simp
  · rw [key]; simp
  · rw [key]; simp
  · rw [key]; simp
  · intro k hk
    rw [key]
    simp only [mayaviOnly, List.mem_cons, List.not_mem_nil, or_false] at hk
    rcases hk with rfl | rfl | rfl | rfl | rfl | rfl | rfl | rfl | rfl | rfl <;> simp
  · intro k hk
    simp only [mayaviOnly, List.mem_cons, List.not_mem_nil, or_false, not_or] at hk
    obtain ⟨h1, h2, h3, h4, h5, h6, h7, h8, h9, h10, h11⟩ := hk
    rw [key, if_neg h8, if_neg h7, if_neg (fun h => h10 h.1), if_neg h9, if_neg h6, if_neg h5, if_neg]
    simp only [List.mem_cons, List.not_mem_nil, or_false, not_or]
    tauto

/-- C82: what the plotter itself adds never reaches matplotlib, except colours: without options of the user, `plot` of a curve gets a
colour, `scatter` a colour and a marker, `plot_surface` a colour and its own settings -/
theorem C82_mpl_default :
    (∀ o c m k, WireOpts (some c) m (fun _ => none) o → mplLineOpts o k = if k = "color" then some c else none) ∧
    (∀ o c m k, PointOpts (some c) m (fun _ => none) o → k ≠ "marker" → mplScatter o k = if k = "color" then some c else none) ∧
    (∀ o c k, SurfOpts (some c) (fun _ => none) o → k ∉ ["rstride", "cstride", "shade", "antialiased", "linewidth"] →
      mplSurfOpts o k = if k = "color" then some c else none) := by
  refine ⟨fun o c m k h => ?_, fun o c m k h hk => ?_, fun o c k h hk => ?_⟩
  · by_cases hc : k = "color"
    · subst hc
      rw [(C82_mpl_line o).2.1 _ (by decide), h.color, if_pos rfl]
    · rw [if_neg hc]
      by_cases hr : k ∈ "tube_radius" :: "tube_sides" :: mayaviOnly
      · exact (C82_mpl_line o).1 k hr
      · rw [(C82_mpl_line o).2.1 k hr]
        by_cases hm : k = "mode"
        · subst hm; exact h.mode
        · rw [h.others k]
          simp only [mayaviOnly, List.mem_cons, List.not_mem_nil, or_false, not_or] at hr ⊢
          tauto
  · by_cases hc : k = "color"
    · subst hc
      rw [(C82_mpl_scatter o).2.2.2 _ (by decide), h.color, if_pos rfl]
      rfl
    · rw [if_neg hc]
      by_cases hm : k = "mode"
      · subst hm; exact (C82_mpl_scatter o).1
      · by_cases hr : k ∈ "scale_factor" :: "scale_mode" :: mayaviOnly
        · exact (C82_mpl_scatter o).2.2.1 k hr
        · rw [(C82_mpl_scatter o).2.2.2 k (by rw [List.mem_cons, List.mem_cons]; tauto), h.others k (by simp [hm, hc])]
  · obtain ⟨g1, g2, g3, g4, g5, g6, g7, g8, g9⟩ := C82_mpl_surf o
    simp only [List.mem_cons, List.not_mem_nil, or_false, not_or] at hk
    by_cases hc : k = "color"
    · subst hc
      rw [g6, h.color, if_pos rfl]
    · rw [if_neg hc]
      by_cases hm : k = "cmap"
      · subst hm
        rw [g7, if_neg (by rw [h.color]; simp), h.others _ (by decide)]
      · by_cases hr : k ∈ "scale_factor" :: "scale_mode" :: "tube_radius" :: "tube_sides" :: mayaviOnly
        · exact g8 k hr
        · rw [g9 k]
          · rw [h.others k]
            simp only [mayaviOnly, List.mem_cons, List.not_mem_nil, or_false, not_or] at hr ⊢
            tauto
          · simp only [mayaviOnly, List.mem_cons, List.not_mem_nil, or_false, not_or] at hr ⊢
            tauto

/-- C82: not so the options of the user: the mode of a surface reaches `plot_surface`, the radius of tubes `scatter`, the size of
glyphs `plot`; matplotlib knows none of them -/
theorem C82_mpl_leak :
    (∀ kw o c v, kw "mode" = some v → SurfOpts c kw o → mplSurfOpts o "mode" = some v) ∧
    (∀ kw o c m v, kw "tube_radius" = some v → PointOpts c m kw o → mplScatter o "tube_radius" = some v) ∧
    (∀ kw o c m v, kw "scale_factor" = some v → WireOpts c m kw o → mplLineOpts o "scale_factor" = some v) := by
  refine ⟨fun kw o c v hv h => ?_, fun kw o c m v hv h => ?_, fun kw o c m v hv h => ?_⟩
  · rw [(C82_mpl_surf o).2.2.2.2.2.2.2.2 _ (by decide), h.others _ (by decide), hv]
  · rw [(C82_mpl_scatter o).2.2.2 _ (by decide), h.others _ (by decide), hv]
  · rw [(C82_mpl_line o).2.1 _ (by decide), h.others _ (by decide), hv]

/-! ## Examples -/

/-- mayavi is not installed, matplotlib is, and functions of backends raise nothing -/
def Ex.world : World ℚ := ⟨fun _ b => if b = .myv then .importErr else .ok, fun _ _ => none⟩

theorem Ex.world_quiet : Quiet Ex.world := fun _ _ => rfl

/-- an unknown name, then the default, then a second plotter -/
def Ex.story : List (Op ℚ) := [.use 0 "gnuplot", .attr 0, .new (some "null"), .use 0 "mayavi", .attr 1, .use 1 "mpl"]

example : (run Ex.world Ex.story start).cur 0 = some .mpl ∧ (run Ex.world Ex.story start).cur 1 = some .mpl ∧
    (run Ex.world Ex.story start).tries = [(.myv, .importErr), (.mpl, .ok), (.nul, .ok), (.myv, .importErr)] := by
  refine ⟨?_, ?_, ?_⟩ <;> decide +kernel

example : imports (run Ex.world Ex.story start).tries .mpl = 1 := by decide +kernel
example := C81_history Ex.world Ex.story
example := (C81_get_default Ex.world 0 (s := start) rfl).2.1 _ rfl
example := C81_keep Ex.world (i := 1) (b := .nul) [.use 0 "mpl", .attr 1, .attr 0]
  (s := run Ex.world [.new (some "none")] start) (by
    intro op hop
    simp only [List.mem_cons, List.not_mem_nil, or_false] at hop
    rintro ⟨name, h⟩
    rcases hop with rfl | rfl | rfl <;> cases h) (by decide +kernel) (by decide +kernel)

/-- a session with a backend -/
def Ex.sess : Sess ℚ := run Ex.world [.use 0 "matplotlib"] start

theorem Ex.sess_cur : Ex.sess.cur 0 = some .mpl := by decide +kernel

example (M : PlotMem ℚ) := C82_plot_surface Ex.world_quiet Ex.sess_cur (eps := Ex.env.eps) (by norm_num [Ex.env]) M Ex.S_valid
  (fun k => if k = "color" then some .none else none)
example (M : PlotMem ℚ) := C82_plot_volume Ex.world_quiet Ex.sess_cur (eps := Ex.env.eps) (by norm_num [Ex.env]) M Ex.Vol_valid
  Ex.Vol_sides (fun _ => none)

end Igakit
