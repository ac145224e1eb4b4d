import Verif.Proofs.PlotSession
import Verif.Spec.PlotSession

/-!
# Lemmas about the calls received by the backends
-/

set_option linter.unusedSectionVars false

namespace Igakit

namespace Session

open Spec

variable {K : Type}

/-! ## options -/

theorem default_self (o : Opts) (k : String) (v : Val) : (o.default k v) k = some ((o k).getD v) := by
  unfold Opts.default
  cases h : o k with
  | some w => simp [h]
  | none => simp [Opts.put]

theorem default_ne (o : Opts) {k k' : String} (h : k' ≠ k) (v : Val) : (o.default k v) k' = o k' := by
  unfold Opts.default
  cases o k with
  | some w => rfl
  | none => simp [Opts.put, Function.update_of_ne h]

theorem put_self (o : Opts) (k : String) (v : Val) : (o.put k v) k = some v := by simp [Opts.put]

theorem put_ne (o : Opts) {k k' : String} (h : k' ≠ k) (v : Val) : (o.put k v) k' = o k' := by
  simp [Opts.put, Function.update_of_ne h]

theorem del_self (o : Opts) (k : String) : (o.del k) k = none := by simp [Opts.del]

theorem del_ne (o : Opts) {k k' : String} (h : k' ≠ k) : (o.del k) k' = o k' := by
  simp [Opts.del, Function.update_of_ne h]

theorem modeOr_eq (m : String) (kw : Opts) : (kw "mode").getD (.str m) = modeOr m kw := by
  unfold modeOr
  cases kw "mode" <;> rfl

theorem colorOr_eq (c : Val) (kw : Opts) : some ((kw "color").getD c) = colorOr c kw := by
  unfold colorOr
  cases kw "color" <;> rfl

theorem pointOpts_none (m : String) (kw : Opts) : PointOpts none m kw (kw.default "mode" (.str m)) := by
  refine ⟨?_, ?_, ?_⟩
  · rw [default_self, modeOr_eq]
  · rw [default_ne _ (by decide)]
  · intro k hk
    rw [default_ne]
    rintro rfl
    exact hk (by simp)

theorem pointOpts_some (c : Val) (m : String) (kw : Opts) :
    PointOpts (some c) m kw ((kw.default "color" c).default "mode" (.str m)) := by
  refine ⟨?_, ?_, ?_⟩
  · rw [default_self, default_ne _ (by decide), modeOr_eq]
  · rw [default_ne _ (by decide), default_self]
    exact colorOr_eq c kw
  · intro k hk
    rw [default_ne, default_ne]
    · rintro rfl
      exact hk (by simp)
    · rintro rfl
      exact hk (by simp)

theorem yellow_color (kw : Opts) : yellow kw "color" = colorOrYellow kw := by
  unfold yellow colorOrYellow
  rcases h : kw "color" with _ | v
  · rw [Option.getD_none, if_pos (by decide), put_self]
  · rw [Option.getD_some]
    cases v with
    | none => rw [if_neg (by decide), del_self]
    | str t => rw [if_pos (by simp), put_self]
    | tup t => rw [if_pos (by simp), put_self]
    | obj t => rw [if_pos (by simp), put_self]

theorem yellow_ne (kw : Opts) {k : String} (hk : k ≠ "color") : yellow kw k = kw k := by
  unfold yellow
  split_ifs
  · rw [put_ne _ hk, del_ne _ hk]
  · rw [del_ne _ hk]

/-- the mode is checked -/
theorem wireMode_error {o : Opts} {m : String} (h : ¬ LineMode (modeOr m o)) : wireMode o m = .error .assertion := by
  unfold wireMode
  dsimp only
  rw [modeOr_eq]
  unfold LineMode at h
  simp only [pyAssert, if_neg h]
  rfl

theorem wireMode_ok {o : Opts} {m : String} (h : LineMode (modeOr m o)) : ∃ o', wireMode o m = .ok o' ∧
    WireOpts (o "color") (modeOr m o) o o' := by
  unfold wireMode
  dsimp only
  rw [modeOr_eq]
  have h' := h
  unfold LineMode at h
  simp only [pyAssert, if_pos h]
  generalize modeOr m o = w at h
  by_cases hl : w = .str "line"
  · subst hl
    refine ⟨_, rfl, ?_, ?_, ?_, ?_, ?_⟩
    · rw [put_ne _ (by decide), put_ne _ (by decide), del_self]
    · rw [put_ne _ (by decide), put_ne _ (by decide), del_ne _ (by decide)]
    · rw [put_ne _ (by decide), put_self, if_pos rfl]
    · rw [put_self, if_pos rfl]
    · intro k hk
      simp only [List.mem_cons, List.not_mem_nil, or_false, not_or] at hk
      rw [put_ne _ hk.2.2.2, put_ne _ hk.2.2.1, del_ne _ hk.1]
  · have ht : w = .str "tube" := h.resolve_left hl
    subst ht
    refine ⟨_, rfl, ?_, ?_, ?_, ?_, ?_⟩
    · rw [put_ne _ (by decide), del_self]
    · rw [put_ne _ (by decide), del_ne _ (by decide)]
    · rw [put_self, if_neg hl]
    · rw [put_ne _ (by decide), del_ne _ (by decide), if_neg hl]
    · intro k hk
      simp only [List.mem_cons, List.not_mem_nil, or_false, not_or] at hk
      rw [put_ne _ hk.2.2.1, del_ne _ hk.1]

theorem wireOpts_default (c : Val) {m : String} {kw : Opts} (h : LineMode (modeOr m kw)) :
    ∃ o', wireMode (kw.default "color" c) m = .ok o' ∧ WireOpts (colorOr c kw) (modeOr m kw) kw o' := by
  have hm : modeOr m (kw.default "color" c) = modeOr m kw := by
    unfold modeOr
    rw [default_ne _ (by decide)]
  obtain ⟨o', h1, h2⟩ := wireMode_ok (o := kw.default "color" c) (m := m) (by rw [hm]; exact h)
  refine ⟨o', h1, h2.mode, ?_, ?_, ?_, ?_⟩
  · rw [h2.color, default_self, colorOr_eq]
  · rw [h2.repr, hm]
  · rw [h2.tube, hm, default_ne _ (by decide)]
  · intro k hk
    rw [h2.others k hk, default_ne]
    rintro rfl
    exact hk (by simp)

theorem wireMode_default_error (c : Val) {m : String} {kw : Opts} (h : ¬ LineMode (modeOr m kw)) :
    wireMode (kw.default "color" c) m = .error .assertion := by
  refine wireMode_error ?_
  unfold modeOr at h ⊢
  rwa [default_ne _ (by decide)]

theorem wireOpts_yellow {m : String} {kw : Opts} (h : LineMode (modeOr m kw)) :
    ∃ o', wireMode (yellow kw) m = .ok o' ∧ WireOpts (colorOrYellow kw) (modeOr m kw) kw o' := by
  have hm : modeOr m (yellow kw) = modeOr m kw := by
    unfold modeOr
    rw [yellow_ne _ (by decide)]
  obtain ⟨o', h1, h2⟩ := wireMode_ok (o := yellow kw) (m := m) (by rw [hm]; exact h)
  refine ⟨o', h1, h2.mode, ?_, ?_, ?_, ?_⟩
  · rw [h2.color, yellow_color]
  · rw [h2.repr, hm]
  · rw [h2.tube, hm, yellow_ne _ (by decide)]
  · intro k hk
    rw [h2.others k hk, yellow_ne]
    rintro rfl
    exact hk (by simp)

theorem wireMode_yellow_error {m : String} {kw : Opts} (h : ¬ LineMode (modeOr m kw)) :
    wireMode (yellow kw) m = .error .assertion := by
  refine wireMode_error ?_
  unfold modeOr at h ⊢
  rwa [yellow_ne _ (by decide)]

theorem surfOpts_default (c : Val) (kw : Opts) :
    SurfOpts (colorOr c kw) kw ((kw.default "color" c).put "representation" (.str "surface")) := by
  refine ⟨?_, put_self _ _ _, ?_⟩
  · rw [put_ne _ (by decide), default_self, colorOr_eq]
  · intro k hk
    simp only [List.mem_cons, List.not_mem_nil, or_false, not_or] at hk
    rw [put_ne _ hk.2, default_ne _ hk.1]

theorem surfOpts_yellow (kw : Opts) :
    SurfOpts (colorOrYellow kw) kw ((yellow kw).put "representation" (.str "surface")) := by
  refine ⟨?_, put_self _ _ _, ?_⟩
  · rw [put_ne _ (by decide), yellow_color]
  · intro k hk
    simp only [List.mem_cons, List.not_mem_nil, or_false, not_or] at hk
    rw [put_ne _ hk.2, yellow_ne _ hk.1]

/-! ## calls -/

theorem saw_nil (s : Sess K) (i : ℕ) (b : Backend) : saw s i b [] = s := by
  cases s
  simp [saw]

theorem saw_append (s : Sess K) (i : ℕ) (b : Backend) (l l' : List (What K)) : saw (saw s i b l) i b l' = saw s i b (l ++ l') := by
  simp [saw, List.append_assoc]

theorem saw_cur (s : Sess K) (i : ℕ) (b : Backend) (l : List (What K)) : (saw s i b l).cur = s.cur := rfl

section

variable {W : World K} (hW : Quiet W) {i : ℕ} {b : Backend} {s : Sess K} (hs : s.cur i = some b)

include hW hs in
theorem invoke_quiet (dat : Data K) (o : Opts) (hq : ¬ (b = .mpl ∧ ∃ l v, dat = .quiver l v)) :
    invoke W i dat o s = (.ok b, saw s i b [.call dat o]) := by
  rcases invoke_cases W i dat o s s b (getBackend_set W i hs) with ⟨h, _⟩ | ⟨_, h⟩
  · exact absurd h hq
  · rw [h]
    unfold receive
    rw [hW]
    rfl

include hW hs in
theorem invoke_points (l : Xyz K) (o : Opts) : invoke W i (.points l) o s = (.ok b, saw s i b [.call (.points l) o]) :=
  invoke_quiet hW hs _ o (by rintro ⟨_, _, _, h⟩; cases h)

include hW hs in
theorem invoke_lines (l : List (Xyz K)) (o : Opts) : invoke W i (.lines l) o s = (.ok b, saw s i b [.call (.lines l) o]) :=
  invoke_quiet hW hs _ o (by rintro ⟨_, _, _, h⟩; cases h)

include hW hs in
theorem invoke_surfs (l : List (Xyz K)) (o : Opts) : invoke W i (.surfs l) o s = (.ok b, saw s i b [.call (.surfs l) o]) :=
  invoke_quiet hW hs _ o (by rintro ⟨_, _, _, h⟩; cases h)

theorem rescale_eq (s : Sess K) (i : ℕ) (b : Backend) {o kw : Opts} (den : ℕ) (h : o "scale_factor" = kw "scale_factor") :
    rescale i b o den s = (.ok (), saw s i b (shrink b kw den)) := by
  unfold rescale shrink
  rw [h]
  cases hf : kw "scale_factor" with
  | none => cases b <;> simp [saw]
  | some v => cases b <;> simp [saw]

/-- loops without effect on the session -/
theorem each_lift {α β : Type} {f : ℕ → α → SM K β} {g : ℕ → α → Res β} {s : Sess K} (h : ∀ k x, f k x s = SM.lift (g k x) s) :
    ∀ (l : List α) (k : ℕ), SM.each f k l s = SM.lift (forEach g k l) s
  | [], k => rfl
  | x :: l, k => by
    unfold SM.each forEach
    cases hg : g k x with
    | error e =>
      rw [SM.bind_error (e := .py e) (by rw [h, SM.lift_error hg])]
      rfl
    | ok y =>
      rw [SM.bind_ok (a := y) (by rw [h, SM.lift_ok hg])]
      cases hl : forEach g (k + 1) l with
      | error e =>
        rw [SM.bind_error (e := .py e) (by rw [each_lift h l (k + 1), SM.lift_error hl])]
        rfl
      | ok ys =>
        rw [SM.bind_ok (a := ys) (by rw [each_lift h l (k + 1), SM.lift_ok hl])]
        rfl

variable [Field K] [LinearOrder K] {d : ℕ}

theorem kwireAxis_error (M : PlotMem K) (r : ℕ) (N : Nrb K d) (uvw : Fin d → List K) (k : ℕ) {axis : ℤ} {e : Err}
    (h : normAxis d axis = .error e) : Plot.kwireAxis M r N uvw k axis = .error e := by
  unfold Plot.kwireAxis
  rw [h]
  rfl

include hs in
theorem kwire_loop (M : PlotMem K) (N : Nrb K d) (uvw : Fin d → List K) (l : List ℤ) :
    SM.each (fun k axis => do
      let _ ← SM.lift (normAxis d axis)
      let b ← getBackend W i
      SM.lift (Plot.kwireAxis M (res1 b) N uvw k axis)) 0 l s =
    SM.lift (forEach (Plot.kwireAxis M (res1 b) N uvw) 0 l) s := by
  refine each_lift ?_ l 0
  intro k axis
  cases h : normAxis d axis with
  | error e =>
    rw [SM.bind_error (e := .py e) (SM.lift_error rfl s), SM.lift_error (kwireAxis_error M _ N uvw k h)]
  | ok a =>
    rw [SM.bind_ok (SM.lift_ok rfl s), SM.bind_ok (getBackend_set W i hs)]

include hs in
theorem ksurf_loop (eps : K) (M : PlotMem K) (N : Nrb K (d + 1)) (l : List ℤ) :
    SM.each (fun k axis => do
      let us ← SM.lift (N.breaks axis)
      SM.each (fun j u => do
        let nrb ← SM.lift (N.extract eps (M.jr [k, j]) axis u)
        let b ← getBackend W i
        SM.lift (Plot.sampled M [k, j] (res2 b) nrb)) 0 us) 0 l s =
    SM.lift (forEach (Plot.ksurfAxis eps M (res2 b) N) 0 l) s := by
  refine each_lift ?_ l 0
  intro k axis
  unfold Plot.ksurfAxis
  cases h : N.breaks axis with
  | error e =>
    rw [SM.bind_error (e := .py e) (SM.lift_error rfl s)]
    rfl
  | ok us =>
    rw [SM.bind_ok (SM.lift_ok rfl s)]
    show _ = SM.lift (forEach _ 0 us) s
    refine each_lift ?_ us 0
    intro j u
    cases h : N.extract eps (M.jr [k, j]) axis u with
    | error e =>
      rw [SM.bind_error (e := .py e) (SM.lift_error rfl s)]
      rfl
    | ok nrb =>
      rw [SM.bind_ok (SM.lift_ok rfl s), SM.bind_ok (getBackend_set W i hs)]
      rfl

include hs in
theorem surf_loop (M : PlotMem K) (l : List (Nrb K d)) :
    SM.each (fun k nrb => do
      let b ← getBackend W i
      SM.lift (Plot.sampled M [k] (res2 b) nrb)) 0 l s =
    SM.lift (forEach (fun k nrb => Plot.sampled M [k] (res2 b) nrb) 0 l) s := by
  refine each_lift ?_ l 0
  intro k nrb
  rw [SM.bind_ok (getBackend_set W i hs)]

/-! ## the methods -/

include hW hs in
theorem cpoint_calls {N : Nrb K d} {l : Xyz K} (hl : Plot.cpoint N = .ok l) (kw : Opts) :
    ∃ o, PointOpts (some (.tup [1, 0, 0])) "sphere" kw o ∧
      cpoint W i N kw s = (.ok (), saw s i b (.call (.points l) o :: shrink b kw 8)) := by
  refine ⟨_, pointOpts_some _ _ kw, ?_⟩
  unfold cpoint
  rw [SM.bind_ok (SM.lift_ok hl s), SM.bind_ok (invoke_points hW hs l _),
    rescale_eq (kw := kw) _ i b 8 (by rw [default_ne _ (by decide), default_ne _ (by decide)]), saw_append]
  rfl

include hW hs in
theorem kpoint_calls {M : PlotMem K} {N : Nrb K d} {l : Xyz K} (hl : Plot.kpoint M N = .ok l) (kw : Opts) :
    ∃ o, PointOpts (some (.tup [0, 1, 0])) "cube" kw o ∧
      kpoint W i M N kw s = (.ok (), saw s i b (.call (.points l) o :: shrink b kw 10)) := by
  refine ⟨_, pointOpts_some _ _ kw, ?_⟩
  unfold kpoint
  rw [SM.bind_ok (SM.lift_ok hl s), SM.bind_ok (invoke_points hW hs l _),
    rescale_eq (kw := kw) _ i b 10 (by rw [default_ne _ (by decide), default_ne _ (by decide)]), saw_append]
  rfl

include hW hs in
theorem cwire_calls {N : Nrb K d} {ls : List (Xyz K)} (hl : Plot.cwire N = .ok ls) {kw : Opts} (hm : LineMode (modeOr "line" kw)) :
    ∃ o, WireOpts (colorOr (.tup [0, 0, 1]) kw) (modeOr "line" kw) kw o ∧
      cwire W i N kw s = (.ok (), saw s i b [.call (.lines ls) o]) := by
  obtain ⟨o, h1, h2⟩ := wireOpts_default (.tup [0, 0, 1]) hm
  refine ⟨o, h2, ?_⟩
  unfold cwire
  rw [SM.bind_ok (SM.lift_ok hl s), SM.bind_ok (SM.lift_ok h1 s), SM.bind_ok (invoke_lines hW hs ls _)]
  rfl

theorem cwire_mode {N : Nrb K d} {ls : List (Xyz K)} (hl : Plot.cwire N = .ok ls) {kw : Opts}
    (hm : ¬ LineMode (modeOr "line" kw)) (s : Sess K) : cwire W i N kw s = (.error (.py .assertion), s) := by
  unfold cwire
  rw [SM.bind_ok (SM.lift_ok hl s), SM.bind_error (SM.lift_error (wireMode_default_error _ hm) s)]

theorem kwire_split {M : PlotMem K} {r : ℕ} {N : Nrb K d} {axes : Plot.AxesArg} {ls : List (Xyz K)}
    (hl : Plot.kwire M r N axes = .ok ls) : ∃ uvw blocks, Plot.allBreaks N = .ok uvw ∧
      forEach (Plot.kwireAxis M r N uvw) 0 (axes.list d) = .ok blocks ∧
      forEach (fun _ C => Plot.unpack3 C) 0 blocks.flatten = .ok ls := by
  unfold Plot.kwire at hl
  cases h1 : Plot.allBreaks N with
  | error e => rw [h1] at hl; simp [Bind.bind, Except.bind] at hl
  | ok uvw =>
    rw [h1] at hl
    dsimp only [Bind.bind, Except.bind] at hl
    cases h2 : forEach (Plot.kwireAxis M r N uvw) 0 (axes.list d) with
    | error e => rw [h2] at hl; simp at hl
    | ok blocks =>
      rw [h2] at hl
      exact ⟨uvw, blocks, rfl, h2, hl⟩

include hW hs in
theorem kwire_calls {M : PlotMem K} {N : Nrb K d} {axes : Plot.AxesArg} {ls : List (Xyz K)}
    (hl : Plot.kwire M (res1 b) N axes = .ok ls) {kw : Opts} (hm : LineMode (modeOr "line" kw)) :
    ∃ o, WireOpts (colorOr (.tup [0, 1, 0]) kw) (modeOr "line" kw) kw o ∧
      kwire W i M N axes kw s = (.ok (), saw s i b [.call (.lines ls) o]) := by
  obtain ⟨o, h1, h2⟩ := wireOpts_default (.tup [0, 1, 0]) hm
  refine ⟨o, h2, ?_⟩
  obtain ⟨uvw, blocks, ha, hb, hc⟩ := kwire_split hl
  unfold kwire
  rw [SM.bind_ok (SM.lift_ok ha s), SM.bind_ok (by rw [kwire_loop hs]; exact SM.lift_ok hb s), SM.bind_ok (SM.lift_ok h1 s),
    SM.bind_ok (SM.lift_ok hc s), SM.bind_ok (invoke_lines hW hs ls _)]
  rfl

include hs in
theorem kwire_mode {M : PlotMem K} {N : Nrb K d} {axes : Plot.AxesArg} {ls : List (Xyz K)}
    (hl : Plot.kwire M (res1 b) N axes = .ok ls) {kw : Opts} (hm : ¬ LineMode (modeOr "line" kw)) :
    kwire W i M N axes kw s = (.error (.py .assertion), s) := by
  obtain ⟨uvw, blocks, ha, hb, hc⟩ := kwire_split hl
  unfold kwire
  rw [SM.bind_ok (SM.lift_ok ha s), SM.bind_ok (by rw [kwire_loop hs]; exact SM.lift_ok hb s),
    SM.bind_error (SM.lift_error (wireMode_default_error _ hm) s)]

include hW hs in
theorem ksurf_calls {eps : K} {M : PlotMem K} {N : Nrb K (d + 1)} {axes : Plot.AxesArg} {ls : List (Xyz K)}
    (hl : Plot.ksurf eps M (res2 b) N axes = .ok ls) (kw : Opts) :
    ∃ o, SurfOpts (colorOr (.tup [0, 1, 0]) kw) kw o ∧ ksurf W i eps M N axes kw s = (.ok (), saw s i b [.call (.surfs ls) o]) := by
  refine ⟨_, surfOpts_default _ kw, ?_⟩
  unfold Plot.ksurf at hl
  unfold ksurf
  cases h2 : forEach (Plot.ksurfAxis eps M (res2 b) N) 0 (axes.list (d + 1)) with
  | error e => rw [h2] at hl; simp [Bind.bind, Except.bind] at hl
  | ok blocks =>
    rw [h2] at hl
    replace hl : forEach (fun _ C => Plot.unpack3 C) 0 blocks.flatten = .ok ls := hl
    rw [SM.bind_ok (by rw [ksurf_loop hs]; exact SM.lift_ok h2 s)]
    rw [SM.bind_ok (SM.lift_ok hl s), SM.bind_ok (invoke_surfs hW hs ls _)]
    rfl

include hW hs in
theorem surfLoop_calls {M : PlotMem K} {l : List (Nrb K d)} {ls : List (Xyz K)} (hl : Plot.surfLoop M (res2 b) l = .ok ls)
    (kw : Opts) :
    surfLoop W i M kw l s =
      (.ok (), saw s i b [.call (.surfs ls) ((yellow kw).put "representation" (.str "surface"))]) := by
  unfold Plot.surfLoop at hl
  unfold surfLoop
  cases h2 : forEach (fun k nrb => Plot.sampled M [k] (res2 b) nrb) 0 l with
  | error e => rw [h2] at hl; simp [Bind.bind, Except.bind] at hl
  | ok blocks =>
    rw [h2] at hl
    replace hl : forEach (fun _ C => Plot.unpack3 C) 0 blocks = .ok ls := hl
    rw [SM.bind_ok (by rw [surf_loop hs]; exact SM.lift_ok h2 s)]
    rw [SM.bind_ok (SM.lift_ok hl s), SM.bind_ok (invoke_surfs hW hs ls _)]
    rfl

include hW hs in
theorem surface_calls {eps : K} {M : PlotMem K} : ∀ {d : ℕ} {N : Nrb K d} {ls : List (Xyz K)}, 2 ≤ d →
    Plot.surface eps M (res2 b) N = .ok ls → ∀ (kw : Opts),
    ∃ o, SurfOpts (colorOrYellow kw) kw o ∧ surface W i eps M kw N s = (.ok (), saw s i b [.call (.surfs ls) o])
  | 0, _, _, h, _, _ => absurd h (by decide)
  | 1, _, _, h, _, _ => absurd h (by decide)
  | 2, N, ls, _, hl, kw => ⟨_, surfOpts_yellow kw, surfLoop_calls hW hs (l := [N]) hl kw⟩
  | d + 3, N, ls, _, hl, kw => by
    refine ⟨_, surfOpts_yellow kw, ?_⟩
    simp only [Plot.surface] at hl
    simp only [surface]
    cases h : Plot.boundaries eps M [] N with
    | error e => rw [h] at hl; simp [Bind.bind, Except.bind] at hl
    | ok bs =>
      rw [h] at hl
      rw [SM.bind_ok (SM.lift_ok rfl s), surfLoop_calls hW hs hl kw]

/-- loops whose rounds are calls -/
theorem each_calls {α γ : Type} {f : ℕ → α → SM K Unit} {g : ℕ → α → Res (List γ)} {i : ℕ} {b : Backend} {w : γ → What K}
    (h : ∀ k x ys s, s.cur i = some b → g k x = .ok ys → f k x s = (.ok (), saw s i b (ys.map w))) :
    ∀ (l : List α) (k : ℕ) (yss : List (List γ)) (s : Sess K), s.cur i = some b → forEach g k l = .ok yss →
      ∃ us, SM.each f k l s = (.ok us, saw s i b (yss.flatten.map w))
  | [], k, yss, s, hs, hg => by
    unfold forEach at hg
    injection hg with hg
    subst hg
    refine ⟨[], ?_⟩
    simp only [List.flatten_nil, List.map_nil, saw_nil]
    rfl
  | x :: l, k, yss, s, hs, hg => by
    unfold forEach at hg
    cases h1 : g k x with
    | error e => rw [h1] at hg; simp [Bind.bind, Except.bind] at hg
    | ok ys =>
      rw [h1] at hg
      cases h2 : forEach g (k + 1) l with
      | error e => rw [h2] at hg; simp [Bind.bind, Except.bind] at hg
      | ok zss =>
        rw [h2] at hg
        have hg : (ys :: zss) = yss := by
          have : (Except.ok (ys :: zss) : Res _) = .ok yss := hg
          injection this
        subst hg
        have hf := h k x ys s hs h1
        obtain ⟨us, hu⟩ := each_calls h l (k + 1) zss (saw s i b (ys.map w)) hs h2
        refine ⟨() :: us, ?_⟩
        unfold SM.each
        rw [SM.bind_ok hf, SM.bind_ok hu, saw_append]
        simp only [List.flatten_cons, List.map_append]
        rfl

include hW in
theorem curve_calls {eps : K} {M : PlotMem K} {kw o : Opts} (ho : wireMode (yellow kw) "tube" = .ok o) :
    ∀ {d : ℕ} {N : Nrb K d} {key : List ℕ} {ls : List (Xyz K)} {s : Sess K}, s.cur i = some b →
    Plot.curve eps M (res1 b) key N = .ok ls →
    curve W i eps M kw key N s = (.ok (), saw s i b (ls.map (fun l => .call (.lines [l]) o)))
  | 0, N, key, ls, s, hs, hl => by
    unfold Plot.curve at hl
    injection hl with hl
    subst hl
    simp only [List.map_nil, saw_nil]
    rfl
  | 1, N, key, ls, s, hs, hl => by
    unfold Plot.curve at hl
    unfold curve
    cases h1 : Plot.sampled M key (res1 b) N with
    | error e => rw [h1] at hl; simp [Bind.bind, Except.bind] at hl
    | ok C =>
      rw [h1] at hl
      dsimp only [Bind.bind, Except.bind] at hl
      cases h2 : Plot.unpack3 C with
      | error e => rw [h2] at hl; simp at hl
      | ok l =>
        rw [h2] at hl
        have hl : [l] = ls := by
          have : (Except.ok [l] : Res _) = .ok ls := hl
          injection this
        subst hl
        rw [SM.bind_ok (getBackend_set W i hs), SM.bind_ok (SM.lift_ok h1 s), SM.bind_ok (SM.lift_ok h2 s),
          SM.bind_ok (SM.lift_ok ho s), SM.bind_ok (invoke_lines hW hs [l] o)]
        rfl
  | d + 2, N, key, ls, s, hs, hl => by
    unfold Plot.curve at hl
    unfold curve
    cases h1 : Plot.boundaries eps M key N with
    | error e => rw [h1] at hl; simp [Bind.bind, Except.bind] at hl
    | ok bs =>
      rw [h1] at hl
      dsimp only [Bind.bind, Except.bind] at hl
      cases h2 : forEach (fun k nrb => Plot.curve eps M (res1 b) (k :: key) nrb) 0 bs with
      | error e => rw [h2] at hl; simp at hl
      | ok yss =>
        rw [h2] at hl
        have hl : yss.flatten = ls := by
          have : (Except.ok yss.flatten : Res _) = .ok ls := hl
          injection this
        subst hl
        obtain ⟨us, hu⟩ := each_calls (i := i) (b := b) (w := fun l => What.call (.lines [l]) o)
          (f := fun k nrb => curve W i eps M kw (k :: key) nrb)
          (fun k x ys s hs hg => curve_calls ho hs hg) bs 0 yss s hs h2
        rw [SM.bind_ok (SM.lift_ok rfl s), SM.bind_ok hu]
        rfl

end

end Session

end Igakit
