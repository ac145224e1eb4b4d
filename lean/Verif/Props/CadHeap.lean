import Verif.Proofs.CadFresh
import Verif.Spec.CadHeap
import Verif.Props.HeapEx
import Verif.Props.CadRefine

/-!
# C70: the functions of cad.py do not change their arguments

A call of `extrude`, `revolve`, `ruled`, `sweep`, `coons`, `join`, `refine`, `compat` in any state of the program gives a new
object whose numbers depend on the numbers of the arguments only, or raises the exception that these numbers give; no object
and no array that existed before the call changes, whatever arrays the arguments share with each other or with other objects.
-/

set_option linter.unusedSectionVars false

namespace Igakit

variable {K : Type} [Field K] [LinearOrder K]

namespace Heap

theorem Kept.untouched {H H' : Heap K} (h : Kept (fun _ => False) H H') : Untouched H H' :=
  ⟨fun o ho => h.obj o ho id, h.arr⟩

theorem Sim.makes {d : ℕ} {H : Heap K} {m : HM K ℕ} {r : Res (Nrb K d)}
    (h : Sim (fun _ => False) H m r (fun R n H' => H.no ≤ n ∧ Is H' n R)) : Makes H (m H) r := by
  cases r with
  | error e => obtain ⟨H', h1, h2⟩ := h; rw [h1]; exact ⟨h2.untouched, rfl⟩
  | ok R =>
    obtain ⟨n, H', h1, h2, h3, h4⟩ := h
    rw [h1]
    exact ⟨h2.untouched, n, rfl, h3, h4.lt, h4.view⟩

theorem Sim.sound {α β : Type} {b : ℕ → Prop} {H : Heap K} {m : HM K α} {r : Res β} {Q : β → α → Heap K → Prop}
    (h : Sim b H m r Q) : (m H).2.Sound := by
  cases r with
  | error e => obtain ⟨H', h1, h2⟩ := h; rw [h1]; exact h2.sound
  | ok R => obtain ⟨n, H', h1, h2, -⟩ := h; rw [h1]; exact h2.sound

end Heap

open Heap

/-! ## results and exceptions -/

/-- C70, `extrude` -/
theorem C70_extrude {H : Heap K} (hs : H.Sound) {d o : ℕ} (ho : o < H.no) {N : Nrb K d} (hv : H.view o = ⟨d, N⟩)
    (displ : ArrArg K) (axis : Option ℤ) : Makes H (Heap.Cad.extrude o displ axis H) (Cad.extrude N displ axis) :=
  ((Heap.Cad.extrude_sim hs ⟨ho, hv⟩ displ axis).mono (fun _ _ h => h) fun _ _ _ _ h => ⟨h.1.ge, h.2.1⟩).makes

/-- C70, `sweep` -/
theorem C70_sweep {H : Heap K} (hs : H.Sound) {d o1 o2 : ℕ} (h1 : o1 < H.no) (h2 : o2 < H.no) {S : Nrb K d} {T : Nrb K 1}
    (hv1 : H.view o1 = ⟨d, S⟩) (hv2 : H.view o2 = ⟨1, T⟩) : Makes H (Heap.Cad.sweep o1 o2 H) (Cad.sweep S T) :=
  ((Heap.Cad.sweep_sim hs ⟨h1, hv1⟩ ⟨h2, hv2⟩).mono (fun _ _ h => h) fun _ _ _ _ h => ⟨h.1.ge, h.2.1⟩).makes

/-- C70, `ruled` -/
theorem C70_ruled {H : Heap K} (hs : H.Sound) {d o1 o2 : ℕ} (h1 : o1 < H.no) (h2 : o2 < H.no) {N1 N2 : Nrb K (d + 1)}
    (hv1 : H.view o1 = ⟨d + 1, N1⟩) (hv2 : H.view o2 = ⟨d + 1, N2⟩) (env : Env K) (S1 S2 : Fin 2 → ℕ → Scratch K) :
    Makes H (Heap.Cad.ruled env S1 S2 d o1 o2 H)
      (Cad.ruled env.eps (fun i a => (S1 i a).mem) (fun i a => (S2 i a).mem) N1 N2) :=
  (Heap.Cad.ruled_sim hs ⟨h1, hv1⟩ ⟨h2, hv2⟩ env S1 S2).makes

/-- C70, `revolve` -/
theorem C70_revolve {H : Heap ℝ} (hs : H.Sound) {d o : ℕ} (ho : o < H.no) {N : Nrb ℝ d} (hv : H.view o = ⟨d, N⟩)
    (junk : ℤ → Fin 4 → ℝ) (point : ArrArg ℝ) (axis : Transform.AxisArg) (angle : AngleArg) :
    Makes H (Heap.Cad.revolve junk o point axis angle H) (Cad.revolve junk N point axis angle) :=
  (Heap.Cad.revolve_sim hs ⟨ho, hv⟩ junk point axis angle).makes

/-- C70, `coons` -/
theorem C70_coons {H : Heap K} (hs : H.Sound) {o00 o01 o10 o11 : ℕ} (h00 : o00 < H.no) (h01 : o01 < H.no) (h10 : o10 < H.no)
    (h11 : o11 < H.no) {C00 C01 C10 C11 : Nrb K 1} (v00 : H.view o00 = ⟨1, C00⟩) (v01 : H.view o01 = ⟨1, C01⟩)
    (v10 : H.view o10 = ⟨1, C10⟩) (v11 : H.view o11 = ⟨1, C11⟩) (env : Env K) (S : Heap.Cad.CoonsScratch K) :
    Makes H (Heap.Cad.coons env S o00 o01 o10 o11 H) (Cad.coons env.eps S.mem C00 C01 C10 C11) :=
  (Heap.Cad.coons_sim hs ⟨h00, v00⟩ ⟨h01, v01⟩ ⟨h10, v10⟩ ⟨h11, v11⟩ env S).makes

/-- C70, `join` -/
theorem C70_join {H : Heap ℝ} (hs : H.Sound) {d o1 o2 : ℕ} (h1 : o1 < H.no) (h2 : o2 < H.no) {N1 N2 : Nrb ℝ (d + 1)}
    (hv1 : H.view o1 = ⟨d + 1, N1⟩) (hv2 : H.view o2 = ⟨d + 1, N2⟩) (eps : ℝ) (S : Heap.Cad.JoinScratch ℝ) (axis : ℤ) :
    Makes H (Heap.Cad.join (Env.real eps) S d o1 o2 axis H) (Cad.join eps S.mem N1 N2 axis) :=
  (Heap.Cad.join_sim hs ⟨h1, hv1⟩ ⟨h2, hv2⟩ eps S axis).makes

/-- C70, `refine` -/
theorem C70_refine {H : Heap K} (hs : H.Sound) {d o : ℕ} (ho : o < H.no) {N : Nrb K (d + 1)} (hv : H.view o = ⟨d + 1, N⟩)
    (env : Env K) (S : Heap.Cad.RefScratch K) (factor : PyArg Factor) (degree continuity : PyArg ℤ) :
    Makes H (Heap.Cad.refine env S d o factor degree continuity H)
      (Cad.refine env.eps S.mem N factor degree continuity) :=
  (Heap.Cad.refine_cad_sim hs ⟨ho, hv⟩ env S factor degree continuity).makes

/-- C70, `compat`: as many different new objects as there are arguments -/
theorem C70_compat {H : Heap K} (hs : H.Sound) {m d : ℕ} {os : Fin m → ℕ} (ho : ∀ i, os i < H.no) {N : Fin m → Nrb K (d + 1)}
    (hv : ∀ i, H.view (os i) = ⟨d + 1, N i⟩) (env : Env K) (S1 S2 : Fin m → ℕ → Scratch K) (axes : Option (List ℤ)) :
    Untouched H (Heap.Cad.compat env S1 S2 (d + 1) os axes H).2 ∧
    match Cad.compat env.eps (fun i a => (S1 i a).mem) (fun i a => (S2 i a).mem) N axes with
    | .ok R => ∃ cs, (Heap.Cad.compat env S1 S2 (d + 1) os axes H).1 = .ok cs ∧ Function.Injective cs ∧
        ∀ i, H.no ≤ cs i ∧ cs i < (Heap.Cad.compat env S1 S2 (d + 1) os axes H).2.no ∧
          (Heap.Cad.compat env S1 S2 (d + 1) os axes H).2.view (cs i) = ⟨d + 1, R i⟩
    | .error e => (Heap.Cad.compat env S1 S2 (d + 1) os axes H).1 = .error e := by
  have h := Heap.Cad.compat_sim hs (fun i => ⟨ho i, hv i⟩) env S1 S2 axes
  revert h
  generalize Cad.compat env.eps (fun i a => (S1 i a).mem) (fun i a => (S2 i a).mem) N axes = r
  intro h
  cases r with
  | error e => obtain ⟨H', h1, h2⟩ := h; rw [h1]; exact ⟨h2.untouched, rfl⟩
  | ok R =>
    obtain ⟨cs, H', h1, h2, h3, h4⟩ := h
    rw [h1]
    exact ⟨h2.untouched, cs, rfl, h4, fun i => ⟨(h3 i).1, (h3 i).2.lt, (h3 i).2.view⟩⟩

/-! ## what the results share with the arguments -/

/-- C70: the knot vectors of an extruded object on the old axes are those of the argument, not copies: whatever the program
does later (assignments to entries of arrays among it), both objects read the same knots, until a method changes one of
them -/
theorem C70_extrude_shares (env : Env K) {H : Heap K} (hs : H.Sound) {d o : ℕ} (ho : o < H.no) {N : Nrb K d}
    (hv : H.view o = ⟨d, N⟩) {displ : ArrArg K} {axis : Option ℤ} {n : ℕ} {H' : Heap K}
    (h : Heap.Cad.extrude o displ axis H = (.ok n, H')) (p : List (Scratch K × Cmd K))
    (hp : ∀ c ∈ p, ¬ c.2.Changes o ∧ ¬ c.2.Changes n) :
    ∃ (No : Nrb K d) (Nn : Nrb K (d + 1)), (execAll env H' p).view o = ⟨_, No⟩ ∧ (execAll env H' p).view n = ⟨_, Nn⟩ ∧
      ∀ a : Fin d, Nn.U a.castSucc = No.U a ∧ Nn.len a.castSucc = No.len a := by
  have hS := Heap.Cad.extrude_sim hs ⟨ho, hv⟩ displ axis
  obtain ⟨A0, k, hx, -⟩ := Is.obj (N := N) ⟨ho, hv⟩
  revert hS
  generalize Cad.extrude N displ axis = r
  intro hS
  cases r with
  | error e => obtain ⟨H2, h1, -⟩ := hS; rw [h] at h1; cases h1
  | ok R =>
    obtain ⟨n', H2, h1, k2, rfl, h4, A, -, h5⟩ := hS
    rw [h] at h1
    cases h1
    have e1 := (obj_keep env p k2.sound (lt_of_lt_of_le ho k2.no) fun c hc => (hp c hc).1).1
    have e2 := (obj_keep env p k2.sound h4.lt fun c hc => (hp c hc).2).1
    rw [k2.obj o ho id, hx] at e1
    rw [h5, hx] at e2
    refine ⟨_, _, by unfold view; rw [e1], by unfold view; rw [e2], fun a => ?_⟩
    unfold nrb
    dsimp only
    rw [Fin.snoc_castSucc]
    exact ⟨rfl, rfl⟩

/-- C70: a swept object shares the knot vectors of both arguments in the same sense -/
theorem C70_sweep_shares (env : Env K) {H : Heap K} (hs : H.Sound) {d o1 o2 : ℕ} (h1 : o1 < H.no) (h2 : o2 < H.no)
    {S : Nrb K d} {T : Nrb K 1} (hv1 : H.view o1 = ⟨d, S⟩) (hv2 : H.view o2 = ⟨1, T⟩) {n : ℕ} {H' : Heap K}
    (h : Heap.Cad.sweep o1 o2 H = (.ok n, H')) (p : List (Scratch K × Cmd K))
    (hp : ∀ c ∈ p, ¬ c.2.Changes o1 ∧ ¬ c.2.Changes o2 ∧ ¬ c.2.Changes n) :
    ∃ (N1 : Nrb K d) (N2 : Nrb K 1) (Nn : Nrb K (d + 1)), (execAll env H' p).view o1 = ⟨_, N1⟩ ∧
      (execAll env H' p).view o2 = ⟨_, N2⟩ ∧ (execAll env H' p).view n = ⟨_, Nn⟩ ∧
      (∀ a : Fin d, Nn.U a.castSucc = N1.U a ∧ Nn.len a.castSucc = N1.len a) ∧
      Nn.U (Fin.last d) = N2.U 0 ∧ Nn.len (Fin.last d) = N2.len 0 := by
  have hS := Heap.Cad.sweep_sim hs ⟨h1, hv1⟩ ⟨h2, hv2⟩
  obtain ⟨A1, k1, hx1, -⟩ := Is.obj (N := S) ⟨h1, hv1⟩
  obtain ⟨A2, k2, hx2, -⟩ := Is.obj (N := T) ⟨h2, hv2⟩
  revert hS
  generalize Cad.sweep S T = r
  intro hS
  cases r with
  | error e => obtain ⟨H2, h1, -⟩ := hS; rw [h] at h1; cases h1
  | ok R =>
    obtain ⟨n', H2, g1, kk, rfl, h4, A, -, c, hc, h5⟩ := hS
    rw [h] at g1
    cases g1
    have e1 := (obj_keep env p kk.sound (lt_of_lt_of_le h1 kk.no) fun c hc => (hp c hc).1).1
    have e2 := (obj_keep env p kk.sound (lt_of_lt_of_le h2 kk.no) fun c hc => (hp c hc).2.1).1
    have e3 := (obj_keep env p kk.sound h4.lt fun c hc => (hp c hc).2.2).1
    rw [kk.obj o1 h1 id, hx1] at e1
    rw [kk.obj o2 h2 id, hx2] at e2
    have hck : (H.obj o2).knots c = k2 0 := by
      revert c
      rw [hx2]
      intro c hc _
      rw [show c = 0 from Subsingleton.elim _ _]
    rw [h5, hx1, hck] at e3
    refine ⟨_, _, _, by unfold view; rw [e1], by unfold view; rw [e2], by unfold view; rw [e3], fun a => ?_, ?_⟩
    · unfold nrb
      dsimp only
      rw [Fin.snoc_castSucc]
      exact ⟨rfl, rfl⟩
    · unfold nrb
      dsimp only
      rw [Fin.snoc_last]
      exact ⟨rfl, rfl⟩

/-- C70: the result of `refine` shares no array with anything: whatever is done to it later, by methods or by assignments to
entries of its arrays, and with objects made from it, what existed before the call stays as it was -/
theorem C70_refine_isolated (env : Env K) {H : Heap K} (hs : H.Sound) {d o : ℕ} (ho : o < H.no) {N : Nrb K (d + 1)}
    (hv : H.view o = ⟨d + 1, N⟩) {S : Heap.Cad.RefScratch K} {factor : PyArg Factor} {degree continuity : PyArg ℤ} {n : ℕ}
    {H' : Heap K} (h : Heap.Cad.refine env S d o factor degree continuity H = (.ok n, H')) :
    (∀ i, (H'.obj n).Uses i → H.na ≤ i) ∧
    ∀ p : List (Scratch K × Cmd K), (∀ c ∈ p, c.2.Within (fun o' => o' = n) (fun i => H.na ≤ i) H'.no H'.na) →
      ∀ o' < H.no, (execAll env H' p).view o' = H.view o' := by
  have hu := Heap.Cad.refine_new hs ⟨ho, hv⟩ env S factor degree continuity h
  refine ⟨hu, fun p hp o' ho' => ?_⟩
  have hS := Heap.Cad.refine_cad_sim hs ⟨ho, hv⟩ env S factor degree continuity
  revert hS
  generalize Cad.refine env.eps S.mem N factor degree continuity = r
  intro hS
  cases r with
  | error e => obtain ⟨H2, h1, -⟩ := hS; rw [h] at h1; cases h1
  | ok R =>
    obtain ⟨n', H2, h1, kk, h3, h4⟩ := hS
    rw [h] at h1
    cases h1
    obtain ⟨-, -, f3, f4⟩ := frame env (H0 := H') (S := fun o' => o' = n) (T := fun i => H.na ≤ i) p kk.sound le_rfl le_rfl
      (fun o1 ho1 hS i hi => by
        rcases hS with rfl | hS
        · exact Or.inl (hu i hi)
        · omega) hp
    have hne : o' ≠ n := by omega
    refine view_congr ((f3 o' (lt_of_lt_of_le ho' kk.no) hne).trans (kk.obj o' ho' id)) fun i hi => ?_
    have hi' := hs o' ho' i hi
    exact (f4 i (lt_of_lt_of_le hi' kk.na) (by omega)).trans (kk.arr i hi')

/-! ## examples -/

/-- C70, hypotheses: the segment of `Ex.heap` is extruded; then a knot of the surface is assigned, and the segment reads it -/
example : ∃ n H', Heap.Cad.extrude 0 (.vec [0, 0, 1]) none Ex.heap = (.ok n, H') ∧ n = 1 ∧
    H'.obj 0 = ⟨1, 0, fun _ => 1⟩ ∧ (H'.nrb ⟨1, 0, fun _ => 1⟩).U 0 2 = 1 ∧
    ∃ H2, H2 = execAll Ex.env H' [(Ex.junk, .writeKnot 1 0 2 (1 / 2))] ∧ H2.obj 0 = ⟨1, 0, fun _ => 1⟩ ∧
      (H2.nrb ⟨1, 0, fun _ => 1⟩).U 0 2 = 1 / 2 :=
  ⟨_, _, rfl, rfl, rfl, rfl, _, rfl, rfl, rfl⟩

/-- C70, hypotheses: the segment swept along itself -/
example : ∃ n H', Heap.Cad.sweep 0 0 Ex.heap = (.ok n, H') ∧ n = 1 ∧ H'.obj 1 = ⟨2, 3, fun _ => 1⟩ := by
  refine ⟨_, _, rfl, rfl, ?_⟩
  have : (Fin.snoc (α := fun _ => ℕ) (fun _ : Fin 1 => 1) 1 : Fin 2 → ℕ) = fun _ => 1 := by
    funext a
    fin_cases a <;> rfl
  rw [← this]
  rfl

/-- every object of the value model is the content of an object in some state -/
theorem stored {d : ℕ} (N : Nrb K d) : ∃ (H : Heap K) (o : ℕ), H.Sound ∧ o < H.no ∧ H.view o = ⟨d, N⟩ := by
  have hs : (⟨fun _ => ⟨[], fun _ => 0⟩, 0, fun _ => ⟨0, 0, Fin.elim0⟩, 0⟩ : Heap K).Sound := fun o ho => absurd ho (Nat.not_lt_zero o)
  obtain ⟨n, H', -, k, -, h⟩ := Heap.Cad.make_sim hs (.ok N)
  exact ⟨H', n, k.sound, h.lt, h.view⟩

/-- C70, hypotheses: a surface is refined -/
example (S : Heap.Cad.RefScratch ℚ) : ∃ (H : Heap ℚ) (o n : ℕ) (H' : Heap ℚ), H.Sound ∧ o < H.no ∧ H.view o = ⟨2, Ex.S⟩ ∧
    Heap.Cad.refine Ex.env S 1 o .missing .missing .missing H = (.ok n, H') := by
  obtain ⟨H, o, hs, ho, hv⟩ := stored Ex.S
  obtain ⟨R, hR, -⟩ := C40_refine_default (eps := Ex.env.eps) (by norm_num [Ex.env]) S.mem Ex.S_valid Ex.S_breaks
    (fun a => Ex.S_parts (f := fun _ _ => 1) (by decide +kernel) (by decide +kernel) a 0)
  obtain ⟨-, h⟩ := C70_refine hs ho hv Ex.env S .missing .missing .missing
  rw [hR] at h
  obtain ⟨n, h1, -⟩ := h
  exact ⟨H, o, n, _, hs, ho, hv, Prod.ext h1 rfl⟩

/-- C70, hypotheses: join of the segment with itself, and a surface between the segment and itself -/
example (S1 S2 : Fin 2 → ℕ → Scratch ℚ) := C70_ruled Ex.heap_sound (o1 := 0) (o2 := 0) (d := 0) (by decide) (by decide) rfl rfl
  Ex.env S1 S2

end Igakit
