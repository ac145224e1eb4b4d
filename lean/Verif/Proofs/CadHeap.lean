import Verif.Proofs.HeapFrame
import Verif.Props.Heap
import Verif.Model.CadHeap

/-! # The functions of cad.py on the heap do what they do to numbers -/

set_option linter.unusedSectionVars false

namespace Igakit

variable {K : Type} [Field K] [LinearOrder K]

namespace Heap

/-- no array and no object except those in `b` has changed -/
structure Kept (b : ℕ → Prop) (H H' : Heap K) : Prop where
  no : H.no ≤ H'.no
  na : H.na ≤ H'.na
  arr : ∀ i < H.na, H'.arr i = H.arr i
  obj : ∀ o < H.no, ¬ b o → H'.obj o = H.obj o
  sound : H'.Sound

theorem Kept.refl {b : ℕ → Prop} {H : Heap K} (hs : H.Sound) : Kept b H H :=
  ⟨le_rfl, le_rfl, fun _ _ => rfl, fun _ _ _ => rfl, hs⟩

theorem Kept.trans {b b' b'' : ℕ → Prop} {H H1 H2 : Heap K} (h1 : Kept b H H1) (h2 : Kept b' H1 H2)
    (hb : ∀ o < H.no, b o → b'' o) (hb' : ∀ o < H.no, b' o → b'' o) : Kept b'' H H2 :=
  ⟨h1.no.trans h2.no, h1.na.trans h2.na, fun i hi => (h2.arr i (lt_of_lt_of_le hi h1.na)).trans (h1.arr i hi),
    fun o ho hn => (h2.obj o (lt_of_lt_of_le ho h1.no) fun h => hn (hb' o ho h)).trans (h1.obj o ho fun h => hn (hb o ho h)),
    h2.sound⟩

theorem Kept.mono {b b' : ℕ → Prop} {H H' : Heap K} (h : Kept b H H') (hb : ∀ o < H.no, b o → b' o) : Kept b' H H' :=
  ⟨h.no, h.na, h.arr, fun o ho hn => h.obj o ho fun k => hn (hb o ho k), h.sound⟩

theorem Kept.view {b : ℕ → Prop} {H H' : Heap K} (h : Kept b H H') (hs : H.Sound) {o : ℕ} (ho : o < H.no) (hb : ¬ b o) :
    H'.view o = H.view o := view_congr (h.obj o ho hb) fun i hi => h.arr i (hs o ho i hi)

/-- the statement does on the heap what `r` does to numbers -/
def Sim {α β : Type} (b : ℕ → Prop) (H : Heap K) (m : HM K α) (r : Res β) (Q : β → α → Heap K → Prop) : Prop :=
  match r with
  | .ok y => ∃ x H', m H = (.ok x, H') ∧ Kept b H H' ∧ Q y x H'
  | .error e => ∃ H', m H = (.error e, H') ∧ Kept b H H'

section sim
variable {α β γ δ : Type} {b b' : ℕ → Prop} {H : Heap K}

theorem Sim.bind {m : HM K α} {r : Res β} {Q : β → α → Heap K → Prop} {f : α → HM K γ} {g : β → Res δ}
    {Q' : δ → γ → Heap K → Prop} (h : Sim b H m r Q) (hb : ∀ o < H.no, b' o → b o)
    (hf : ∀ y x H', r = .ok y → Kept b H H' → Q y x H' → Sim b' H' (f x) (g y) Q') : Sim b H (m >>= f) (r >>= g) Q' := by
  cases r with
  | error e =>
    obtain ⟨H', h1, h2⟩ := h
    exact ⟨H', bind_err h1, h2⟩
  | ok y =>
    obtain ⟨x, H', h1, h2, h3⟩ := h
    have := hf y x H' rfl h2 h3
    rw [res_ok_bind]
    unfold Sim at this ⊢
    revert this
    generalize g y = s
    cases s with
    | error e =>
      rintro ⟨H2, k1, k2⟩
      exact ⟨H2, (bind_ok h1).trans k1, h2.trans k2 (fun _ _ h => h) hb⟩
    | ok z =>
      rintro ⟨w, H2, k1, k2, k3⟩
      exact ⟨w, H2, (bind_ok h1).trans k1, h2.trans k2 (fun _ _ h => h) hb, k3⟩

theorem Sim.lift {r : Res β} {f : β → HM K γ} {g : β → Res δ} {Q : δ → γ → Heap K → Prop} (hs : H.Sound)
    (h : ∀ y, r = .ok y → Sim b H (f y) (g y) Q) : Sim b H (Heap.lift r >>= f) (r >>= g) Q := by
  cases r with
  | error e => exact ⟨H, rfl, Kept.refl hs⟩
  | ok y => exact h y rfl

/-- a statement without counterpart -/
theorem Sim.step {m : HM K α} {x : α} {H' : Heap K} {f : α → HM K γ} {r : Res δ} {Q : δ → γ → Heap K → Prop}
    (h1 : m H = (.ok x, H')) (hk : Kept b H H') (hb : ∀ o < H.no, b' o → b o) (h : Sim b' H' (f x) r Q) :
    Sim b H (m >>= f) r Q := by
  cases r with
  | error e => obtain ⟨H2, k1, k2⟩ := h; exact ⟨H2, (bind_ok h1).trans k1, hk.trans k2 (fun _ _ h => h) hb⟩
  | ok y => obtain ⟨w, H2, k1, k2, k3⟩ := h; exact ⟨w, H2, (bind_ok h1).trans k1, hk.trans k2 (fun _ _ h => h) hb, k3⟩

theorem Sim.read {m : HM K α} {x : α} {f : α → HM K γ} {r : Res δ} {Q : δ → γ → Heap K → Prop}
    (h1 : m H = (.ok x, H)) (h : Sim b H (f x) r Q) : Sim b H (m >>= f) r Q := by
  cases r with
  | error e => obtain ⟨H2, k1, k2⟩ := h; exact ⟨H2, (bind_ok h1).trans k1, k2⟩
  | ok y => obtain ⟨w, H2, k1, k2, k3⟩ := h; exact ⟨w, H2, (bind_ok h1).trans k1, k2, k3⟩

theorem Sim.mono {m : HM K α} {r : Res β} {Q Q' : β → α → Heap K → Prop} (h : Sim b H m r Q) (hb : ∀ o < H.no, b o → b' o)
    (hQ : ∀ y x H', Kept b H H' → Q y x H' → Q' y x H') : Sim b' H m r Q' := by
  cases r with
  | error e => obtain ⟨H2, k1, k2⟩ := h; exact ⟨H2, k1, k2.mono hb⟩
  | ok y => obtain ⟨w, H2, k1, k2, k3⟩ := h; exact ⟨w, H2, k1, k2.mono hb, hQ _ _ _ k2 k3⟩

end sim

/-! ## methods -/

/-- object `o` exists and has the numbers `N` -/
structure Is (H : Heap K) (o : ℕ) {d : ℕ} (N : Nrb K d) : Prop where
  lt : o < H.no
  view : H.view o = ⟨d, N⟩

theorem Is.obj {H : Heap K} {o d : ℕ} {N : Nrb K d} (h : Is H o N) : ∃ A k, H.obj o = ⟨d, A, k⟩ ∧ H.nrb ⟨d, A, k⟩ = N := by
  have hv := h.view
  unfold Heap.view at hv
  revert hv
  rcases H.obj o with ⟨d', A, k⟩
  intro hv
  obtain ⟨rfl, hN⟩ := Sigma.mk.inj hv
  exact ⟨A, k, rfl, eq_of_heq hN⟩

theorem Is.of_obj {H : Heap K} {o d : ℕ} (ho : o < H.no) {A : ℕ} {k : Fin d → ℕ} (h : H.obj o = ⟨d, A, k⟩) :
    Is H o (H.nrb ⟨d, A, k⟩) := ⟨ho, by unfold Heap.view; rw [h]⟩

theorem Is.kept {b : ℕ → Prop} {H H' : Heap K} {o d : ℕ} {N : Nrb K d} (h : Is H o N) (hs : H.Sound) (hk : Kept b H H')
    (hb : ¬ b o) : Is H' o N := ⟨lt_of_lt_of_le h.lt hk.no, (hk.view hs h.lt hb).trans h.view⟩

theorem numbers_run {H : Heap K} {o d : ℕ} {N : Nrb K d} (h : Is H o N) : numbers d o H = (.ok N, H) := by
  have hv := h.view
  unfold numbers
  rw [if_pos h.lt]
  unfold Heap.view at hv
  generalize H.obj o = x at hv ⊢
  rcases x with ⟨d', A, k⟩
  obtain ⟨rfl, hN⟩ := Sigma.mk.inj hv
  rw [dif_pos rfl]
  exact congrArg (fun N => (Except.ok N, H)) (eq_of_heq hN)

theorem seqH_read {α : Type} : ∀ {m : ℕ} {f : Fin m → HM K α} {v : Fin m → α} {H : Heap K},
    (∀ i, f i H = (.ok (v i), H)) → seqH f H = (.ok v, H)
  | 0, f, v, H, _ => by
    have : v = Fin.elim0 := funext fun i => i.elim0
    rw [this]; rfl
  | m + 1, f, v, H, h => by
    unfold seqH
    rw [bind_ok (h 0), bind_ok (seqH_read (v := fun i => v i.succ) fun i => h i.succ)]
    have : (Fin.cons (v 0) (fun i => v (Fin.succ i)) : Fin (m + 1) → α) = v := funext fun i => by refine Fin.cases ?_ (fun _ => ?_) i <;> rfl
    show (Except.ok (Fin.cons (v 0) (fun i => v (Fin.succ i)) : Fin (m + 1) → α), H) = _
    rw [this]

theorem numbers_all {H : Heap K} {m d : ℕ} {os : Fin m → ℕ} {N : Fin m → Nrb K d} (h : ∀ i, Is H (os i) (N i)) :
    seqH (fun i => numbers d (os i)) H = (.ok N, H) := seqH_read fun i => numbers_run (h i)

theorem Kept.of_grown {H H' : Heap K} {b : ℕ → Prop} (hs : H.Sound) (h : Grown H H') : Kept b H H' :=
  ⟨le_of_eq h.no.symm, h.na, h.arr, fun o _ _ => by rw [h.obj], fun o ho i hi => by
    rw [h.obj] at hi; rw [h.no] at ho
    exact lt_of_lt_of_le (hs o ho i hi) h.na⟩

theorem Kept.of_after {H H' : Heap K} {o : ℕ} {y : Obj} (hs : H.Sound) (ho : o < H.no) (h : After H H' o y) :
    Kept (fun n => n = o) H H' :=
  ⟨le_of_eq h.no.symm, h.na, h.arr, fun n _ hn => by rw [h.obj, Function.update_of_ne hn], fun n hn i hi => by
    have hna := h.na
    rw [h.no] at hn
    rw [h.obj] at hi
    by_cases e : n = o
    · rw [e, Function.update_self] at hi
      rcases h.uses i hi with h1 | h1
      · have := hs o ho i h1; omega
      · exact h1.2
    · rw [Function.update_of_ne e] at hi
      have := hs n hn i hi; omega⟩

theorem Does.sim {H : Heap K} {o d : ℕ} {m : HM K Unit} {r : Res (Nrb K d)} (hs : H.Sound) (ho : o < H.no)
    (h : Does H o m H r) : Sim (fun n => n = o) H m r (fun N _ H' => Is H' o N) := by
  cases r with
  | error e => obtain ⟨H', h1, h2⟩ := h; exact ⟨H', h1, Kept.of_grown hs h2⟩
  | ok N =>
    obtain ⟨H', A, k, h1, h2, h3⟩ := h
    refine ⟨(), H', h1, Kept.of_after hs ho h2, ?_⟩
    rw [← h3]
    exact Is.of_obj (by rw [h2.no]; exact ho) (by rw [h2.obj, Function.update_self])

section methods
variable {H : Heap K} {o d : ℕ} (hs : H.Sound)
include hs

theorem remap_sim {N : Nrb K d} (h : Is H o N) (axis : ℤ) (start stop : Option K) :
    Sim (fun n => n = o) H (Heap.remap o axis start stop) (N.remap axis start stop) (fun N _ H' => Is H' o N) := by
  obtain ⟨A, k, hx, rfl⟩ := h.obj
  exact (remap_does h.lt (hs o h.lt) hx axis start stop).sim hs h.lt

theorem transform_sim {N : Nrb K d} (h : Is H o N) (M : Res (Fin 4 → Fin 4 → K)) :
    Sim (fun n => n = o) H (Heap.transform o M) (M >>= fun M => .ok (N.transform M)) (fun N _ H' => Is H' o N) := by
  obtain ⟨A, k, hx, rfl⟩ := h.obj
  exact (transform_does h.lt (hs o h.lt) hx M).sim hs h.lt

theorem transpose_sim {N : Nrb K d} (h : Is H o N) (axes : Option (List ℤ)) :
    Sim (fun n => n = o) H (Heap.transpose o axes) (N.transpose axes) (fun N _ H' => Is H' o N) := by
  obtain ⟨A, k, hx, rfl⟩ := h.obj
  exact (transpose_does h.lt (hs o h.lt) hx axes).sim hs h.lt

theorem elevate_sim {N : Nrb K (d + 1)} (h : Is H o N) (env : Env K) (jn : Scratch K) (axis : ℤ) (t : Option ℤ) :
    Sim (fun n => n = o) H (Heap.elevate env jn o axis t) (N.elevate env.eps jn.k jn.rows jn.b axis t)
      (fun N _ H' => Is H' o N) := by
  obtain ⟨A, k, hx, rfl⟩ := h.obj
  exact (elevate_does h.lt (hs o h.lt) hx env jn axis t).sim hs h.lt

theorem refine_sim {N : Nrb K (d + 1)} (h : Is H o N) (env : Env K) (jn : Scratch K) (axis : ℤ) (l : List K) :
    Sim (fun n => n = o) H (Heap.refine env jn o axis (.fresh l)) (N.refine env.eps jn.k jn.rows axis l)
      (fun N _ H' => Is H' o N) := by
  obtain ⟨A, k, hx, rfl⟩ := h.obj
  exact (refine_does h.lt (hs o h.lt) hx env jn axis l).sim hs h.lt

theorem clamp_sim {N : Nrb K (d + 1)} (h : Is H o N) (env : Env K) (jn : Scratch K) (axis : ℤ) (side : Option ℤ) :
    Sim (fun n => n = o) H (Heap.clamp env jn o axis side) (N.clamp env.eps jn.rows axis side)
      (fun N _ H' => Is H' o N) := by
  obtain ⟨A, k, hx, rfl⟩ := h.obj
  exact (clamp_does h.lt (hs o h.lt) hx env jn axis side).sim hs h.lt

theorem remove_sim {N : Nrb K (d + 1)} (h : Is H o N) (env : Env K) (jn : Scratch K) (axis : ℤ) (value : K)
    (times : Option ℤ) (dev : K) :
    Sim (fun n => n = o) H (Heap.remove env jn o axis value times dev)
      (N.removeNear env.eps jn.rows env.near axis value times dev) (fun N _ H' => Is H' o N) := by
  obtain ⟨A, k, hx, rfl⟩ := h.obj
  exact (remove_does h.lt (hs o h.lt) hx env jn axis value times dev).sim hs h.lt

end methods

/-! ## loops -/

/-- a loop of statements on one object -/
theorem forEach_sim {α : Type} {o d : ℕ} {f : α → HM K Unit} {v : Nrb K d → α → Res (Nrb K d)}
    (hf : ∀ x (H : Heap K) N, H.Sound → Is H o N → Sim (fun n => n = o) H (f x) (v N x) (fun N _ H' => Is H' o N)) :
    ∀ (l : List α) (H : Heap K) (N : Nrb K d), H.Sound → Is H o N →
      Sim (fun n => n = o) H (forEach l f) (l.foldlM v N) (fun N _ H' => Is H' o N)
  | [], H, N, hs, hN => ⟨(), H, rfl, Kept.refl hs, hN⟩
  | x :: l, H, N, hs, hN => by
    rw [List.foldlM_cons]
    unfold forEach
    exact (hf x H N hs hN).bind (fun _ _ h => h) fun y _ H' _ hk hy => forEach_sim hf l H' y hk.sound hy

/-- a loop over objects, each statement changes its object only -/
theorem eachFin_sim {d : ℕ} : ∀ {m : ℕ} {os : Fin m → ℕ} {f : Fin m → HM K Unit} {v : Fin m → Res (Nrb K d)}
    {N : Fin m → Nrb K d}, Function.Injective os →
    (∀ i (H : Heap K), H.Sound → Is H (os i) (N i) → Sim (fun n => n = os i) H (f i) (v i) (fun N _ H' => Is H' (os i) N)) →
    ∀ (H : Heap K), H.Sound → (∀ i, Is H (os i) (N i)) →
      Sim (fun n => ∃ i, n = os i) H (eachFin f) (seqFin v) (fun R _ H' => ∀ i, Is H' (os i) (R i))
  | 0, os, f, v, N, _, _, H, hs, _ => ⟨(), H, rfl, Kept.refl hs, fun i => i.elim0⟩
  | m + 1, os, f, v, N, hi, hf, H, hs, hN => by
    unfold eachFin seqFin
    refine ((hf 0 H hs (hN 0)).mono (b' := fun n => ∃ i, n = os i) (fun o _ h => ⟨0, h⟩)
      (Q' := fun y _ H' => Kept (fun n => n = os 0) H H' ∧ Is H' (os 0) y) fun y x H' hk hy => ⟨hk, hy⟩).bind
      (b' := fun n => ∃ i : Fin m, n = os i.succ) (fun o _ ⟨i, h⟩ => ⟨i.succ, h⟩) fun y _ H' _ _ hy => ?_
    have ih := eachFin_sim (os := fun i : Fin m => os i.succ) (f := fun i => f i.succ) (v := fun i => v i.succ)
      (N := fun i => N i.succ) (fun i j e => Fin.succ_injective _ (hi e)) (fun i => hf i.succ) H' hy.1.sound
      (fun i => (hN i.succ).kept hs hy.1 fun e => Fin.succ_ne_zero i (hi e))
    have e : eachFin (fun i : Fin m => f i.succ) = (eachFin (fun i : Fin m => f i.succ) >>= fun _ => pure ()) := by
      funext H1
      rw [bind_run]
      rcases eachFin (fun i : Fin m => f i.succ) H1 with ⟨r, H2⟩
      cases r <;> rfl
    rw [e]
    refine ih.bind (b' := fun _ => False) (fun _ _ h => h.elim) fun ys _ H2 _ hk hys => ?_
    refine ⟨(), H2, rfl, Kept.refl hk.sound, fun i => ?_⟩
    refine Fin.cases ?_ (fun j => ?_) i
    · refine hy.2.kept hy.1.sound hk ?_
      rintro ⟨j, e⟩
      exact Fin.succ_ne_zero j (hi e).symm
    · exact hys j

/-- clones of all objects -/
theorem clones_run : ∀ {m : ℕ} (os : Fin m → ℕ) (H : Heap K), H.Sound → (∀ i, os i < H.no) →
    ∃ H', seqH (fun i => clone (os i)) H = (.ok (fun i => H.no + i), H') ∧ Kept (fun _ => False) H H' ∧ H'.no = H.no + m ∧
      H'.na = H.na ∧ ∀ i : Fin m, H'.obj (H.no + i) = H.obj (os i)
  | 0, os, H, hs, _ => ⟨H, by
      have : (fun i : Fin 0 => H.no + (i : ℕ)) = Fin.elim0 := funext fun i => i.elim0
      rw [this]; rfl, Kept.refl hs, rfl, rfl, fun i => i.elim0⟩
  | m + 1, os, H, hs, ho => by
    have e0 : clone (os 0) H = newObj (H.obj (os 0)) H := getObj_run (ho 0) _
    obtain ⟨H1, h1⟩ : ∃ H1, H1 = (newObj (H.obj (os 0)) H).2 := ⟨_, rfl⟩
    have k1 : Kept (fun _ => False) H H1 := by
      rw [h1]
      refine ⟨Nat.le_succ _, le_rfl, fun _ _ => rfl, fun o ho' _ => Function.update_of_ne (by omega) _ _, fun o ho' i hi => ?_⟩
      change o < H.no + 1 at ho'
      change (Function.update H.obj H.no (H.obj (os 0)) o).Uses i at hi
      by_cases e : o = H.no
      · rw [e, Function.update_self] at hi; exact hs _ (ho 0) i hi
      · rw [Function.update_of_ne e] at hi; exact hs o (by omega) i hi
    have n1 : H1.no = H.no + 1 := by rw [h1]; rfl
    have a1 : H1.na = H.na := by rw [h1]; rfl
    have o1 : H1.obj H.no = H.obj (os 0) := by rw [h1]; exact Function.update_self _ _ _
    obtain ⟨H2, r2, k2, n2, a2, o2⟩ := clones_run (fun i : Fin m => os i.succ) H1 k1.sound fun i => by
      have := ho i.succ; omega
    refine ⟨H2, ?_, k1.trans k2 (fun _ _ h => h) (fun _ _ h => h), by omega, by omega, fun i => ?_⟩
    · unfold seqH
      rw [bind_ok (x := H.no) (H' := H1) (by rw [h1]; exact e0), bind_ok r2]
      show (Except.ok (Fin.cons H.no (fun i : Fin m => H1.no + (i : ℕ)) : Fin (m + 1) → ℕ), H2) = _
      congr 2
      funext i
      refine Fin.cases rfl (fun j => ?_) i
      rw [Fin.cons_succ, n1, Fin.val_succ]; omega
    · refine Fin.cases ?_ (fun j => ?_) i
      · exact (k2.obj H.no (by omega) id).trans o1
      · have := o2 j
        rw [n1] at this
        rw [show H.no + ((Fin.succ j : Fin (m + 1)) : ℕ) = H.no + 1 + (j : ℕ) by rw [Fin.val_succ]; omega, this]
        exact k1.obj _ (ho _) id

/-! ## compat -/

theorem Sim.ite {α β : Type} {b : ℕ → Prop} {H : Heap K} {c : Prop} [Decidable c] {m1 m2 : HM K α} {r1 r2 : Res β}
    {Q : β → α → Heap K → Prop} (h1 : c → Sim b H m1 r1 Q) (h2 : ¬ c → Sim b H m2 r2 Q) :
    Sim b H (if c then m1 else m2) (if c then r1 else r2) Q := by
  by_cases h : c
  · rw [if_pos h, if_pos h]; exact h1 h
  · rw [if_neg h, if_neg h]; exact h2 h

theorem Sim.ok {α β : Type} {b : ℕ → Prop} {H : Heap K} {x : α} {y : β} {Q : β → α → Heap K → Prop} (hs : H.Sound)
    (h : Q y x H) : Sim b H (pure x) (pure y) Q := ⟨x, H, rfl, Kept.refl hs, h⟩

namespace Cad

section compat
variable {m d : ℕ} {os : Fin m → ℕ} {H : Heap K}

theorem sameBounds_sim (hs : H.Sound) (hi : Function.Injective os) {N : Fin m → Nrb K d} (hN : ∀ i, Is H (os i) (N i))
    (axes : List (Fin d)) :
    Sim (fun n => ∃ i, n = os i) H (sameBounds d os axes) (Igakit.Cad.sameBounds N axes)
      (fun R _ H' => ∀ i, Is H' (os i) (R i)) := by
  unfold sameBounds Igakit.Cad.sameBounds
  refine Sim.read (numbers_all hN) (eachFin_sim hi (N := N) (fun i H1 hs1 h1 => ?_) H hs hN)
  exact forEach_sim (fun a H2 X hs2 h2 => remap_sim hs2 h2 _ _ _) axes H1 (N i) hs1 h1

theorem sameDegree_sim (hs : H.Sound) (hi : Function.Injective os) {N : Fin m → Nrb K (d + 1)}
    (hN : ∀ i, Is H (os i) (N i)) (env : Env K) (S : Fin m → ℕ → Scratch K) (axes : List (Fin (d + 1))) :
    Sim (fun n => ∃ i, n = os i) H (sameDegree env S (d + 1) os axes)
      (Igakit.Cad.sameDegree env.eps (fun i a => (S i a).mem) N axes) (fun R _ H' => ∀ i, Is H' (os i) (R i)) := by
  unfold sameDegree Igakit.Cad.sameDegree
  refine Sim.read (numbers_all hN) (eachFin_sim hi (N := N) (fun i H1 hs1 h1 => ?_) H hs hN)
  exact forEach_sim (fun (a : Fin (d + 1)) H2 X hs2 h2 => elevate_sim hs2 h2 env (S i a) _ _) axes H1 (N i) hs1 h1

theorem mergeKnots_sim (hs : H.Sound) (hi : Function.Injective os) {N : Fin m → Nrb K (d + 1)}
    (hN : ∀ i, Is H (os i) (N i)) (env : Env K) (S : Fin m → ℕ → Scratch K) (axes : List (Fin (d + 1))) :
    Sim (fun n => ∃ i, n = os i) H (mergeKnots env S (d + 1) os axes)
      (Igakit.Cad.mergeKnots env.eps (fun i a => (S i a).mem) N axes) (fun R _ H' => ∀ i, Is H' (os i) (R i)) := by
  unfold mergeKnots Igakit.Cad.mergeKnots
  refine Sim.read (numbers_all hN) (Sim.lift hs fun ins _ => eachFin_sim hi (N := N) (fun i H1 hs1 h1 => ?_) H hs hN)
  exact forEach_sim (fun q H2 X hs2 h2 => refine_sim hs2 h2 env (S i q.1) _ _) ins H1 (N i) hs1 h1

theorem compat_sim (hs : H.Sound) {N : Fin m → Nrb K (d + 1)} (hN : ∀ i, Is H (os i) (N i)) (env : Env K)
    (S1 S2 : Fin m → ℕ → Scratch K) (axes : Option (List ℤ)) :
    Sim (fun _ => False) H (compat env S1 S2 (d + 1) os axes)
      (Igakit.Cad.compat env.eps (fun i a => (S1 i a).mem) (fun i a => (S2 i a).mem) N axes)
      (fun R cs H' => (∀ i, H.no ≤ cs i ∧ Is H' (cs i) (R i)) ∧ Function.Injective cs) := by
  obtain ⟨H1, r1, k1, n1, a1, o1⟩ := clones_run os H hs fun i => (hN i).lt
  have hi : Function.Injective (fun i : Fin m => H.no + (i : ℕ)) := fun i j e => Fin.ext (by dsimp only at e; omega)
  have hI : ∀ i : Fin m, Is H1 (H.no + i) (N i) := fun i => by
    have h := hN i
    refine ⟨by have := i.2; omega, ?_⟩
    rw [← h.view]
    unfold Heap.view
    rw [o1 i]
    exact congrArg _ (nrb_congr fun j hj => k1.arr j (hs _ h.lt j hj))
  have hs1 := k1.sound
  unfold compat Igakit.Cad.compat
  refine Sim.step r1 k1 (b' := fun n => ∃ i : Fin m, n = H.no + i) (fun o ho ⟨i, e⟩ => by omega) ?_
  refine Sim.ite (fun _ => Sim.ok hs1 ⟨fun i => ⟨Nat.le_add_right _ _, hI i⟩, hi⟩) fun _ => ?_
  refine Sim.read (numbers_all hI) (Sim.lift hs1 fun ax _ => ?_)
  refine Sim.ite (fun _ => Sim.ok hs1 ⟨fun i => ⟨Nat.le_add_right _ _, hI i⟩, hi⟩) fun _ => ?_
  refine (sameBounds_sim hs1 hi hI ax).bind (fun _ _ h => h) fun N1 _ H2 _ k2 hI2 => ?_
  refine (sameDegree_sim k2.sound hi hI2 env S1 ax).bind (fun _ _ h => h) fun N2 _ H3 _ k3 hI3 => ?_
  have e : ∀ r : Res (Fin m → Nrb K (d + 1)), r = (r >>= fun R => pure R) := fun r => by cases r <;> rfl
  rw [e (Igakit.Cad.mergeKnots _ _ _ _)]
  refine (mergeKnots_sim k3.sound hi hI3 env S2 ax).bind (b' := fun _ => False) (fun _ _ h => h.elim) fun N3 _ H4 _ k4 hI4 => ?_
  exact Sim.ok k4.sound ⟨fun i => ⟨Nat.le_add_right _ _, hI4 i⟩, hi⟩

end compat

/-! ## objects with one more axis -/

theorem knotsWith_castSucc {d : ℕ} (N : Nrb K d) (k : Nd K) (a : Fin d) : N.knotsWith k a.castSucc = N.knotNd a := by
  unfold Nrb.knotsWith
  rw [Fin.snoc_castSucc]

theorem knotsWith_last {d : ℕ} (N : Nrb K d) (k : Nd K) : N.knotsWith k (Fin.last d) = k := by
  unfold Nrb.knotsWith
  rw [Fin.snoc_last]

/-- what is needed of the numbers of the new object -/
def Longer {d : ℕ} (N : Nrb K d) (k : Nd K) (R : Nrb K (d + 1)) : Prop :=
  R.len = (fun a => (N.knotsWith k a).shape.headD 0) ∧ R.U = fun a j => (N.knotsWith k a).get [j]

theorem extend_sim {d o : ℕ} {H H1 : Heap K} (hs : H.Sound) {N : Nrb K d} (h : Is H o N) {V : HM K ℕ} {j : ℕ}
    (hV : V H = (.ok j, H1)) (hk : Kept (fun _ => False) H H1) (hn : H1.no = H.no) (hj : j < H1.na) {k : Nd K}
    (hjk : (H1.arr j).shape.headD 0 = k.shape.headD 0 ∧ ∀ i, (H1.arr j).get [i] = k.get [i])
    {r : Res (Nrb K (d + 1))} (hr : ∀ R, r = .ok R → Longer N k R) :
    Sim (fun _ => False) H (extend o V r) r (fun R n H' => n = H.no ∧ Is H' n R ∧
      ∃ A, H.na ≤ A ∧ H'.obj n = ⟨(H.obj o).d + 1, A, Fin.snoc (α := fun _ => ℕ) (H.obj o).knots j⟩) := by
  have hs1 := hk.sound
  have e1 : (extend o V r) H = (lift r >>= fun R => do
      let A ← alloc (netArr R)
      newObj ⟨(H.obj o).d + 1, A, Fin.snoc (α := fun _ => ℕ) (H.obj o).knots j⟩ : HM K ℕ) H1 := by
    unfold extend
    rw [getObj_run h.lt, bind_ok hV]
  cases r with
  | error e => exact ⟨H1, e1, hk⟩
  | ok R =>
    obtain ⟨A0, kn, hx, hnrb⟩ := h.obj
    obtain ⟨l1, l2⟩ := hr R rfl
    rw [hx] at e1
    have hu := hs o h.lt
    rw [hx] at hu
    have hna := hk.na
    have key : ∀ i, (⟨d + 1, H1.na, Fin.snoc (α := fun _ => ℕ) kn j⟩ : Obj).Uses i → i < H1.na + 1 := by
      rintro i (rfl | ⟨a, rfl⟩)
      · exact Nat.lt_succ_self _
      · refine Fin.lastCases ?_ (fun c => ?_) a
        · show Fin.snoc (α := fun _ => ℕ) kn j (Fin.last d) < _
          rw [Fin.snoc_last]; omega
        · show Fin.snoc (α := fun _ => ℕ) kn j c.castSucc < _
          rw [Fin.snoc_castSucc]
          have := hu (kn c) (Or.inr ⟨c, rfl⟩); omega
    refine ⟨H1.no, (newObj ⟨d + 1, H1.na, Fin.snoc (α := fun _ => ℕ) kn j⟩ (alloc (netArr R) H1).2).2, e1, ?_, hn, ?_, H1.na,
      hna, ?_⟩
    · refine ⟨by have := hk.no; show H.no ≤ H1.no + 1; omega, by show H.na ≤ H1.na + 1; omega, fun i hi => ?_, fun o' ho' _ => ?_,
        fun o' ho' i hi => ?_⟩
      · exact (Function.update_of_ne (by omega) _ _).trans (hk.arr i hi)
      · exact (Function.update_of_ne (by show o' ≠ H1.no; omega) _ _).trans (hk.obj o' ho' id)
      · change o' < H1.no + 1 at ho'
        change i < H1.na + 1
        change (Function.update H1.obj H1.no _ o').Uses i at hi
        by_cases e : o' = H1.no
        · rw [e, Function.update_self] at hi
          exact key i hi
        · rw [Function.update_of_ne e] at hi
          have := hs1 o' (by omega) i hi; omega
    · refine ⟨Nat.lt_succ_self _, ?_⟩
      refine (newObj_view (H := (alloc (netArr R) H1).2) _).trans (Sigma.ext rfl (heq_of_eq ?_))
      refine nrb_eq (Function.update_self _ _ _) fun a => ?_
      rw [l1, l2]
      dsimp only
      refine Fin.lastCases ?_ (fun c => ?_) a
      · rw [Fin.snoc_last, knotsWith_last]
        have : (alloc (netArr R) H1).2.arr j = H1.arr j := Function.update_of_ne (by omega) _ _
        rw [this]
        exact hjk
      · rw [Fin.snoc_castSucc, knotsWith_castSucc]
        have hc := hu (kn c) (Or.inr ⟨c, rfl⟩)
        have : (alloc (netArr R) H1).2.arr (kn c) = H.arr (kn c) :=
          (Function.update_of_ne (by omega) _ _).trans (hk.arr _ hc)
        rw [this, ← hnrb]
        exact ⟨rfl, fun _ => rfl⟩
    · rw [hx]
      exact Function.update_self _ _ _

theorem alloc_kept {H : Heap K} (hs : H.Sound) (A : Nd K) : Kept (fun _ => False) H (alloc A H).2 :=
  ⟨le_rfl, Nat.le_succ _, fun i hi => Function.update_of_ne (by omega) _ _, fun _ _ _ => rfl, fun o ho i hi => by
    have := hs o ho i hi
    show i < H.na + 1
    omega⟩

theorem extend_alloc_sim {d o : ℕ} {H : Heap K} (hs : H.Sound) {N : Nrb K d} (h : Is H o N) {k k' : Nd K}
    (hk : k'.shape.headD 0 = k.shape.headD 0 ∧ ∀ i, k'.get [i] = k.get [i])
    {r : Res (Nrb K (d + 1))} (hr : ∀ R, r = .ok R → Longer N k R) :
    Sim (fun _ => False) H (extend o (alloc k') r) r (fun R n H' => n = H.no ∧ Is H' n R ∧
      ∃ A, H.na ≤ A ∧ H'.obj n = ⟨(H.obj o).d + 1, A, Fin.snoc (α := fun _ => ℕ) (H.obj o).knots H.na⟩) := by
  refine extend_sim hs h (H1 := (alloc k' H).2) rfl (alloc_kept hs _) rfl (Nat.lt_succ_self _) ?_ hr
  have : (alloc k' H).2.arr H.na = k' := Function.update_self _ _ _
  rw [this]
  exact hk

theorem ctor_longer {d : ℕ} {N : Nrb K d} {k : Nd K} {C : CtrlArg K} {f w : Option (Nd K)} {R : Nrb K (d + 1)}
    (h : Nrb.ctor (N.knotsWith k) C f w = .ok R) : Longer N k R := ctor_fields h

theorem extrude_sim {d o : ℕ} {H : Heap K} (hs : H.Sound) {N : Nrb K d} (h : Is H o N) (displ : ArrArg K) (axis : Option ℤ) :
    Sim (fun _ => False) H (extrude o displ axis) (Igakit.Cad.extrude N displ axis) (fun R n H' => n = H.no ∧ Is H' n R ∧
      ∃ A, H.na ≤ A ∧ H'.obj n = ⟨(H.obj o).d + 1, A, Fin.snoc (α := fun _ => ℕ) (H.obj o).knots H.na⟩) := by
  obtain ⟨A, k, hx, rfl⟩ := h.obj
  have e : extrude o displ axis H = extend o (alloc unitKnots)
      (Igakit.Cad.extrude (H.nrb ⟨d, A, k⟩) displ axis) H := by
    unfold extrude
    rw [getObj_run h.lt, contents_run, hx]
  have := extend_alloc_sim (K := K) hs h (k := unitKnots) (k' := unitKnots) ⟨rfl, fun _ => rfl⟩
    (r := Igakit.Cad.extrude (H.nrb ⟨d, A, k⟩) displ axis) fun R hR => by
      unfold Igakit.Cad.extrude at hR
      obtain ⟨-, -, hR⟩ := res_bind_inv hR
      obtain ⟨T, -, hR⟩ := res_bind_inv hR
      exact ctor_longer hR
  unfold Sim at this ⊢
  rw [e]
  exact this

theorem knotRef_run {o : ℕ} {H : Heap K} {T : Nrb K 1} (h : Is H o T) :
    ∃ j, knotRef o H = (.ok j, H) ∧ (H.obj o).Uses j ∧ (∃ c : Fin (H.obj o).d, (c : ℕ) = 0 ∧ j = (H.obj o).knots c) ∧
      (H.arr j).shape.headD 0 = T.len 0 ∧
      ∀ i, (H.arr j).get [i] = T.U 0 i := by
  obtain ⟨A, k, hx, rfl⟩ := h.obj
  refine ⟨k 0, ?_, by rw [hx]; exact Or.inr ⟨0, rfl⟩, by rw [hx]; exact ⟨0, rfl, rfl⟩, rfl, fun _ => rfl⟩
  unfold knotRef
  rw [getObj_run h.lt, hx]
  rfl

theorem sweep_sim {d o1 o2 : ℕ} {H : Heap K} (hs : H.Sound) {S : Nrb K d} {T : Nrb K 1} (h1 : Is H o1 S) (h2 : Is H o2 T) :
    Sim (fun _ => False) H (sweep o1 o2) (Igakit.Cad.sweep S T) (fun R n H' => n = H.no ∧ Is H' n R ∧
      ∃ A, H.na ≤ A ∧ ∃ c : Fin (H.obj o2).d, (c : ℕ) = 0 ∧
        H'.obj n = ⟨(H.obj o1).d + 1, A, Fin.snoc (α := fun _ => ℕ) (H.obj o1).knots ((H.obj o2).knots c)⟩) := by
  obtain ⟨A, k, hx, rfl⟩ := h1.obj
  obtain ⟨j, hj, hu, ⟨c, hc0, hc⟩, hl, hU⟩ := knotRef_run h2
  have e : sweep o1 o2 H = extend o1 (knotRef o2) (Igakit.Cad.sweep (H.nrb ⟨d, A, k⟩) T) H := by
    unfold sweep
    rw [getObj_run h1.lt, contents_run, bind_ok (numbers_run h2), hx]
  have := extend_sim (K := K) hs h1 (k := T.knotNd 0) hj (Kept.refl hs) rfl (hs o2 h2.lt j hu) ⟨hl, hU⟩
    (r := Igakit.Cad.sweep (H.nrb ⟨d, A, k⟩) T) fun R hR => by
      unfold Igakit.Cad.sweep at hR
      obtain ⟨-, -, hR⟩ := res_bind_inv hR
      exact ctor_longer hR
  have := this.mono (b' := fun _ => False) (fun _ _ h => h) (Q' := fun R n H' => n = H.no ∧ Is H' n R ∧
      ∃ A, H.na ≤ A ∧ ∃ c : Fin (H.obj o2).d, (c : ℕ) = 0 ∧
        H'.obj n = ⟨(H.obj o1).d + 1, A, Fin.snoc (α := fun _ => ℕ) (H.obj o1).knots ((H.obj o2).knots c)⟩)
    fun R n H' _ ⟨q1, q2, A, q3, q4⟩ => ⟨q1, q2, A, q3, c, hc0, by rw [q4, hc]⟩
  unfold Sim at this ⊢
  rw [e]
  exact this

theorem ruled_sim {d o1 o2 : ℕ} {H : Heap K} (hs : H.Sound) {N1 N2 : Nrb K (d + 1)} (h1 : Is H o1 N1) (h2 : Is H o2 N2)
    (env : Env K) (S1 S2 : Fin 2 → ℕ → Scratch K) :
    Sim (fun _ => False) H (ruled env S1 S2 d o1 o2)
      (Igakit.Cad.ruled env.eps (fun i a => (S1 i a).mem) (fun i a => (S2 i a).mem) N1 N2)
      (fun R n H' => H.no ≤ n ∧ Is H' n R) := by
  unfold ruled Igakit.Cad.ruled
  refine Sim.lift hs fun _ _ => ?_
  refine (compat_sim hs (os := ![o1, o2]) (N := ![N1, N2]) (fun i => by
    refine Fin.cases h1 (fun j => ?_) i
    obtain rfl : j = 0 := Subsingleton.elim _ _
    exact h2) env S1 S2 none).bind (b' := fun _ => False) (fun _ _ h => h) fun N c H1 _ k1 hc => ?_
  refine Sim.read (numbers_all fun i => (hc.1 i).2) ?_
  refine (extend_alloc_sim k1.sound (hc.1 0).2 (k := unitKnots) (k' := unitKnots) ⟨rfl, fun _ => rfl⟩
    fun R hR => ctor_longer hR).mono (fun _ _ h => h) fun R n H' _ q => ⟨?_, q.2.1⟩
  rw [q.1]; exact k1.no

theorem clone_run {o d : ℕ} {H : Heap K} (hs : H.Sound) {N : Nrb K d} (h : Is H o N) :
    ∃ H', clone o H = (.ok H.no, H') ∧ Kept (fun _ => False) H H' ∧ Is H' H.no N ∧ H'.na = H.na ∧ H'.obj H.no = H.obj o := by
  obtain ⟨H1, r1, k1, n1, a1, o1⟩ := clones_run (fun _ : Fin 1 => o) H hs fun _ => h.lt
  have e : clone o H = newObj (H.obj o) H := getObj_run h.lt _
  refine ⟨(newObj (H.obj o) H).2, e, ?_, ⟨Nat.lt_succ_self _, ?_⟩, rfl, Function.update_self _ _ _⟩
  · refine ⟨Nat.le_succ _, le_rfl, fun _ _ => rfl, fun o ho' _ => Function.update_of_ne (by omega) _ _, fun n ho' i hi => ?_⟩
    change n < H.no + 1 at ho'
    change (Function.update H.obj H.no (H.obj o) n).Uses i at hi
    by_cases e : n = H.no
    · rw [e, Function.update_self] at hi; exact hs _ h.lt i hi
    · rw [Function.update_of_ne e] at hi; exact hs n (by omega) i hi
  · rw [newObj_view, ← h.view]
    rfl

theorem Sim.congr {α β : Type} {b : ℕ → Prop} {H H1 : Heap K} {m m' : HM K α} {r : Res β} {Q : β → α → Heap K → Prop}
    (e : m H = m' H) (h : Sim b H m' r Q) : Sim b H m r Q := by
  unfold Sim at h ⊢
  rw [e]
  exact h

theorem revolve_sim {d o : ℕ} {H : Heap ℝ} (hs : H.Sound) {N : Nrb ℝ d} (h : Is H o N) (junk : ℤ → Fin 4 → ℝ)
    (point : ArrArg ℝ) (axis : Transform.AxisArg) (angle : AngleArg) :
    Sim (fun _ => False) H (revolve junk o point axis angle) (Igakit.Cad.revolve junk N point axis angle)
      (fun R n H' => H.no ≤ n ∧ Is H' n R) := by
  unfold revolve Igakit.Cad.revolve
  have hd : (H.obj o).d = d := by obtain ⟨A, k, hx, -⟩ := h.obj; rw [hx]
  refine Sim.congr (H1 := H) (getObj_run h.lt _) ?_
  rw [hd]
  refine Sim.lift hs fun _ _ => Sim.lift hs fun _ _ => Sim.lift hs fun v _ => Sim.lift hs fun T _ => ?_
  obtain ⟨H1, e1, k1, i1, -⟩ := clone_run hs h
  refine Sim.step e1 k1 (b' := fun n => n = H.no) (fun o ho e => by omega) ?_
  have t1 : Sim (fun n => n = H.no) H1 (transform H.no (.ok T)) (.ok (N.transform T)) (fun N _ H' => Is H' H.no N) :=
    transform_sim k1.sound i1 (.ok T)
  refine Sim.bind (r := .ok (N.transform T)) (g := fun N => do
    let arc ← Igakit.Cad.circle junk 1 none angle
    let R ← Nrb.ctor (N.knotsWith (arc.knotNd 0))
      (.arr (N.netWith (arc.shape 0) 4 (fun idx j c =>
        Igakit.Cad.revPoint (N.P idx 0) (N.P idx 1) (N.P idx 2) (N.P idx 3) (arc.P ![j]) c))) none none
    let Ti ← Transform.inverse T
    pure (R.transform Ti)) t1 (b' := fun _ => False) (fun _ _ h => h.elim) fun N' _ H2 _ k2 i2 => ?_
  obtain ⟨A, k, hx, rfl⟩ := i2.obj
  refine Sim.congr (H1 := H2) (getObj_run i2.lt _) (Sim.congr (H1 := H2) (contents_run _ _) ?_)
  rw [hx]
  refine Sim.lift k2.sound fun arc _ => ?_
  refine (extend_alloc_sim k2.sound i2 (k := arc.knotNd 0) (k' := knotArr (arc.len 0) (arc.U 0)) ⟨rfl, fun _ => rfl⟩
    fun R hR => ctor_longer hR).bind (b' := fun n => n = H2.no) (fun o ho e => by omega) fun R n H3 _ k3 q => ?_
  obtain ⟨rfl, q2, -⟩ := q
  have e : ∀ r : Res (Mat4 ℝ), (r >>= fun M => pure (R.transform M)) = ((r >>= fun M => Except.ok (R.transform M)) >>= fun R => pure R) := fun r => by
    cases r <;> rfl
  rw [e]
  refine (transform_sim k3.sound q2 (Transform.inverse T)).bind (b' := fun _ => False) (fun _ _ h => h.elim) fun R' _ H4 _ k4 q4 => ?_
  refine Sim.ok k4.sound ⟨?_, q4⟩
  have := k1.no; have := k2.no; omega

theorem make_sim {d : ℕ} {H : Heap K} (hs : H.Sound) (r : Res (Nrb K d)) :
    Sim (fun _ => False) H (make r) r (fun R n H' => H.no ≤ n ∧ Is H' n R) := by
  cases r with
  | error e => exact ⟨H, rfl, Kept.refl hs⟩
  | ok R =>
    have e : make (.ok R) H = newObj ⟨d, H.na + d, fun a => H.na + a⟩
        (alloc (netArr R) (allocAll (fun a => knotArr (R.len a) (R.U a)) H).2).2 := rfl
    refine ⟨_, _, e, ⟨Nat.le_succ _, ?_, fun i hi => ?_, fun o ho _ => Function.update_of_ne (by
        show o ≠ H.no; omega) _ _, fun o ho i hi => ?_⟩, le_rfl, Nat.lt_succ_self _, ?_⟩
    · show H.na ≤ H.na + d + 1; omega
    · show Function.update _ (H.na + d) _ i = _
      rw [Function.update_of_ne (by omega)]
      show (if h : _ then _ else _) = _
      rw [dif_neg (by omega)]
    · change o < H.no + 1 at ho
      change (Function.update H.obj H.no _ o).Uses i at hi
      show i < H.na + d + 1
      by_cases e : o = H.no
      · rw [e, Function.update_self] at hi
        rcases hi with rfl | ⟨a, rfl⟩
        · dsimp only; omega
        · have := a.2; dsimp only at this ⊢; omega
      · rw [Function.update_of_ne e] at hi
        have := hs o (by omega) i hi; omega
    · refine (newObj_view (H := (alloc (netArr R) (allocAll (fun a => knotArr (R.len a) (R.U a)) H).2).2) _).trans
        (Sigma.ext rfl (heq_of_eq ?_))
      refine nrb_eq (Function.update_self _ _ _) fun a => ?_
      have ha := a.2
      have : (alloc (netArr R) (allocAll (fun a => knotArr (R.len a) (R.U a)) H).2).2.arr (H.na + a) =
          knotArr (R.len a) (R.U a) := by
        show Function.update _ (H.na + d) _ _ = _
        rw [Function.update_of_ne (by omega)]
        show (if h : _ then _ else _) = _
        rw [dif_pos (by omega)]
        have : (⟨H.na + (a : ℕ) - H.na, by omega⟩ : Fin d) = a := Fin.ext (by show _ - _ = _; omega)
        rw [this]
      rw [this]
      exact ⟨rfl, fun _ => rfl⟩

/-- two objects -/
theorem is_pair {d o1 o2 : ℕ} {H : Heap K} {N1 N2 : Nrb K d} (h1 : Is H o1 N1) (h2 : Is H o2 N2) :
    ∀ i : Fin 2, Is H (![o1, o2] i) (![N1, N2] i) := fun i => by
  refine Fin.cases h1 (fun j => ?_) i
  obtain rfl : j = 0 := Subsingleton.elim _ _
  exact h2

theorem is_three {d o1 o2 o3 : ℕ} {H : Heap K} {N1 N2 N3 : Nrb K d} (h1 : Is H o1 N1) (h2 : Is H o2 N2) (h3 : Is H o3 N3) :
    ∀ i : Fin 3, Is H (![o1, o2, o3] i) (![N1, N2, N3] i) := fun i => by
  refine Fin.cases h1 (fun j => ?_) i
  exact is_pair h2 h3 j

/-- a new net and the knot vectors of an object -/
theorem rebuild_sim {d o : ℕ} {H : Heap K} (hs : H.Sound) {N : Nrb K d} (h : Is H o N) {r : Res (Nrb K d)}
    (hr : ∀ R, r = .ok R → R.len = N.len ∧ R.U = N.U) :
    Sim (fun _ => False) H (do
      let x ← getObj o
      let R ← lift r
      let A ← alloc (netArr R)
      newObj ⟨x.d, A, x.knots⟩) r (fun R n H' => H.no ≤ n ∧ Is H' n R) := by
  obtain ⟨A0, k, hx, hN⟩ := h.obj
  refine Sim.congr (H1 := H) (getObj_run h.lt _) ?_
  rw [hx]
  have hu := hs o h.lt
  rw [hx] at hu
  cases r with
  | error e => exact ⟨H, rfl, Kept.refl hs⟩
  | ok R =>
    obtain ⟨l1, l2⟩ := hr R rfl
    refine ⟨H.no, (newObj ⟨d, H.na, k⟩ (alloc (netArr R) H).2).2, rfl, ⟨Nat.le_succ _, Nat.le_succ _, fun i hi =>
      Function.update_of_ne (by omega) _ _, fun o ho _ => Function.update_of_ne (by show o ≠ H.no; omega) _ _,
      fun o ho i hi => ?_⟩, le_rfl, Nat.lt_succ_self _, ?_⟩
    · change o < H.no + 1 at ho
      change (Function.update H.obj H.no _ o).Uses i at hi
      show i < H.na + 1
      by_cases e : o = H.no
      · rw [e, Function.update_self] at hi
        rcases hi with rfl | ⟨a, rfl⟩
        · exact Nat.lt_succ_self _
        · have := hu (k a) (Or.inr ⟨a, rfl⟩); dsimp only; omega
      · rw [Function.update_of_ne e] at hi
        have := hs o (by omega) i hi; omega
    · refine (newObj_view (H := (alloc (netArr R) H).2) _).trans (Sigma.ext rfl (heq_of_eq ?_))
      refine nrb_eq (Function.update_self _ _ _) fun a => ?_
      have := hu (k a) (Or.inr ⟨a, rfl⟩)
      have e : (alloc (netArr R) H).2.arr (k a) = H.arr (k a) := Function.update_of_ne (by omega) _ _
      rw [e, l1, l2, ← hN]
      exact ⟨rfl, fun _ => rfl⟩

theorem coons_sim {o00 o01 o10 o11 : ℕ} {H : Heap K} (hs : H.Sound) {C00 C01 C10 C11 : Nrb K 1} (h00 : Is H o00 C00)
    (h01 : Is H o01 C01) (h10 : Is H o10 C10) (h11 : Is H o11 C11) (env : Env K) (S : CoonsScratch K) :
    Sim (fun _ => False) H (coons env S o00 o01 o10 o11) (Igakit.Cad.coons env.eps S.mem C00 C01 C10 C11)
      (fun R n H' => H.no ≤ n ∧ Is H' n R) := by
  unfold coons Igakit.Cad.coons
  refine (compat_sim hs (is_pair h00 h01) env (S.pair 0 0) (S.pair 0 1) none).bind (b' := fun _ => False) (fun _ _ h => h)
    fun A a H1 _ k1 ha => ?_
  refine (compat_sim k1.sound (is_pair (h10.kept hs k1 id) (h11.kept hs k1 id)) env (S.pair 1 0) (S.pair 1 1) none).bind
    (b' := fun _ => False) (fun _ _ h => h) fun B b H2 _ k2 hb => ?_
  have ia : ∀ i, Is H2 (a i) (A i) := fun i => (ha.1 i).2.kept k1.sound k2 id
  have ib : ∀ i, Is H2 (b i) (B i) := fun i => (hb.1 i).2
  refine Sim.read (numbers_all ia) (Sim.read (numbers_all ib) ?_)
  refine Sim.lift k2.sound fun P _ => Sim.lift k2.sound fun Q _ => Sim.lift k2.sound fun _ _ => ?_
  refine (ruled_sim k2.sound (ia 0) (ia 1) env (S.pair 2 0) (S.pair 2 1)).bind (b' := fun n => H2.no ≤ n)
    (fun o ho h => by omega) fun R0 r0 H3 _ k3 h3 => ?_
  have ib3 : ∀ i, Is H3 (b i) (B i) := fun i => (ib i).kept k2.sound k3 id
  refine ((transpose_sim k3.sound h3.2 none).mono (b' := fun n => H2.no ≤ n) (fun o _ e => by omega)
    (Q' := fun N _ H' => Kept (fun n => n = r0) H3 H' ∧ Is H' r0 N) fun N _ H' hk h => ⟨hk, h⟩).bind
    (b' := fun _ => False) (fun _ _ h => h.elim) fun R0' _ H4 _ _ h4 => ?_
  obtain ⟨k4, h4⟩ := h4
  have ib4 : ∀ i, Is H4 (b i) (B i) := fun i => (ib3 i).kept k3.sound k4 (by
    have := (ib i).lt; have := h3.1; omega)
  refine (ruled_sim k4.sound (ib4 0) (ib4 1) env (S.pair 3 0) (S.pair 3 1)).bind (b' := fun _ => False)
    (fun o ho h => h.elim) fun R1 r1 H5 _ k5 h5 => ?_
  have i0 : Is H5 r0 R0' := h4.kept k4.sound k5 id
  refine (make_sim k5.sound _).bind (b' := fun _ => False) (fun o ho h => h.elim) fun Bl bl H6 _ k6 h6 => ?_
  refine (compat_sim k6.sound (is_three (i0.kept k5.sound k6 id) (h5.2.kept k5.sound k6 id) h6.2) env (S.three 0) (S.three 1)
    none).bind (b' := fun _ => False) (fun _ _ h => h) fun R r H7 _ k7 h7 => ?_
  refine Sim.read (numbers_all fun i => (h7.1 i).2) ?_
  refine (rebuild_sim k7.sound (h7.1 2).2 fun X hX => ?_).mono (fun _ _ h => h) fun X n H' _ q => ⟨?_, q.2⟩
  · unfold Igakit.Cad.addSub at hX
    split_ifs at hX with hsh
    exact ctor_fields hX
  · have := k1.no; have := k2.no; have := k3.no; have := k4.no; have := k5.no; have := k6.no; have := k7.no; have := q.1
    omega

theorem refine_cad_sim {d o : ℕ} {H : Heap K} (hs : H.Sound) {N : Nrb K (d + 1)} (h : Is H o N) (env : Env K)
    (S : RefScratch K) (factor : PyArg Factor) (degree continuity : PyArg ℤ) :
    Sim (fun _ => False) H (Cad.refine env S d o factor degree continuity)
      (Igakit.Cad.refine env.eps S.mem N factor degree continuity) (fun R n H' => H.no ≤ n ∧ Is H' n R) := by
  unfold Cad.refine Igakit.Cad.refine
  obtain ⟨H1, e1, k1, i1, -⟩ := clone_run hs h
  refine Sim.step e1 k1 (b' := fun n => n = H.no) (fun o ho e => by omega) ?_
  dsimp only
  refine (forEach_sim (o := H.no) (f := fun a : Fin (d + 1) => Heap.clamp env (S.clamp a) H.no ((a : ℕ) : ℤ) none)
    (fun a H2 X hs2 h2 => clamp_sim hs2 h2 env (S.clamp a) _ _) (List.finRange (d + 1)) H1 N k1.sound i1).bind
    (fun _ _ h => h) fun X _ H2 _ k2 i2 => ?_
  refine Sim.read (numbers_run i2) ?_
  refine Sim.lift k2.sound fun deg _ => Sim.lift k2.sound fun _ _ => ?_
  refine (forEach_sim (o := H.no) (v := Igakit.Cad.refineDegree env.eps S.mem deg) (fun a H3 X hs3 h3 => ?_) (List.finRange (d + 1)) H2 X
    k2.sound i2).bind (fun _ _ h => h) fun X' _ H3 _ k3 i3 => ?_
  · refine Sim.read (numbers_run h3) ?_
    unfold Igakit.Cad.refineDegree
    exact Sim.ite (fun _ => elevate_sim hs3 h3 env (S.elevate a) _ _) fun _ => Sim.ok hs3 h3
  refine Sim.read (numbers_run i3) ?_
  refine Sim.lift k3.sound fun fac _ => Sim.lift k3.sound fun _ _ => Sim.lift k3.sound fun con _ => Sim.lift k3.sound fun _ _ =>
    Sim.lift k3.sound fun _ _ => ?_
  have e : ∀ r : Res (Nrb K (d + 1)), r = (r >>= fun R => pure R) := fun r => by cases r <;> rfl
  rw [e (List.foldlM _ _ _)]
  refine (forEach_sim (o := H.no) (v := Igakit.Cad.refineKnots env.eps S.mem fac
    (fun a => if con a < 0 then con a + X'.degree a else con a)) (fun a H4 Y hs4 h4 => ?_) (List.finRange (d + 1)) H3 X'
    k3.sound i3).bind (b' := fun _ => False) (fun _ _ h => h.elim) fun Y _ H4 _ k4 i4 => Sim.ok k4.sound ⟨le_rfl, i4⟩
  refine Sim.read (numbers_run h4) ?_
  unfold Igakit.Cad.refineKnots
  exact Sim.lift hs4 fun us _ => Sim.lift hs4 fun _ _ => refine_sim hs4 h4 env (S.refine a) _ _

theorem concat_fields {d : ℕ} {a : Fin (d + 1)} {p : ℤ} {u : K} {X1 X2 J : Nrb K (d + 1)}
    (h : Igakit.Cad.concat a p u X1 X2 = .ok J) : ∀ b, b ≠ a → J.len b = X1.len b ∧ J.U b = X1.U b := by
  unfold Igakit.Cad.concat at h
  split_ifs at h
  cases h
  exact fun b hb => ⟨Function.update_of_ne hb _ _, Function.update_of_ne hb _ _⟩

/-- cad.py:643-672 on the heap -/
theorem concat_run {d o : ℕ} {H : Heap K} (hs : H.Sound) {N J : Nrb K (d + 1)} (h : Is H o N) {a : Fin (d + 1)}
    (hJ : ∀ b, b ≠ a → J.len b = N.len b ∧ J.U b = N.U b) :
    ∃ H', (do
      let x ← getObj o
      let V ← alloc (knotArr (J.len a) (J.U a))
      let A ← alloc (netArr J)
      newObj ⟨x.d, A, fun b => if (b : ℕ) = a then V else x.knots b⟩ : HM K ℕ) H = (.ok H.no, H') ∧
      Kept (fun _ => False) H H' ∧ Is H' H.no J ∧ (∀ i, (H'.obj H.no).Uses i → (H.obj o).Uses i ∨ H.na ≤ i) ∧
      H.na ≤ (H'.obj H.no).arr := by
  obtain ⟨A0, k, hx, hN⟩ := h.obj
  have hu := hs o h.lt
  rw [hx] at hu
  let y : Obj := ⟨d + 1, H.na + 1, fun b => if (b : ℕ) = a then H.na else k b⟩
  let H1 : Heap K := (alloc (netArr J) (alloc (knotArr (J.len a) (J.U a)) H).2).2
  have harr : ∀ i < H.na, H1.arr i = H.arr i := fun i hi =>
    (Function.update_of_ne (by show i ≠ H.na + 1; omega) _ _).trans (Function.update_of_ne (by omega) _ _)
  have huse : ∀ i, y.Uses i → (H.obj o).Uses i ∨ H.na ≤ i ∧ i < H.na + 2 := by
    rintro i (rfl | ⟨b, rfl⟩)
    · right; show H.na ≤ H.na + 1 ∧ H.na + 1 < H.na + 2; omega
    · show (H.obj o).Uses (if (b : ℕ) = a then H.na else k b) ∨ H.na ≤ (if (b : ℕ) = a then H.na else k b) ∧
        (if (b : ℕ) = a then H.na else k b) < H.na + 2
      by_cases hb : (b : ℕ) = a
      · rw [if_pos hb]; right; omega
      · rw [if_neg hb]; left; rw [hx]; exact Or.inr ⟨b, rfl⟩
  refine ⟨(newObj y H1).2, ?_, ⟨Nat.le_succ _, ?_, harr, fun o ho _ =>
    Function.update_of_ne (by show o ≠ H.no; omega) _ _, fun o' ho' i hi => ?_⟩, ⟨Nat.lt_succ_self _, ?_⟩, fun i hi => ?_, ?_⟩
  · rw [getObj_run h.lt, hx]
    rfl
  · show H.na ≤ H.na + 2; omega
  · change o' < H.no + 1 at ho'
    change (Function.update H.obj H.no y o').Uses i at hi
    show i < H.na + 2
    by_cases e : o' = H.no
    · rw [e, Function.update_self] at hi
      rcases huse i hi with h1 | h1
      · have := hs o h.lt i h1; omega
      · exact h1.2
    · rw [Function.update_of_ne e] at hi
      have := hs o' (by omega) i hi; omega
  · refine (newObj_view (H := H1) y).trans (Sigma.ext rfl (heq_of_eq ?_))
    refine nrb_eq (Function.update_self _ _ _) fun b => ?_
    by_cases hb : b = a
    · have e : H1.arr (if (b : ℕ) = a then H.na else k b) = knotArr (J.len a) (J.U a) := by
        rw [if_pos (by rw [hb])]
        exact (Function.update_of_ne (by show H.na ≠ H.na + 1; omega) _ _).trans (Function.update_self _ _ _)
      rw [e, hb]
      exact ⟨rfl, fun _ => rfl⟩
    · have e : H1.arr (if (b : ℕ) = a then H.na else k b) = H.arr (k b) := by
        rw [if_neg fun e => hb (Fin.ext e)]
        exact harr _ (hu _ (Or.inr ⟨b, rfl⟩))
      rw [e, (hJ b hb).1, (hJ b hb).2, ← hN]
      exact ⟨rfl, fun _ => rfl⟩
  · change (Function.update H.obj H.no y H.no).Uses i at hi
    rw [Function.update_self] at hi
    exact (huse i hi).imp id And.left
  · show H.na ≤ (Function.update H.obj H.no y H.no).arr
    rw [Function.update_self]
    exact Nat.le_succ _

theorem join_sim {d o1 o2 : ℕ} {H : Heap ℝ} (hs : H.Sound) {N1 N2 : Nrb ℝ (d + 1)} (h1 : Is H o1 N1) (h2 : Is H o2 N2)
    (eps : ℝ) (S : JoinScratch ℝ) (axis : ℤ) :
    Sim (fun _ => False) H (join (Env.real eps) S d o1 o2 axis) (Igakit.Cad.join eps S.mem N1 N2 axis)
      (fun R n H' => H.no ≤ n ∧ Is H' n R) := by
  unfold join Igakit.Cad.join Igakit.Cad.joinRaw
  simp only [bind_assoc]
  refine Sim.lift hs fun _ _ => Sim.lift hs fun a ha => ?_
  refine (compat_sim hs (is_pair h1 h2) (Env.real eps) (S.compat 0) (S.compat 1) (some (Igakit.Cad.otherAxes a))).bind
    (b' := fun n => H.no ≤ n) (fun o ho h => by omega) fun N c H1 _ k1 hc => ?_
  have ne : c 1 ≠ c 0 := fun e => absurd (hc.2 e) (by decide)
  have c0 := (hc.1 0).1
  have c1 := (hc.1 1).1
  refine ((clamp_sim k1.sound (hc.1 0).2 (Env.real eps) (S.clamp 0) axis (some 1)).mono (b' := fun n => H.no ≤ n)
    (fun o _ e => by omega) (Q' := fun N _ H' => Kept (fun n => n = c 0) H1 H' ∧ Is H' (c 0) N)
    fun N _ H' hk h => ⟨hk, h⟩).bind (fun _ _ h => h) fun X1 _ H2 _ _ q2 => ?_
  obtain ⟨k2, i2⟩ := q2
  have j2 : Is H2 (c 1) (N 1) := (hc.1 1).2.kept k1.sound k2 ne
  refine ((clamp_sim k2.sound j2 (Env.real eps) (S.clamp 1) axis (some 0)).mono (b' := fun n => H.no ≤ n)
    (fun o _ e => by omega) (Q' := fun N _ H' => Kept (fun n => n = c 1) H2 H' ∧ Is H' (c 1) N)
    fun N _ H' hk h => ⟨hk, h⟩).bind (fun _ _ h => h) fun X2 _ H3 _ _ q3 => ?_
  obtain ⟨k3, j3⟩ := q3
  have i3 : Is H3 (c 0) X1 := i2.kept k2.sound k3 ne.symm
  refine Sim.read (numbers_run i3) (Sim.read (numbers_run j3) ?_)
  refine ((remap_sim k3.sound j3 axis (some (X2.lo a + X1.hi a)) (some (X2.hi a + X1.hi a))).mono (b' := fun n => H.no ≤ n)
    (fun o _ e => by omega) (Q' := fun N _ H' => Kept (fun n => n = c 1) H3 H' ∧ Is H' (c 1) N)
    fun N _ H' hk h => ⟨hk, h⟩).bind (fun _ _ h => h) fun X2' _ H4 _ _ q4 => ?_
  obtain ⟨k4, j4⟩ := q4
  have i4 : Is H4 (c 0) X1 := i3.kept k3.sound k4 ne.symm
  refine ((elevate_sim k4.sound i4 (Env.real eps) (S.elevate 0) axis _).mono (b' := fun n => H.no ≤ n)
    (fun o _ e => by omega) (Q' := fun N _ H' => Kept (fun n => n = c 0) H4 H' ∧ Is H' (c 0) N)
    fun N _ H' hk h => ⟨hk, h⟩).bind (fun _ _ h => h) fun Y1 _ H5 _ _ q5 => ?_
  obtain ⟨k5, i5⟩ := q5
  have j5 : Is H5 (c 1) X2' := j4.kept k4.sound k5 ne
  refine ((elevate_sim k5.sound j5 (Env.real eps) (S.elevate 1) axis _).mono (b' := fun n => H.no ≤ n)
    (fun o _ e => by omega) (Q' := fun N _ H' => Kept (fun n => n = c 1) H5 H' ∧ Is H' (c 1) N)
    fun N _ H' hk h => ⟨hk, h⟩).bind (fun _ _ h => h) fun Y2 _ H6 _ _ q6 => ?_
  obtain ⟨k6, j6⟩ := q6
  have i6 : Is H6 (c 0) Y1 := i5.kept k5.sound k6 ne.symm
  refine Sim.read (numbers_run i6) (Sim.read (numbers_run j6) ?_)
  refine Sim.lift k6.sound fun J hJ => ?_
  obtain ⟨H7, e7, k7, i7, -⟩ := concat_run k6.sound i6 (concat_fields hJ)
  have hno : H.no ≤ H6.no := by
    have := k1.no; have := k2.no; have := k3.no; have := k4.no; have := k5.no; have := k6.no; omega
  have e7' : ∀ f : ℕ → HM ℝ ℕ, (do
      let x ← getObj (c 0)
      let V ← alloc (knotArr (J.len a) (J.U a))
      let A ← alloc (netArr J)
      let r ← newObj ⟨x.d, A, fun b => if (b : ℕ) = a then V else x.knots b⟩
      f r : HM ℝ ℕ) H6 = f H6.no H7 := by
    intro f
    obtain ⟨A0, k, hx, -⟩ := i6.obj
    rw [getObj_run i6.lt] at e7 ⊢
    have := congrArg Prod.snd e7
    dsimp only at this
    rw [← this]
    rfl
  have hrem := remove_sim k7.sound i7 (Env.real eps) S.remove axis (X1.hi a) (some (J.degree a - 1)) (1 / 10 ^ 9)
  have e : ∀ r : Res (Nrb ℝ (d + 1)), r = (r >>= fun R => pure R) := fun r => by cases r <;> rfl
  have hfin : Sim (fun n => H.no ≤ n) H7 (do
      Heap.remove (Env.real eps) S.remove H6.no axis (X1.hi a) (some (J.degree a - 1)) (1 / 10 ^ 9)
      pure H6.no : HM ℝ ℕ) (J.remove eps S.remove.rows axis (X1.hi a) (some (J.degree a - 1)) (1 / 10 ^ 9))
      (fun R n H' => H.no ≤ n ∧ Is H' n R) := by
    rw [e (J.remove _ _ _ _ _ _)]
    refine (hrem.mono (b' := fun n => H.no ≤ n) (fun o _ e => by omega) (fun _ _ _ _ h => h)).bind (b' := fun _ => False)
      (fun _ _ h => h.elim) fun R _ H8 _ k8 h8 => Sim.ok k8.sound ⟨hno, h8⟩
  have ev : ∀ (f : ℝ × Nrb ℝ (d + 1) → Res (Nrb ℝ (d + 1))), ((pure (X1.hi a, J) : Res _) >>= f) = f (X1.hi a, J) := fun f => rfl
  rw [ev]
  dsimp only
  rw [ha, res_ok_bind]
  have hk67 : Kept (fun n => H.no ≤ n) H6 H7 := k7.mono fun _ _ h => h.elim
  have hr7 := e7' (fun r => do
      Heap.remove (Env.real eps) S.remove r axis (X1.hi a) (some (J.degree a - 1)) (1 / 10 ^ 9)
      pure r)
  have em : (S.mem (d := d)).remove = S.remove.rows := rfl
  rw [em]
  unfold Sim at hfin ⊢
  revert hfin
  generalize J.remove eps S.remove.rows axis (X1.hi a) (some (J.degree a - 1)) (1 / 10 ^ 9) = r
  cases r with
  | error e =>
    rintro ⟨H8, f1, f2⟩
    exact ⟨H8, hr7.trans f1, hk67.trans f2 (fun _ _ h => h) (fun _ _ h => h)⟩
  | ok R =>
    rintro ⟨n, H8, f1, f2, f3⟩
    exact ⟨n, H8, hr7.trans f1, hk67.trans f2 (fun _ _ h => h) (fun _ _ h => h), f3⟩

end Cad
end Heap
end Igakit
