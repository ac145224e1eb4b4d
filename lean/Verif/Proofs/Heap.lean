import Verif.Spec.Heap
import Verif.Proofs.Nrb

/-! # Methods on the heap -/

set_option linter.unusedSectionVars false

namespace Igakit

variable {K : Type} [Field K] [LinearOrder K]

theorem Nrb.remove_eq {d : ℕ} (eps : ℝ) (jt : ℤ → (Fin d → ℤ) → ℕ → ℝ) (N : Nrb ℝ (d + 1)) (axis : ℤ) (value : ℝ)
    (times : Option ℤ) (dev : ℝ) :
    N.remove eps jt axis value times dev = N.removeNear eps jt (Env.real eps).near axis value times dev := rfl

namespace Heap

theorem bind_run {α β : Type} (m : HM K α) (f : α → HM K β) (H : Heap K) :
    (m >>= f) H = match m H with
      | (.ok x, H') => f x H'
      | (.error e, H') => (.error e, H') := rfl

theorem bind_ok {α β : Type} {m : HM K α} {f : α → HM K β} {H H' : Heap K} {x : α} (h : m H = (.ok x, H')) :
    (m >>= f) H = f x H' := by rw [bind_run, h]

theorem bind_err {α β : Type} {m : HM K α} {f : α → HM K β} {H H' : Heap K} {e : Err} (h : m H = (.error e, H')) :
    (m >>= f) H = (.error e, H') := by rw [bind_run, h]

/-- only new arrays were made -/
structure Grown (H H1 : Heap K) : Prop where
  obj : H1.obj = H.obj
  no : H1.no = H.no
  na : H.na ≤ H1.na
  arr : ∀ i < H.na, H1.arr i = H.arr i

/-- new arrays were made, and object `o` is now `y` -/
structure After (H H' : Heap K) (o : ℕ) (y : Obj) : Prop where
  obj : H'.obj = Function.update H.obj o y
  no : H'.no = H.no
  na : H.na ≤ H'.na
  arr : ∀ i < H.na, H'.arr i = H.arr i
  uses : ∀ i, y.Uses i → (H.obj o).Uses i ∨ (H.na ≤ i ∧ i < H'.na)

/-- the statement, run on `H1`, does what the function says; the heap was `H` at the beginning of the method -/
def Does (H : Heap K) (o : ℕ) {d : ℕ} (m : HM K Unit) (H1 : Heap K) (r : Res (Nrb K d)) : Prop :=
  match r with
  | .error e => ∃ H', m H1 = (.error e, H') ∧ Grown H H'
  | .ok N => ∃ H' A k, m H1 = (.ok (), H') ∧ After H H' o ⟨d, A, k⟩ ∧ H'.nrb ⟨d, A, k⟩ = N

theorem Grown.refl (H : Heap K) : Grown H H := ⟨rfl, rfl, le_rfl, fun _ _ => rfl⟩

theorem Does.lift {H H1 : Heap K} {o d : ℕ} {α : Type} {r : Res α} {f : α → HM K Unit} {g : α → Res (Nrb K d)}
    (hg : Grown H H1) (h : ∀ y, r = .ok y → Does H o (f y) H1 (g y)) : Does H o (Heap.lift r >>= f) H1 (r >>= g) := by
  cases r with
  | error e => exact ⟨H1, rfl, hg⟩
  | ok y => exact h y rfl

theorem Does.throw {H H1 : Heap K} {o d : ℕ} {e : Err} (hg : Grown H H1) :
    Does (d := d) H o (Heap.lift (throw e)) H1 (.error e) := ⟨H1, rfl, hg⟩

theorem Does.ite {H H1 : Heap K} {o d : ℕ} {c : Prop} [Decidable c] {m1 m2 : HM K Unit} {r1 r2 : Res (Nrb K d)}
    (h1 : c → Does H o m1 H1 r1) (h2 : ¬ c → Does H o m2 H1 r2) :
    Does H o (if c then m1 else m2) H1 (if c then r1 else r2) := by
  by_cases h : c
  · rw [if_pos h, if_pos h]; exact h1 h
  · rw [if_neg h, if_neg h]; exact h2 h

theorem nrb_congr {H H' : Heap K} {x : Obj} (h : ∀ i, x.Uses i → H'.arr i = H.arr i) : H'.nrb x = H.nrb x := by
  unfold nrb
  rw [h _ (Or.inl rfl)]
  have : ∀ a, H'.arr (x.knots a) = H.arr (x.knots a) := fun a => h _ (Or.inr ⟨a, rfl⟩)
  simp only [this]

theorem Does.keep {H H1 : Heap K} {o d : ℕ} {A : ℕ} {k : Fin d → ℕ} (hx : H.obj o = ⟨d, A, k⟩)
    (hs : ∀ i, (H.obj o).Uses i → i < H.na) (hg : Grown H H1) :
    Does H o (pure ()) H1 (.ok (H.nrb ⟨d, A, k⟩)) := by
  refine ⟨H1, A, k, rfl, ⟨?_, hg.no, hg.na, hg.arr, fun i hi => Or.inl (hx ▸ hi)⟩, nrb_congr fun i hi => hg.arr i (hs i (hx ▸ hi))⟩
  rw [hg.obj, ← hx, Function.update_eq_self]

theorem netArr_shape {d : ℕ} (N : Nrb K d) (a : Fin d) : (netArr N).shape.getD a 0 = N.shape a := by
  unfold netArr
  rw [List.getD_eq_getElem?_getD, List.getElem?_append_left (by simp), List.getElem?_ofFn]
  simp

theorem netArr_nc {d : ℕ} (N : Nrb K d) : ((netArr N).shape.getLastD 0).toNat = N.nc := by simp [netArr]

theorem netArr_get {d : ℕ} (N : Nrb K d) (idx : Fin d → ℤ) (c : ℕ) : (netArr N).get (List.ofFn idx ++ [(c : ℤ)]) = N.P idx c := by
  unfold netArr
  have : (fun a : Fin d => (List.ofFn idx ++ [(c : ℤ)]).getD a 0) = idx := by
    funext a
    rw [List.getD_eq_getElem?_getD, List.getElem?_append_left (by simp), List.getElem?_ofFn]
    simp
  simp only [this, List.getLastD_concat, Int.toNat_natCast]

theorem nrb_eq {H : Heap K} {d : ℕ} {A : ℕ} {k : Fin d → ℕ} {N : Nrb K d} (hA : H.arr A = netArr N)
    (hk : ∀ a, (H.arr (k a)).shape.headD 0 = N.len a ∧ ∀ j, (H.arr (k a)).get [j] = N.U a j) : H.nrb ⟨d, A, k⟩ = N := by
  unfold nrb
  obtain ⟨shape, nc, len, U, P⟩ := N
  simp only [Nrb.mk.injEq]
  rw [hA]
  refine ⟨funext fun a => netArr_shape _ a, netArr_nc _, funext fun a => (hk a).1, funext fun a => funext fun j => (hk a).2 j,
    funext fun idx => funext fun c => netArr_get _ idx c⟩

theorem Does.assign {H H1 : Heap K} {o d : ℕ} {A : ℕ} {k : Fin d → ℕ} (hx : H.obj o = ⟨d, A, k⟩)
    (hs : ∀ i, (H.obj o).Uses i → i < H.na) (hg : Grown H H1) (a : Fin d) (N' : Nrb K d)
    (hN : ∀ b, b ≠ a → N'.len b = (H.nrb ⟨d, A, k⟩).len b ∧ N'.U b = (H.nrb ⟨d, A, k⟩).U b) :
    Does H o (Heap.assign o k a N') H1 (.ok N') := by
  have hna := hg.na
  have hk : ∀ b, k b < H.na := fun b => hs _ (hx ▸ Or.inr ⟨b, rfl⟩)
  refine ⟨_, H1.na + 1, Function.update k a H1.na, rfl, ⟨?_, hg.no, ?_, ?_, ?_⟩, ?_⟩
  · dsimp only
    rw [Function.update_self, Function.update_idem, hg.obj]
  · dsimp only; omega
  · intro i hi
    dsimp only
    rw [Function.update_of_ne (by omega), Function.update_of_ne (by omega), hg.arr i hi]
  · rintro i (rfl | ⟨b, rfl⟩)
    · right; dsimp only; omega
    · dsimp only
      by_cases hb : b = a
      · rw [hb, Function.update_self]; right; omega
      · rw [Function.update_of_ne hb]; left; rw [hx]; exact Or.inr ⟨b, rfl⟩
  · apply nrb_eq
    · dsimp only; rw [Function.update_self]
    · intro b
      dsimp only
      by_cases hb : b = a
      · rw [hb, Function.update_self, Function.update_of_ne (by omega), Function.update_self]
        exact ⟨rfl, fun j => rfl⟩
      · have := hk b
        rw [Function.update_of_ne hb, Function.update_of_ne (by omega), Function.update_of_ne (by omega), hg.arr _ this,
          (hN b hb).1, (hN b hb).2]
        exact ⟨rfl, fun j => rfl⟩

/-- a method whose first statement reads the references -/
theorem getObj_run {H : Heap K} {o : ℕ} (ho : o < H.no) {β : Type} (f : Obj → HM K β) :
    (getObj o >>= f) H = f (H.obj o) H := by
  rw [bind_run, getObj, if_pos ho]

theorem contents_run {H1 : Heap K} (x : Obj) {β : Type} (f : Nrb K x.d → HM K β) :
    (contents x >>= f) H1 = f (H1.nrb x) H1 := rfl

section methods
variable {H : Heap K} {o d : ℕ} {A : ℕ}

theorem Does.congr {H1 H2 : Heap K} {m m' : HM K Unit} {r : Res (Nrb K d)} (h : m H1 = m' H2) (hd : Does H o m' H2 r) :
    Does H o m H1 r := by
  cases r with
  | error e => obtain ⟨H', h1, h2⟩ := hd; exact ⟨H', h.trans h1, h2⟩
  | ok N => obtain ⟨H', A, k, h1, h2⟩ := hd; exact ⟨H', A, k, h.trans h1, h2⟩

theorem setAxis_other {d : ℕ} (N : Nrb K (d + 1)) (a : Fin (d + 1)) (sh len : ℤ) (V : ℤ → K) (Q : ℤ → (Fin d → ℤ) → ℕ → K) :
    ∀ b, b ≠ a → (N.setAxis a sh len V Q).len b = N.len b ∧ (N.setAxis a sh len V Q).U b = N.U b := fun b hb =>
  ⟨Function.update_of_ne hb _ _, Function.update_of_ne hb _ _⟩

variable (ho : o < H.no) (hs : ∀ i, (H.obj o).Uses i → i < H.na)
include ho hs

theorem insert_does {k : Fin (d + 1) → ℕ} (hx : H.obj o = ⟨d + 1, A, k⟩) (env : Env K) (jn : Scratch K) (axis : ℤ) (value : K)
    (times : Option ℤ) : Does H o (Heap.insert env jn o axis value times) H
      ((H.nrb ⟨d + 1, A, k⟩).insert env.eps jn.k jn.rows axis value times) := by
  refine Does.congr ((getObj_run ho _).trans (by rw [hx])) ?_
  have g := Grown.refl H
  unfold Nrb.insert
  refine Does.lift g fun a _ => Does.congr (contents_run _ _) ?_
  refine Does.lift g fun _ _ => Does.lift g fun m _ => Does.lift g fun _ _ => Does.ite (fun _ => Does.keep hx hs g) fun _ => ?_
  exact Does.lift g fun VQ _ => Does.assign hx hs g a _ (setAxis_other _ _ _ _ _ _)

theorem remove_does {k : Fin (d + 1) → ℕ} (hx : H.obj o = ⟨d + 1, A, k⟩) (env : Env K) (jn : Scratch K) (axis : ℤ) (value : K)
    (times : Option ℤ) (dev : K) : Does H o (Heap.remove env jn o axis value times dev) H
      ((H.nrb ⟨d + 1, A, k⟩).removeNear env.eps jn.rows env.near axis value times dev) := by
  refine Does.congr ((getObj_run ho _).trans (by rw [hx])) ?_
  have g := Grown.refl H
  unfold Nrb.removeNear
  refine Does.lift g fun a _ => Does.congr (contents_run _ _) ?_
  refine Does.lift g fun _ _ => Does.lift g fun m _ => Does.lift g fun _ _ => Does.ite (fun _ => Does.keep hx hs g) fun _ => ?_
  refine Does.ite (fun _ => Does.keep hx hs g) fun _ => Does.ite (fun _ => Does.keep hx hs g) fun _ => ?_
  exact Does.lift g fun VQ _ => Does.assign hx hs g a _ (setAxis_other _ _ _ _ _ _)

theorem clamp_does {k : Fin (d + 1) → ℕ} (hx : H.obj o = ⟨d + 1, A, k⟩) (env : Env K) (jn : Scratch K) (axis : ℤ)
    (side : Option ℤ) : Does H o (Heap.clamp env jn o axis side) H
      ((H.nrb ⟨d + 1, A, k⟩).clamp env.eps jn.rows axis side) := by
  refine Does.congr ((getObj_run ho _).trans (by rw [hx])) ?_
  have g := Grown.refl H
  unfold Nrb.clamp
  refine Does.lift g fun a _ => Does.congr (contents_run _ _) ?_
  exact Does.lift g fun _ _ => Does.lift g fun VQ _ => Does.assign hx hs g a _ (setAxis_other _ _ _ _ _ _)

theorem unclamp_does {k : Fin (d + 1) → ℕ} (hx : H.obj o = ⟨d + 1, A, k⟩) (env : Env K) (jn : Scratch K) (axis : ℤ)
    (side cont : Option ℤ) : Does H o (Heap.unclamp env jn o axis side cont) H
      ((H.nrb ⟨d + 1, A, k⟩).unclamp env.eps jn.rows axis side cont) := by
  refine Does.congr ((getObj_run ho _).trans (by rw [hx])) ?_
  have g := Grown.refl H
  unfold Nrb.unclamp
  refine Does.lift g fun a _ => Does.congr (contents_run _ _) ?_
  exact Does.lift g fun _ _ => Does.lift g fun _ _ => Does.lift g fun VQ _ =>
    Does.assign hx hs g a _ (setAxis_other _ _ _ _ _ _)

theorem elevate_does {k : Fin (d + 1) → ℕ} (hx : H.obj o = ⟨d + 1, A, k⟩) (env : Env K) (jn : Scratch K) (axis : ℤ)
    (times : Option ℤ) : Does H o (Heap.elevate env jn o axis times) H
      ((H.nrb ⟨d + 1, A, k⟩).elevate env.eps jn.k jn.rows jn.b axis times) := by
  refine Does.congr ((getObj_run ho _).trans (by rw [hx])) ?_
  have g := Grown.refl H
  unfold Nrb.elevate
  cases times with
  | none => exact Does.keep hx hs g
  | some t =>
    refine Does.lift g fun _ _ => Does.ite (fun _ => Does.keep hx hs g) fun _ => ?_
    refine Does.lift g fun a _ => Does.congr (contents_run _ _) ?_
    exact Does.lift g fun VQ _ => Does.assign hx hs g a _ (setAxis_other _ _ _ _ _ _)

theorem remap_does {k : Fin d → ℕ} (hx : H.obj o = ⟨d, A, k⟩) (axis : ℤ) (start stop : Option K) :
    Does H o (Heap.remap o axis start stop) H ((H.nrb ⟨d, A, k⟩).remap axis start stop) := by
  refine Does.congr ((getObj_run ho _).trans (by rw [hx])) ?_
  have g := Grown.refl H
  unfold Nrb.remap
  refine Does.congr (contents_run _ _) ?_
  refine Does.lift g fun a _ => Does.ite (fun _ => Does.keep hx hs g) fun _ => Does.lift g fun _ _ => ?_
  refine ⟨_, A, Function.update k a H.na, rfl, ⟨?_, rfl, Nat.le_succ _, ?_, ?_⟩, ?_⟩
  · dsimp only; rw [hx]
  · intro i hi; exact Function.update_of_ne (by omega) _ _
  · rintro i (rfl | ⟨b, rfl⟩)
    · left; rw [hx]; exact Or.inl rfl
    · dsimp only
      by_cases hb : b = a
      · rw [hb, Function.update_self]; right; omega
      · rw [Function.update_of_ne hb]; left; rw [hx]; exact Or.inr ⟨b, rfl⟩
  · have hA : A < H.na := hs _ (hx ▸ Or.inl rfl)
    have hk : ∀ b, k b < H.na := fun b => hs _ (hx ▸ Or.inr ⟨b, rfl⟩)
    unfold nrb
    dsimp only
    rw [Function.update_of_ne (by omega)]
    simp only [Nrb.mk.injEq, true_and, and_true]
    constructor
    · funext b
      by_cases hb : b = a
      · rw [hb, Function.update_self, Function.update_self]; rfl
      · have := hk b
        rw [Function.update_of_ne hb, Function.update_of_ne (by omega)]
    · funext b j
      by_cases hb : b = a
      · rw [hb, Function.update_self, Function.update_self, Function.update_self]; rfl
      · have := hk b
        rw [Function.update_of_ne hb, Function.update_of_ne hb, Function.update_of_ne (by omega)]

/-- assignment of a new net and of a permutation of the knots -/
theorem Does.relabel {k : Fin d → ℕ} (hx : H.obj o = ⟨d, A, k⟩) (N' : Nrb K d) (σ : Fin d → Fin d)
    (h1 : ∀ b, N'.len b = (H.nrb ⟨d, A, k⟩).len (σ b)) (h2 : ∀ b, N'.U b = (H.nrb ⟨d, A, k⟩).U (σ b)) {B : Nrb K d}
    (hB : netArr B = netArr N') :
    Does H o (do
      let C ← alloc (netArr B)
      setArr o C
      setKnots o (k ∘ σ)) H (.ok N') := by
  have hk : ∀ b, k b < H.na := fun b => hs _ (hx ▸ Or.inr ⟨b, rfl⟩)
  refine ⟨_, H.na, k ∘ σ, rfl, ⟨?_, rfl, Nat.le_succ _, ?_, ?_⟩, ?_⟩
  · dsimp only; rw [Function.update_self, Function.update_idem]
  · intro i hi; exact Function.update_of_ne (by omega) _ _
  · rintro i (rfl | ⟨b, rfl⟩)
    · right; dsimp only; omega
    · left; rw [hx]; exact Or.inr ⟨σ b, rfl⟩
  · apply nrb_eq
    · dsimp only; rw [Function.update_self, hB]
    · intro b
      have := hk (σ b)
      dsimp only [Function.comp]
      rw [Function.update_of_ne (by omega), h1, h2]
      exact ⟨rfl, fun j => rfl⟩

theorem swap_does {k : Fin d → ℕ} (hx : H.obj o = ⟨d, A, k⟩) (i j : ℤ) :
    Does H o (Heap.swap o i j) H ((H.nrb ⟨d, A, k⟩).swap i j) := by
  refine Does.congr ((getObj_run ho _).trans (by rw [hx])) ?_
  have g := Grown.refl H
  unfold Nrb.swap
  refine Does.congr (contents_run _ _) ?_
  refine Does.lift g fun a _ => Does.lift g fun b _ => ?_
  exact Does.relabel ho hs hx _ (Equiv.swap a b) (fun _ => rfl) (fun _ => rfl) rfl

theorem transpose_does {k : Fin d → ℕ} (hx : H.obj o = ⟨d, A, k⟩) (axes : Option (List ℤ)) :
    Does H o (Heap.transpose o axes) H ((H.nrb ⟨d, A, k⟩).transpose axes) := by
  refine Does.congr ((getObj_run ho _).trans (by rw [hx])) ?_
  have g := Grown.refl H
  unfold Nrb.transpose
  refine Does.congr (contents_run _ _) ?_
  refine Does.lift g fun _ _ => Does.lift g fun caxes _ => ?_
  by_cases hn : ¬ caxes.Nodup
  · rw [if_pos hn, if_pos hn]; exact Does.throw g
  · rw [if_neg hn, if_neg hn]
    refine Does.lift g fun kaxes _ => ?_
    by_cases h : (∀ i : Fin d, caxes.getD i 0 < d) ∧ kaxes.length = d
    · rw [dif_pos h, dif_pos h]
      exact Does.relabel ho hs hx ((H.nrb ⟨d, A, k⟩).relabel (fun i => ⟨caxes.getD i 0, h.1 i⟩) fun i => kaxes[(i : ℕ)])
        (fun i => kaxes[(i : ℕ)]) (fun _ => rfl) (fun _ => rfl) rfl
    · rw [dif_neg h, dif_neg h]; exact Does.throw g

theorem transform_does {k : Fin d → ℕ} (hx : H.obj o = ⟨d, A, k⟩) (M : Res (Fin 4 → Fin 4 → K)) :
    Does H o (Heap.transform o M) H (M >>= fun M => .ok ((H.nrb ⟨d, A, k⟩).transform M)) := by
  refine Does.congr ((getObj_run ho _).trans (by rw [hx])) ?_
  have g := Grown.refl H
  refine Does.lift g fun M _ => Does.congr (contents_run _ _) ?_
  have hk : ∀ b, k b < H.na := fun b => hs _ (hx ▸ Or.inr ⟨b, rfl⟩)
  refine ⟨_, H.na, k, rfl, ⟨?_, rfl, Nat.le_succ _, ?_, ?_⟩, ?_⟩
  · dsimp only; rw [hx]
  · intro i hi; exact Function.update_of_ne (by omega) _ _
  · rintro i (rfl | ⟨b, rfl⟩)
    · right; dsimp only; omega
    · left; rw [hx]; exact Or.inr ⟨b, rfl⟩
  · apply nrb_eq
    · dsimp only; rw [Function.update_self]
    · intro b
      have := hk b
      dsimp only
      rw [Function.update_of_ne (by omega)]
      exact ⟨rfl, fun j => rfl⟩

theorem refine_does {k : Fin (d + 1) → ℕ} (hx : H.obj o = ⟨d + 1, A, k⟩) (env : Env K) (jn : Scratch K) (axis : ℤ)
    (l : List K) : Does H o (Heap.refine env jn o axis (.fresh l)) H
      ((H.nrb ⟨d + 1, A, k⟩).refine env.eps jn.k jn.rows axis l) := by
  refine Does.congr ((getObj_run ho _).trans (by rw [hx])) ?_
  have g := Grown.refl H
  unfold Nrb.refine
  refine Does.congr (m' := _) (bind_ok (f := _) (x := l) (H' := H) rfl) ?_
  refine Does.ite (fun _ => Does.keep hx hs g) fun _ => Does.lift g fun a _ => ?_
  refine Does.congr (m' := _) (bind_ok (f := _) (x := ()) (H' := H) rfl) ?_
  refine Does.congr (contents_run _ _) ?_
  exact Does.lift g fun u _ => Does.lift g fun VQ _ => Does.assign hx hs g a _ (setAxis_other _ _ _ _ _ _)

omit ho hs in
/-- state of the loop of `reverse` -/
structure RevInv (H : Heap K) (x : Obj) (H1 : Heap K) (s : RevSt K x.d) : Prop where
  grown : Grown H H1
  uses : ∀ b, x.Uses (s.knots b) ∨ (H.na ≤ s.knots b ∧ s.knots b < H1.na)
  knots : ∀ b, (H1.arr (s.knots b)).shape.headD 0 = s.N.len b ∧ ∀ j, (H1.arr (s.knots b)).get [j] = s.N.U b j
  shape : s.N.shape = (H.nrb x).shape
  nc : s.N.nc = (H.nrb x).nc
  net : ∀ idx, s.N.P idx = (H.nrb x).P (fun b => if s.flips b % 2 = 0 then idx b else (H.nrb x).shape b - 1 - idx b)

omit ho hs in
theorem revStep_inv {x : Obj} (hs : ∀ i, x.Uses i → i < H.na) {H1 : Heap K} {s : RevSt K x.d} (h : RevInv H x H1 s)
    {axis : ℤ} {a : Fin x.d} (ha : normAxis x.d axis = .ok a) :
    ∃ H2 s', revStep s axis H1 = (.ok s', H2) ∧ s'.N = s.N.reverse1 a ∧ RevInv H x H2 s' := by
  have hlt : ∀ b, s.knots b < H1.na := fun b => by
    rcases h.uses b with h1 | h1
    · have := hs _ h1; have := h.grown.na; omega
    · exact h1.2
  have hna := h.grown.na
  refine ⟨{ H1 with arr := Function.update H1.arr H1.na (knotArr (s.N.len a) ((s.N.reverse1 a).U a)), na := H1.na + 1 },
    ⟨s.N.reverse1 a, Function.update s.knots a H1.na, Function.update s.flips a (s.flips a + 1)⟩, ?_, rfl, ?_⟩
  · unfold revStep
    rw [ha]
    rfl
  · refine ⟨⟨h.grown.obj, h.grown.no, by dsimp only; omega, fun i hi => ?_⟩, ?_, ?_, h.shape, h.nc, ?_⟩
    · dsimp only
      rw [Function.update_of_ne (by omega), h.grown.arr i hi]
    · intro b
      dsimp only
      by_cases hb : b = a
      · rw [hb, Function.update_self]; right; omega
      · rw [Function.update_of_ne hb]
        rcases h.uses b with h1 | h1
        · exact Or.inl h1
        · right; omega
    · intro b
      dsimp only
      by_cases hb : b = a
      · rw [hb, Function.update_self, Function.update_self]
        exact ⟨rfl, fun j => rfl⟩
      · have := hlt b
        rw [Function.update_of_ne hb, Function.update_of_ne (by omega)]
        have hk := h.knots b
        refine ⟨hk.1, fun j => ?_⟩
        rw [hk.2]
        show _ = (Function.update s.N.U a _) b j
        rw [Function.update_of_ne hb]
    · intro idx
      show s.N.P _ = _
      rw [h.net, h.shape]
      congr 1
      funext b
      dsimp only
      by_cases hb : b = a
      · simp only [hb, Function.update_self]
        by_cases he : s.flips a % 2 = 0
        · rw [if_pos he, if_neg (by omega)]
        · rw [if_neg he, if_pos (by omega)]; omega
      · simp only [Function.update_of_ne hb]

omit ho hs in
theorem revLoop_inv {x : Obj} (hs : ∀ i, x.Uses i → i < H.na) : ∀ (l : List ℤ) {H1 : Heap K} {s : RevSt K x.d},
    RevInv H x H1 s →
    match l.foldlM (fun N axis => do
      let a ← normAxis x.d axis
      pure (Nrb.reverse1 N a)) s.N with
    | .error e => ∃ H2, revLoop l s H1 = (.error e, H2) ∧ Grown H H2
    | .ok N => ∃ H2 s', revLoop l s H1 = (.ok s', H2) ∧ s'.N = N ∧ RevInv H x H2 s'
  | [], H1, s, h => ⟨H1, s, rfl, rfl, h⟩
  | axis :: l, H1, s, h => by
    rw [List.foldlM_cons]
    cases ha : normAxis x.d axis with
    | error e =>
      refine ⟨H1, ?_, h.grown⟩
      unfold revLoop revStep
      rw [ha]
      rfl
    | ok a =>
      obtain ⟨H2, s', h1, h2, h3⟩ := revStep_inv hs h ha
      have := revLoop_inv hs l h3
      rw [h2] at this
      rw [res_ok_bind]
      have e : revLoop (axis :: l) s H1 = revLoop l s' H2 := by
        rw [revLoop]; exact bind_ok h1
      rw [e]
      exact this

theorem reverse_does {k : Fin d → ℕ} (hx : H.obj o = ⟨d, A, k⟩) (axes : List ℤ) :
    Does H o (Heap.reverse o axes) H ((H.nrb ⟨d, A, k⟩).reverse axes) := by
  rw [hx] at hs
  refine Does.congr ((getObj_run ho _).trans (by rw [hx])) ?_
  unfold Nrb.reverse
  refine Does.congr (contents_run _ _) ?_
  dsimp only
  generalize (if axes = [] then (List.finRange d).map (fun a : Fin d => ((a : ℕ) : ℤ)) else axes) = l
  have h0 : RevInv H ⟨d, A, k⟩ H ⟨H.nrb ⟨d, A, k⟩, k, fun _ => 0⟩ :=
    ⟨Grown.refl H, fun b => Or.inl (Or.inr ⟨b, rfl⟩), fun b => ⟨rfl, fun j => rfl⟩, rfl, rfl, fun idx => rfl⟩
  have := revLoop_inv hs l h0
  revert this
  dsimp only
  generalize l.foldlM (fun N axis => do
      let a ← normAxis d axis
      pure (Nrb.reverse1 N a)) (H.nrb ⟨d, A, k⟩) = r
  cases r with
  | error e =>
    rintro ⟨H2, h1, h2⟩
    exact ⟨H2, bind_err h1, h2⟩
  | ok N =>
    rintro ⟨H2, s, h1, rfl, h⟩
    refine Does.congr (bind_ok h1) ?_
    have hlt : ∀ b, s.knots b < H2.na := fun b => by
      rcases h.uses b with h1 | h1
      · have := hs _ h1; have := h.grown.na; omega
      · exact h1.2
    have hna := h.grown.na
    by_cases hf : ∀ a, s.flips a % 2 = 0
    · rw [if_pos hf]
      refine ⟨_, A, s.knots, rfl, ⟨?_, h.grown.no, hna, h.grown.arr, ?_⟩, ?_⟩
      · dsimp only; rw [Function.update_self, Function.update_idem, h.grown.obj]
      · rintro i (rfl | ⟨b, rfl⟩)
        · left; rw [hx]; exact Or.inl rfl
        · rw [hx]; exact h.uses b
      · have hA : H2.arr A = H.arr A := h.grown.arr A (hs _ (Or.inl rfl))
        have hP : s.N.P = (H.nrb ⟨d, A, k⟩).P := by
          funext idx
          rw [h.net]
          simp only [hf, if_true]
        have e : ∀ N : Nrb K d, N = ⟨N.shape, N.nc, N.len, N.U, N.P⟩ := fun N => rfl
        rw [e s.N, h.shape, h.nc, hP]
        unfold nrb
        dsimp only
        rw [hA]
        simp only [Nrb.mk.injEq, true_and, and_true]
        exact ⟨funext fun b => (h.knots b).1, funext fun b => funext fun j => (h.knots b).2 j⟩
    · rw [if_neg hf]
      refine ⟨_, H2.na, s.knots, rfl, ⟨?_, h.grown.no, ?_, ?_, ?_⟩, ?_⟩
      · dsimp only; rw [Function.update_self, Function.update_idem, h.grown.obj]
      · dsimp only; omega
      · intro i hi
        dsimp only
        rw [Function.update_of_ne (by omega), h.grown.arr i hi]
      · rintro i (rfl | ⟨b, rfl⟩)
        · right; dsimp only; omega
        · rw [hx]; dsimp only
          rcases h.uses b with h1 | h1
          · exact Or.inl h1
          · right; omega
      · apply nrb_eq
        · dsimp only; rw [Function.update_self]
        · intro b
          have := hlt b
          dsimp only
          rw [Function.update_of_ne (by omega)]
          exact h.knots b

end methods

end Heap
end Igakit
