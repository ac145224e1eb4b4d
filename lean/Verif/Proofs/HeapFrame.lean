import Verif.Proofs.Heap

/-! # What commands touch -/

set_option linter.unusedSectionVars false

namespace Igakit

variable {K : Type} [Field K] [LinearOrder K]

namespace Heap

/-- the heap after `refine` has sorted a block -/
def sorted (H : Heap K) (A start count : ℕ) : Heap K := (sortVals (.block A start count) H).2

theorem geo_does {H : Heap K} {o d A : ℕ} {k : Fin d → ℕ} (ho : o < H.no) (hs : ∀ i, (H.obj o).Uses i → i < H.na)
    (hx : H.obj o = ⟨d, A, k⟩) (env : Env K) (jn : Scratch K) (g : Geo K) (hf : g.Fresh) :
    Does H o (g.run env jn o) H (g.apply env jn g.vals (H.nrb ⟨d, A, k⟩)) := by
  have gr := Grown.refl H
  cases g with
  | transform M => exact transform_does ho hs hx M
  | transpose axes => exact transpose_does ho hs hx axes
  | swap i j => exact swap_does ho hs hx i j
  | reverse axes => exact reverse_does ho hs hx axes
  | remap axis start stop => exact remap_does ho hs hx axis start stop
  | insert axis value times =>
    cases d with
    | zero => exact Does.congr ((getObj_run ho _).trans (by rw [hx])) (Does.throw gr)
    | succ d => exact insert_does ho hs hx env jn axis value times
  | remove axis value times dev =>
    cases d with
    | zero => exact Does.congr ((getObj_run ho _).trans (by rw [hx])) (Does.throw gr)
    | succ d => exact remove_does ho hs hx env jn axis value times dev
  | clamp axis side =>
    cases d with
    | zero => exact Does.congr ((getObj_run ho _).trans (by rw [hx])) (Does.throw gr)
    | succ d => exact clamp_does ho hs hx env jn axis side
  | unclamp axis side cont =>
    cases d with
    | zero => exact Does.congr ((getObj_run ho _).trans (by rw [hx])) (Does.throw gr)
    | succ d => exact unclamp_does ho hs hx env jn axis side cont
  | refine axis values =>
    cases values with
    | block => exact hf.elim
    | fresh l =>
      cases d with
      | zero =>
        refine Does.congr ((getObj_run ho _).trans (by rw [hx])) ?_
        refine Does.congr (m' := _) (bind_ok (f := _) (x := l) (H' := H) rfl) ?_
        exact Does.ite (fun _ => Does.keep hx hs gr) fun _ => Does.throw gr
      | succ d =>
        have := refine_does ho hs hx env jn axis l
        by_cases hl : l = []
        · subst hl; exact this
        · show Does H o _ H (if l = [] then _ else _)
          rw [if_neg hl]; exact this
  | elevate axis times =>
    cases d with
    | zero =>
      refine Does.congr ((getObj_run ho _).trans (by rw [hx])) ?_
      cases times with
      | none => exact Does.keep hx hs gr
      | some t =>
        show Does H o (Heap.lift (pyAssert (t ≥ 0)) >>= fun _ => _) H _
        by_cases ht : t ≥ 0
        · rw [pyAssert_ok ht]
          show Does H o _ H (if t ≥ 0 then _ else _)
          rw [if_pos ht]
          exact Does.ite (fun _ => Does.keep hx hs gr) fun _ => Does.throw gr
        · rw [pyAssert_err ht]
          show Does H o _ H (if t ≥ 0 then _ else _)
          rw [if_neg ht]
          exact ⟨H, rfl, gr⟩
    | succ d => exact elevate_does ho hs hx env jn axis times

/-- `refine` with a block of an array: nothing happens, or the block is sorted and the rest is `refine` with numbers -/
theorem refine_block (H : Heap K) (env : Env K) (jn : Scratch K) (o : ℕ) (axis : ℤ) (B s c : ℕ) :
    (∃ r, Heap.refine env jn o axis (.block B s c) H = (r, H)) ∨
    (B < H.na ∧ s + c ≤ (ravelC (H.arr B)).length ∧ H.block B s c ≠ [] ∧
      Heap.refine env jn o axis (.block B s c) H = Heap.refine env jn o axis (.fresh (H.block B s c)) (H.sorted B s c)) := by
  by_cases ho : o < H.no
  swap
  · left; refine ⟨.error .index, ?_⟩
    unfold Heap.refine
    exact bind_err (by rw [getObj, if_neg ho])
  unfold Heap.refine
  rw [getObj_run ho, getObj_run (H := H.sorted B s c) ho]
  by_cases hB : B < H.na ∧ s + c ≤ (ravelC (H.arr B)).length
  swap
  · left; refine ⟨.error .index, bind_err ?_⟩
    exact if_neg hB
  have hr : readVals (.block B s c) H = (.ok (H.block B s c), H) := if_pos hB
  rw [bind_ok hr]
  by_cases hl : H.block B s c = []
  · left; rw [if_pos hl]; exact ⟨_, rfl⟩
  have e : (H.sorted B s c).obj o = H.obj o := rfl
  have hf : readVals (.fresh (H.block B s c)) (H.sorted B s c) = (.ok (H.block B s c), H.sorted B s c) := rfl
  rw [e, bind_ok hf, if_neg hl, if_neg hl]
  rcases H.obj o with ⟨_ | d, A, k⟩
  · left; exact ⟨_, rfl⟩
  · dsimp only
    cases ha : normAxis (d + 1) axis with
    | error e => left; exact ⟨_, rfl⟩
    | ok a =>
      right
      exact ⟨hB.1, hB.2, hl, rfl⟩

theorem refine_block_valid {H : Heap K} (env : Env K) (jn : Scratch K) {o : ℕ} (ho : o < H.no) {axis : ℤ}
    {a : Fin (H.obj o).d} (ha : normAxis (H.obj o).d axis = .ok a) {B s c : ℕ} (hB : B < H.na)
    (hl : s + c ≤ (ravelC (H.arr B)).length) :
    Heap.refine env jn o axis (.block B s c) H = if H.block B s c = [] then (.ok (), H) else
      Heap.refine env jn o axis (.fresh (H.block B s c)) (H.sorted B s c) := by
  have hr : readVals (.block B s c) H = (.ok (H.block B s c), H) := if_pos ⟨hB, hl⟩
  by_cases hn : H.block B s c = []
  · rw [if_pos hn]
    unfold Heap.refine
    rw [getObj_run ho, bind_ok hr, if_pos hn]
    rfl
  rw [if_neg hn]
  unfold Heap.refine
  have hf : readVals (.fresh (H.block B s c)) (H.sorted B s c) = (.ok (H.block B s c), H.sorted B s c) := rfl
  rw [getObj_run ho, getObj_run (H := H.sorted B s c) ho, bind_ok hr, bind_ok hf, if_neg hn, if_neg hn]
  have e : (H.sorted B s c).obj o = H.obj o := rfl
  rw [e]
  revert a
  rcases H.obj o with ⟨_ | d, A, k⟩
  · exact fun {a} => a.elim0
  · intro a ha
    dsimp only at ha ⊢
    rw [ha]
    rfl

/-! ## frames -/

/-- from `H` to `H'`: of the old arrays only those in `W`, of the old objects only those in `O` have changed; objects that
changed or are new refer to arrays in `R` and new arrays -/
structure Ext (H : Heap K) (W O R : ℕ → Prop) (H' : Heap K) : Prop where
  no : H.no ≤ H'.no
  na : H.na ≤ H'.na
  arr : ∀ i < H.na, ¬ W i → H'.arr i = H.arr i
  obj : ∀ o < H.no, ¬ O o → H'.obj o = H.obj o
  uses : ∀ o < H'.no, O o ∨ H.no ≤ o → ∀ i, (H'.obj o).Uses i → R i ∨ (H.na ≤ i ∧ i < H'.na)

variable {H H1 H2 : Heap K} {W O R : ℕ → Prop}

theorem Ext.refl (h : ∀ o < H.no, O o → ∀ i, (H.obj o).Uses i → R i) : Ext H W O R H :=
  ⟨le_rfl, le_rfl, fun _ _ _ => rfl, fun _ _ _ => rfl, fun o ho hO i hi => by
    rcases hO with hO | hO
    · exact Or.inl (h o ho hO i hi)
    · omega⟩

theorem Ext.grown (h : Ext H W O R H1) (g : Grown H1 H2) : Ext H W O R H2 := by
  have h1 := h.na; have h2 := g.na; have h3 := g.no; have h4 := h.no
  refine ⟨by omega, by omega, fun i hi hW => ?_, fun o ho hO => ?_, fun o ho hO i hi => ?_⟩
  · rw [g.arr i (by omega), h.arr i hi hW]
  · rw [g.obj, h.obj o ho hO]
  · rw [g.obj] at hi
    rcases h.uses o (by omega) hO i hi with h5 | h5
    · exact Or.inl h5
    · right; omega

theorem Ext.after (h : Ext H W O R H1) {o : ℕ} (ho : o < H1.no) (hO : O o ∨ H.no ≤ o) {y : Obj} (g : After H1 H2 o y) :
    Ext H W O R H2 := by
  have h1 := h.na; have h2 := g.na; have h3 := g.no; have h4 := h.no
  refine ⟨by omega, by omega, fun i hi hW => ?_, fun b hb hbO => ?_, fun b hb hbO i hi => ?_⟩
  · rw [g.arr i (by omega), h.arr i hi hW]
  · have : b ≠ o := by
      rintro rfl
      rcases hO with hO | hO
      · exact hbO hO
      · omega
    rw [g.obj, Function.update_of_ne this, h.obj b hb hbO]
  · rw [g.obj] at hi
    by_cases hbo : b = o
    · rw [hbo, Function.update_self] at hi
      rcases g.uses i hi with h5 | h5
      · rcases h.uses o ho hO i h5 with h6 | h6
        · exact Or.inl h6
        · right; omega
      · right; omega
    · rw [Function.update_of_ne hbo] at hi
      rcases h.uses b (by omega) hbO i hi with h5 | h5
      · exact Or.inl h5
      · right; omega

theorem Ext.alloc (h : Ext H W O R H1) (A : Nd K) : Ext H W O R (alloc A H1).2 :=
  h.grown ⟨rfl, rfl, Nat.le_succ _, fun i hi => Function.update_of_ne (by omega) _ _⟩

theorem Ext.newObj (h : Ext H W O R H1) {x : Obj} (hx : ∀ i, x.Uses i → R i ∨ (H.na ≤ i ∧ i < H1.na)) :
    Ext H W O R (newObj x H1).2 := by
  have h1 := h.na; have h4 := h.no
  refine ⟨by show H.no ≤ H1.no + 1; omega, h1, h.arr, fun b hb hbO => ?_, fun b hb hbO i hi => ?_⟩
  · show Function.update H1.obj H1.no x b = _
    rw [Function.update_of_ne (by omega), h.obj b hb hbO]
  · change (Function.update H1.obj H1.no x b).Uses i at hi
    change b < H1.no + 1 at hb
    by_cases hbo : b = H1.no
    · rw [hbo, Function.update_self] at hi
      exact hx i hi
    · rw [Function.update_of_ne hbo] at hi
      exact h.uses b (by omega) hbO i hi

theorem Does.ext {o d : ℕ} {m : HM K Unit} {r : Res (Nrb K d)} (h : Does H1 o m H1 r) (he : Ext H W O R H1) (ho : o < H1.no)
    (hO : O o ∨ H.no ≤ o) : Ext H W O R (m H1).2 := by
  cases r with
  | error e => obtain ⟨H', h1, h2⟩ := h; rw [h1]; exact he.grown h2
  | ok N => obtain ⟨H', A, k, h1, h2, -⟩ := h; rw [h1]; exact he.after ho hO h2

/-- triples -/
def Tri {α : Type} (I P : Heap K → Prop) (m : HM K α) (Q : α → Heap K → Prop) : Prop :=
  ∀ H1, I H1 → P H1 → I (m H1).2 ∧ ∀ x, (m H1).1 = .ok x → Q x (m H1).2

theorem Tri.bind {α β : Type} {I P : Heap K → Prop} {m : HM K α} {Q : α → Heap K → Prop} {f : α → HM K β}
    {S : β → Heap K → Prop} (h : Tri I P m Q) (hf : ∀ x, Tri I (Q x) (f x) S) : Tri I P (m >>= f) S := by
  intro H1 hI hP
  obtain ⟨h1, h2⟩ := h H1 hI hP
  rw [bind_run]
  rcases e : m H1 with ⟨r, H2⟩
  rw [e] at h1 h2
  cases r with
  | error e => exact ⟨h1, fun x hx => by cases hx⟩
  | ok x => exact hf x H2 h1 (h2 x rfl)

theorem Tri.lift {α : Type} {I P : Heap K → Prop} (r : Res α) : Tri I P (Heap.lift r) (fun x H1 => r = .ok x ∧ P H1) :=
  fun _ hI hP => ⟨hI, fun _ hx => ⟨hx, hP⟩⟩

theorem Tri.lift' {α : Type} {I P : Heap K → Prop} (r : Res α) : Tri I P (Heap.lift r) (fun _ => P) :=
  fun _ hI hP => ⟨hI, fun _ _ => hP⟩

theorem Tri.contents {I P : Heap K → Prop} (x : Obj) : Tri I P (Heap.contents x) (fun _ => P) :=
  fun _ hI hP => ⟨hI, fun _ _ => hP⟩

theorem Tri.throw {α : Type} {I P : Heap K → Prop} {Q : α → Heap K → Prop} (e : Err) :
    Tri I P (Heap.lift (throw e)) Q :=
  fun _ hI _ => ⟨hI, fun _ hx => by cases hx⟩

theorem Tri.pre {α : Type} {I P P' : Heap K → Prop} {m : HM K α} {Q : α → Heap K → Prop} (h : Tri I P' m Q)
    (hp : ∀ H1, I H1 → P H1 → P' H1) : Tri I P m Q := fun H1 hI hP => h H1 hI (hp H1 hI hP)

theorem sorted_ext (he : Ext H W O R H1) {A s c : ℕ} (hA : W A ∨ H.na ≤ A) : Ext H W O R (H1.sorted A s c) := by
  refine ⟨he.no, he.na, fun i hi hW => ?_, he.obj, he.uses⟩
  have : i ≠ A := by
    rintro rfl
    rcases hA with hA | hA
    · exact hW hA
    · omega
  show Function.update _ _ _ _ = _
  rw [Function.update_of_ne this, he.arr i hi hW]

theorem geo_ext {H : Heap K} (hs : H.Sound) (env : Env K) (jn : Scratch K) (o : ℕ) (g : Geo K) :
    Ext H g.Given (fun n => n = o) (fun i => (H.obj o).Uses i ∧ i < H.na) (g.run env jn o H).2 := by
  have h0 : Ext H g.Given (fun n => n = o) (fun i => (H.obj o).Uses i ∧ i < H.na) H :=
    Ext.refl fun o' ho' e i hi => ⟨e ▸ hi, hs o' ho' i hi⟩
  by_cases ho : o < H.no
  swap
  · have : g.run env jn o H = (.error .index, H) := by
      cases g <;> exact bind_err (by rw [getObj, if_neg ho])
    rw [this]
    exact h0
  rcases hx : H.obj o with ⟨d, A, k⟩
  rw [hx] at h0
  by_cases hf : g.Fresh
  · exact (geo_does ho (hs o ho) hx env jn g hf).ext h0 ho (Or.inl rfl)
  · cases g with
    | refine axis values =>
      cases values with
      | fresh l => exact (hf trivial).elim
      | block B s c =>
        rcases refine_block H env jn o axis B s c with ⟨r, hr⟩ | ⟨hB, -, -, hr⟩
        · show Ext H _ _ _ (Heap.refine env jn o axis (.block B s c) H).2
          rw [hr]; exact h0
        · show Ext H _ _ _ (Heap.refine env jn o axis (.block B s c) H).2
          rw [hr]
          have h1 := sorted_ext (A := B) (s := s) (c := c) h0 (Or.inl rfl)
          refine (geo_does (H := H.sorted B s c) ho ?_ hx env jn (.refine axis (.fresh _)) trivial).ext h1 ho (Or.inl rfl)
          exact hs o ho
    | _ => exact (hf trivial).elim

/-! ## methods that make objects -/

section create
variable {H : Heap K}

theorem getObj_lt {β : Type} {I P : Heap K → Prop} {o : ℕ} {f : Obj → HM K β} {Q : β → Heap K → Prop}
    (h : ∀ x, Tri I (fun H1 => P H1 ∧ o < H1.no ∧ x = H1.obj o) (f x) Q) : Tri I P (getObj o >>= f) Q := by
  refine Tri.bind (Q := fun x H1 => P H1 ∧ o < H1.no ∧ x = H1.obj o) (fun H1 hI hP => ?_) h
  unfold getObj
  by_cases ho : o < H1.no
  · rw [if_pos ho]
    exact ⟨hI, fun x hx => ⟨hP, ho, by cases hx; rfl⟩⟩
  · rw [if_neg ho]
    exact ⟨hI, fun x hx => by cases hx⟩

/-- the new object refers to arrays in `R` and to new arrays -/
theorem newObj_tri {R : ℕ → Prop} {P : Heap K → Prop} {x : Obj}
    (hx : ∀ H1, P H1 → ∀ i, x.Uses i → R i ∨ (H.na ≤ i ∧ i < H1.na)) {Q : ℕ → Heap K → Prop}
    (hQ : ∀ n H1, Q n H1) :
    Tri (Ext H W O R) P (newObj x) Q := fun H1 hI hP => ⟨hI.newObj (hx H1 hP), fun _ _ => hQ _ _⟩

theorem alloc_tri {R : ℕ → Prop} {P : Heap K → Prop} (A : Nd K) {Q : ℕ → Heap K → Prop}
    (hQ : ∀ H1, Ext H W O R H1 → P H1 → Q H1.na (alloc A H1).2) :
    Tri (Ext H W O R) P (alloc A) Q :=
  fun H1 hI hP => ⟨hI.alloc A, fun x hx => by cases hx; exact hQ H1 hI hP⟩

theorem clone_ext (hs : H.Sound) (o : ℕ) : Ext H (fun _ => False) (fun _ => False) (fun i => (H.obj o).Uses i ∧ i < H.na)
    (Heap.clone o H).2 := by
  have h0 : Ext H (fun _ => False) (fun _ => False) (fun i => (H.obj o).Uses i ∧ i < H.na) H := Ext.refl (fun _ _ h => h.elim)
  by_cases ho : o < H.no
  · have : Heap.clone o H = newObj (H.obj o) H := getObj_run ho _
    rw [this]
    exact h0.newObj fun i hi => Or.inl ⟨hi, hs o ho i hi⟩
  · have : Heap.clone o H = (.error .index, H) := bind_err (by rw [getObj, if_neg ho])
    rw [this]
    exact h0

theorem copy_ext (o : ℕ) : Ext H (fun _ => False) (fun _ => False) (fun _ => False) (Heap.copy o H).2 := by
  have h0 : Ext H (fun _ => False) (fun _ => False) (fun _ => False) H := Ext.refl (fun _ _ h => h.elim)
  by_cases ho : o < H.no
  · have e : Heap.copy o H = (do
        let A ← fun H1 : Heap K => alloc (H1.arr (H.obj o).arr) H1
        let k ← fun H1 : Heap K => allocAll (fun a => H1.arr ((H.obj o).knots a)) H1
        newObj ⟨(H.obj o).d, A, k⟩ : HM K ℕ) H := getObj_run ho _
    rw [e]
    have h1 := h0.alloc (H.arr (H.obj o).arr)
    set H1 := (alloc (H.arr (H.obj o).arr) H).2 with hH1
    have h2 : Ext H (fun _ => False) (fun _ => False) (fun _ => False)
        (allocAll (fun a => H1.arr ((H.obj o).knots a)) H1).2 := by
      refine h1.grown ⟨rfl, rfl, Nat.le_add_right _ _, fun i hi => ?_⟩
      show (if h : _ then _ else _) = _
      rw [dif_neg (by omega)]
    refine h2.newObj (x := ⟨(H.obj o).d, H.na, fun a => H1.na + a⟩) fun i hi => ?_
    right
    have e1 : H1.na = H.na + 1 := rfl
    have e2 : (allocAll (fun a => H1.arr ((H.obj o).knots a)) H1).2.na = H1.na + (H.obj o).d := rfl
    rcases hi with rfl | ⟨a, rfl⟩
    · dsimp only; omega
    · have : (a : ℕ) < (H.obj o).d := a.2
      dsimp only; omega
  · have : Heap.copy o H = (.error .index, H) := bind_err (by rw [getObj, if_neg ho])
    rw [this]
    exact h0

theorem extract_tri (hs : H.Sound) (env : Env K) (jn : Scratch K) (o : ℕ) (axis : ℤ) (value : K) :
    Tri (Ext H (fun _ => False) (fun _ => False) (fun i => (H.obj o).Uses i ∧ i < H.na)) (fun H1 => H1 = H)
      (Heap.extract env jn o axis value) (fun _ _ => True) := by
  unfold Heap.extract
  refine getObj_lt fun x => ?_
  rcases x with ⟨_ | d, A, k⟩
  · exact Tri.throw _
  · refine Tri.bind (Tri.lift' _) fun a => Tri.bind (Tri.contents _) fun N => Tri.bind (Tri.lift' _) fun _ =>
      Tri.bind (Tri.lift' _) fun _ => Tri.bind (Tri.lift' _) fun Cw => ?_
    refine Tri.bind (Q := fun B H1 => o < H.no ∧ (⟨d + 1, A, k⟩ : Obj) = H.obj o ∧ B = H.na ∧ H1.na = H.na + 1)
      (alloc_tri _ ?_) fun B => newObj_tri ?_ (fun _ _ => trivial)
    · rintro H1 - ⟨rfl, ho, h2⟩
      exact ⟨ho, h2, rfl, rfl⟩
    · rintro H1 ⟨ho, h2, rfl, h3⟩ i (rfl | ⟨b, rfl⟩)
      · right; dsimp only; omega
      · left
        have : (H.obj o).Uses (k (a.succAbove b)) := h2 ▸ Or.inr ⟨a.succAbove b, rfl⟩
        exact ⟨this, hs o ho _ this⟩

theorem extract_ext (hs : H.Sound) (env : Env K) (jn : Scratch K) (o : ℕ) (axis : ℤ) (value : K) :
    Ext H (fun _ => False) (fun _ => False) (fun i => (H.obj o).Uses i ∧ i < H.na) (Heap.extract env jn o axis value H).2 :=
  (extract_tri hs env jn o axis value H (Ext.refl (fun _ _ h => h.elim)) rfl).1

theorem boundary_ext (hs : H.Sound) (env : Env K) (jn : Scratch K) (o : ℕ) (axis side : ℤ) :
    Ext H (fun _ => False) (fun _ => False) (fun i => (H.obj o).Uses i ∧ i < H.na) (Heap.boundary env jn o axis side H).2 := by
  refine (Tri.pre (Q := fun _ _ => True) (P := fun H1 => H1 = H) (P' := fun H1 => H1 = H) ?_ (fun H1 _ h => h) H (Ext.refl (fun _ _ h => h.elim)) rfl).1
  unfold Heap.boundary
  refine getObj_lt fun x => Tri.bind (Tri.lift' _) fun _ => Tri.bind (Tri.lift' _) fun a => Tri.bind (Tri.contents _) fun N => ?_
  exact (extract_tri hs env jn o _ _).pre fun H1 _ h => h.1

theorem slice_ext (hs : H.Sound) (env : Env K) (jn : Scratch K) (o : ℕ) (axis : ℤ) (start stop : Option K) :
    Ext H (fun _ => False) (fun _ => False) (fun i => (H.obj o).Uses i ∧ i < H.na)
      (Heap.slice env jn o axis start stop H).2 := by
  have h0 : Ext H (fun _ => False) (fun _ => False) (fun i => (H.obj o).Uses i ∧ i < H.na) H := Ext.refl (fun _ _ h => h.elim)
  refine (Tri.pre (Q := fun _ _ => True) (P := fun H1 => H1 = H) (P' := fun H1 => H1 = H) ?_ (fun H1 _ h => h) H h0 rfl).1
  unfold Heap.slice
  refine getObj_lt fun x => ?_
  rcases x with ⟨_ | d, A, k⟩
  · exact Tri.throw _
  refine Tri.bind (Tri.lift' _) fun a => Tri.bind (Tri.contents _) fun N => Tri.bind (Tri.lift' _) fun _ =>
    Tri.bind (Tri.lift' _) fun _ => Tri.bind (Tri.lift' _) fun _ => Tri.bind (Tri.lift' _) fun _ =>
    Tri.bind (Tri.lift' _) fun _ => ?_
  refine Tri.bind (Q := fun n H1 => n = H.no ∧ H.no < H1.no ∧ ∀ i, (H1.obj n).Uses i → i < H1.na) ?_ fun n => ?_
  · rintro H1 - ⟨rfl, ho, -⟩
    have : Heap.clone o H1 = newObj (H1.obj o) H1 := getObj_run ho _
    refine ⟨clone_ext hs o, ?_⟩
    rw [this]
    rintro n hn
    cases hn
    refine ⟨rfl, Nat.lt_succ_self _, fun i hi => ?_⟩
    change (Function.update H1.obj H1.no (H1.obj o) H1.no).Uses i at hi
    rw [Function.update_self] at hi
    exact hs o ho i hi
  refine Tri.bind (Q := fun _ H1 => n = H.no ∧ H.no < H1.no) ?_ fun _ => ?_
  · rintro H1 hI ⟨rfl, hn, hu⟩
    rcases hx : H1.obj H.no with ⟨d', A', k'⟩
    have hd := fun (axis : ℤ) (l : List K) => geo_does (g := .refine axis (.fresh l)) hn hu hx env jn trivial
    refine ⟨(hd _ _).ext hI hn (Or.inr le_rfl), fun _ _ => ⟨rfl, ?_⟩⟩
    exact lt_of_lt_of_le hn ((hd _ _).ext (O := fun n => n = H.no) (W := fun _ => False) (H := H1)
      (R := fun _ => True) (Ext.refl fun _ _ _ _ _ => trivial) hn (Or.inl rfl)).no
  refine getObj_lt fun x' => ?_
  rcases x' with ⟨_ | d', A', k'⟩
  · exact Tri.throw _
  refine Tri.bind (Tri.lift' _) fun a' => Tri.bind (Tri.contents _) fun N' => ?_
  have key : ∀ H1 : Heap K, Ext H (fun _ => False) (fun _ => False) (fun i => (H.obj o).Uses i ∧ i < H.na) H1 → n = H.no →
      n < H1.no → (⟨d' + 1, A', k'⟩ : Obj) = H1.obj n →
      ∀ b, ((H.obj o).Uses (k' b) ∧ k' b < H.na) ∨ (H.na ≤ k' b ∧ k' b < H1.na) := by
    rintro H1 hI rfl hn he b
    exact hI.uses _ hn (Or.inr le_rfl) (k' b) (he ▸ Or.inr ⟨b, rfl⟩)
  refine Tri.bind (Q := fun B H1 => H.na ≤ B ∧ B < H1.na ∧
    ∀ b, ((H.obj o).Uses (k' b) ∧ k' b < H.na) ∨ (H.na ≤ k' b ∧ k' b < H1.na)) (alloc_tri _ ?_) fun B => ?_
  · rintro H1 hI ⟨⟨hn, -⟩, hlt, he⟩
    have e : ∀ A : Nd K, (alloc A H1).2.na = H1.na + 1 := fun _ => rfl
    have := hI.na
    refine ⟨this, by rw [e]; omega, fun b => ?_⟩
    rcases key H1 hI hn hlt he b with h | h
    · exact Or.inl h
    · right; rw [e]; omega
  refine Tri.bind (Q := fun V H1 => H.na ≤ V ∧ V < H1.na ∧ H.na ≤ B ∧ B < H1.na ∧
    ∀ b, ((H.obj o).Uses (k' b) ∧ k' b < H.na) ∨ (H.na ≤ k' b ∧ k' b < H1.na)) (alloc_tri _ ?_) fun V => ?_
  · rintro H1 hI ⟨h1, h2, h3⟩
    have e : ∀ A : Nd K, (alloc A H1).2.na = H1.na + 1 := fun _ => rfl
    have := hI.na
    refine ⟨this, by rw [e]; omega, h1, by rw [e]; omega, fun b => ?_⟩
    rcases h3 b with h | h
    · exact Or.inl h
    · right; rw [e]; omega
  refine newObj_tri ?_ (fun _ _ => trivial)
  rintro H1 ⟨h1, h2, h3, h4, h5⟩ i (rfl | ⟨b, rfl⟩)
  · exact Or.inr ⟨h3, h4⟩
  · dsimp only
    by_cases hb : b = a'
    · rw [hb, Function.update_self]; exact Or.inr ⟨h1, h2⟩
    · rw [Function.update_of_ne hb]; exact h5 b

/-- an array in `R` or a new one -/
def Good (H : Heap K) (R : ℕ → Prop) (H1 : Heap K) (A : ℕ) : Prop := R A ∨ (H.na ≤ A ∧ A < H1.na)

theorem asArray_tri {R : ℕ → Prop} {r : ArrRef K} (L : List ℕ) (hR : ∀ A, r = .ref A → A < H.na → R A) :
    Tri (Ext H W O R) (fun H1 => ∀ A ∈ L, Good H R H1 A) (asArray r) (fun A H1 => ∀ B ∈ A :: L, Good H R H1 B) := by
  cases r with
  | fresh A =>
    rintro H1 hI hp
    have hn := hI.na
    refine ⟨hI.alloc A, fun x hx => ?_⟩
    cases hx
    have e : (alloc A H1).2.na = H1.na + 1 := rfl
    intro B hB
    rcases List.mem_cons.1 hB with rfl | hB
    · exact Or.inr ⟨hn, by show _ < (alloc A H1).2.na; omega⟩
    · rcases hp B hB with h | h
      · exact Or.inl h
      · exact Or.inr ⟨h.1, by show _ < (alloc A H1).2.na; omega⟩
  | ref A =>
    rintro H1 hI hp
    have hn := hI.na
    unfold asArray
    by_cases hA : A < H1.na
    · simp only [hA, if_true]
      refine ⟨hI, fun x hx => ?_⟩
      cases hx
      intro B hB
      rcases List.mem_cons.1 hB with rfl | hB
      · by_cases h : B < H.na
        · exact Or.inl (hR B rfl h)
        · right; omega
      · exact hp B hB
    · simp only [hA, if_false]
      exact ⟨hI, fun x hx => by cases hx⟩

theorem asArrays_tri {R : ℕ → Prop} : ∀ {d : ℕ} (rs : Fin d → ArrRef K) (L : List ℕ), (∀ a A, rs a = .ref A → A < H.na → R A) →
    Tri (Ext H W O R) (fun H1 => ∀ A ∈ L, Good H R H1 A) (asArrays rs)
      (fun As H1 => (∀ a, Good H R H1 (As a)) ∧ ∀ B ∈ L, Good H R H1 B)
  | 0, rs, L, _ => fun H1 hI hp => ⟨hI, fun x hx => ⟨fun a => a.elim0, hp⟩⟩
  | d + 1, rs, L, hR => by
    unfold asArrays
    refine Tri.bind (asArray_tri L fun A hA => hR 0 A hA) fun A => ?_
    refine Tri.bind (asArrays_tri (fun a => rs a.succ) (A :: L) fun a A hA => hR a.succ A hA) fun As => ?_
    intro H1 hI hp
    refine ⟨hI, fun x hx => ?_⟩
    cases hx
    refine ⟨fun a => ?_, fun B hB => hp.2 B (List.mem_cons_of_mem _ hB)⟩
    refine Fin.cases ?_ (fun b => ?_) a
    · exact hp.2 A List.mem_cons_self
    · exact hp.1 b

theorem new_ext {d : ℕ} (knots : Fin d → ArrRef K) (control : CtrlRef K) (fields weights : Option (Nd K)) :
    Ext H (fun _ => False) (fun _ => False)
      (fun i => ((∃ a, knots a = .ref i) ∨ control = .arr (.ref i)) ∧ i < H.na) (Heap.new knots control fields weights H).2 := by
  set R : ℕ → Prop := fun i => ((∃ a, knots a = .ref i) ∨ control = .arr (.ref i)) ∧ i < H.na with hR
  have h0 : Ext H (fun _ => False) (fun _ => False) R H := Ext.refl (fun _ _ h => h.elim)
  refine (Tri.pre (Q := fun _ _ => True) (P := fun H1 => H1 = H) (P' := fun H1 => ∀ A ∈ ([] : List ℕ), Good H R H1 A) ?_
    (fun H1 _ _ A hA => by cases hA) H h0 rfl).1
  unfold Heap.new
  refine Tri.bind (asArrays_tri knots [] fun a A hA h => ⟨Or.inl ⟨a, hA⟩, h⟩) fun ks => ?_
  have conv : ∀ H1, ((∀ a, Good H R H1 (ks a)) ∧ ∀ B ∈ ([] : List ℕ), Good H R H1 B) → ∀ B ∈ List.ofFn ks, Good H R H1 B := by
    intro H1 h B hB
    obtain ⟨a, rfl⟩ := (List.mem_ofFn' _ _).1 hB
    exact h.1 a
  refine Tri.bind (Q := fun _ H1 => ∀ B ∈ List.ofFn ks, Good H R H1 B) (fun H1 hI hP => ⟨hI, fun x _ => conv H1 hP⟩) fun U => ?_
  have obj : ∀ c, Tri (Ext H (fun _ => False) (fun _ => False) R) (fun H1 => ∀ B ∈ c :: List.ofFn ks, Good H R H1 B)
      (newObj ⟨d, c, ks⟩) (fun _ _ => True) := by
    intro c
    refine newObj_tri ?_ (fun _ _ => trivial)
    rintro H1 hP i (rfl | ⟨a, rfl⟩)
    · exact hP _ List.mem_cons_self
    · exact hP _ (List.mem_cons_of_mem _ ((List.mem_ofFn' _ _).2 ⟨a, rfl⟩))
  have al : ∀ A : Nd K, Tri (Ext H (fun _ => False) (fun _ => False) R) (fun H1 => ∀ B ∈ List.ofFn ks, Good H R H1 B)
      (alloc A) (fun A H1 => ∀ B ∈ A :: List.ofFn ks, Good H R H1 B) := fun A =>
    asArray_tri (r := .fresh A) (List.ofFn ks) (fun _ h => by cases h)
  rcases control with _ | C
  · exact Tri.bind (Tri.lift' _) fun N => Tri.bind (al _) fun A => obj A
  · refine Tri.bind (asArray_tri (List.ofFn ks) fun A hA h => ⟨Or.inr (by rw [hA]), h⟩) fun c => ?_
    refine Tri.bind (Q := fun _ H1 => ∀ B ∈ c :: List.ofFn ks, Good H R H1 B) (fun H1 hI hP => ⟨hI, fun x _ => hP⟩) fun D => ?_
    refine Tri.bind (Tri.lift' _) fun N => ?_
    by_cases h : D.shape.getLastD 0 = 4 ∧ fields.isNone = true
    · rw [if_pos h]; exact obj c
    · rw [if_neg h]
      exact Tri.bind ((al _).pre fun H1 _ hP B hB => hP B (List.mem_cons_of_mem _ hB)) fun A => obj A

end create

/-! ## commands -/

/-- old arrays whose entries a command may change -/
def Writes (H : Heap K) : Cmd K → ℕ → Prop
  | .geo _ g, i => g.Given i
  | .write A _ _, i => i = A
  | .writeNet o _ _, i => i = (H.obj o).arr
  | .writeKnot o _ _ _, i => ∃ a, i = (H.obj o).knots a
  | _, _ => False

/-- old arrays that a new or changed object may refer to -/
def Shares (H : Heap K) : Cmd K → ℕ → Prop
  | .geo o _, i => (H.obj o).Uses i
  | .clone o, i => (H.obj o).Uses i
  | .slice o _ _ _, i => (H.obj o).Uses i
  | .extract o _ _, i => (H.obj o).Uses i
  | .boundary o _ _, i => (H.obj o).Uses i
  | .new knots control _ _, i => (∃ a, knots a = .ref i) ∨ control = .arr (.ref i)
  | _, _ => False

theorem write_ext {H : Heap K} (A : ℕ) (idx : List ℤ) (v : K) :
    Ext H (fun i => i = A) (fun _ => False) (fun _ => False) (write A idx v H).2 := by
  have h0 : Ext H (fun i => i = A) (fun _ => False) (fun _ => False) H := Ext.refl (fun _ _ h => h.elim)
  unfold write
  by_cases hA : A < H.na
  · simp only [hA, if_true]
    exact ⟨h0.no, h0.na, fun i hi h => Function.update_of_ne h _ _, h0.obj, h0.uses⟩
  · simp only [hA, if_false]
    exact h0

theorem Ext.mono {H H' : Heap K} {W O R W' R' : ℕ → Prop} (h : Ext H W O R H') (hW : ∀ i, W i → W' i) (hR : ∀ i, R i → R' i) :
    Ext H W' O R' H' :=
  ⟨h.no, h.na, fun i hi hi' => h.arr i hi fun h => hi' (hW i h), h.obj, fun o ho hO i hi => (h.uses o ho hO i hi).imp (hR i) id⟩

theorem exec_ext {H : Heap K} (hs : H.Sound) (env : Env K) (jn : Scratch K) (c : Cmd K) :
    Ext H (H.Writes c) c.Changes (fun i => H.Shares c i ∧ i < H.na) (c.exec env jn H) := by
  have h0 : ∀ W R : ℕ → Prop, Ext H W (fun _ => False) R H := fun _ _ => Ext.refl (fun _ _ h => h.elim)
  cases c with
  | geo o g => exact geo_ext hs env jn o g
  | copy o => exact (copy_ext o).mono (fun _ h => h) (fun _ h => h.elim)
  | clone o => exact clone_ext hs o
  | slice o axis start stop => exact slice_ext hs env jn o axis start stop
  | extract o axis value => exact extract_ext hs env jn o axis value
  | boundary o axis side => exact boundary_ext hs env jn o axis side
  | new knots control fields weights => exact new_ext knots control fields weights
  | newArr A => exact (h0 _ _).alloc A
  | write A idx v => exact (write_ext A idx v).mono (fun _ h => h) (fun _ h => h.elim)
  | writeNet o idx v =>
    show Ext H _ _ _ (writeNet o idx v H).2
    by_cases ho : o < H.no
    · have : writeNet o idx v H = write (H.obj o).arr idx v H := getObj_run ho _
      rw [this]
      exact (write_ext _ idx v).mono (fun _ h => h) (fun _ h => h.elim)
    · have : writeNet o idx v H = (.error .index, H) := bind_err (by rw [getObj, if_neg ho])
      rw [this]
      exact h0 _ _
  | writeKnot o axis i v =>
    show Ext H _ _ _ (writeKnot o axis i v H).2
    by_cases ho : o < H.no
    · have e : writeKnot o axis i v H = (lift (normAxis (H.obj o).d axis) >>= fun a => write ((H.obj o).knots a) [i] v) H :=
        getObj_run ho _
      rw [e]
      cases ha : normAxis (H.obj o).d axis with
      | error e => exact h0 _ _
      | ok a => exact (write_ext ((H.obj o).knots a) [i] v).mono (fun _ h => ⟨a, h⟩) (fun _ h => h.elim)
    · have : writeKnot o axis i v H = (.error .index, H) := bind_err (by rw [getObj, if_neg ho])
      rw [this]
      exact h0 _ _

theorem Ext.sound {H H' : Heap K} {W O R : ℕ → Prop} (h : Ext H W O R H') (hs : H.Sound) (hR : ∀ i, R i → i < H.na) :
    H'.Sound := by
  intro o ho i hi
  have := h.na
  by_cases hO : O o ∨ H.no ≤ o
  · rcases h.uses o ho hO i hi with h1 | h1
    · have := hR i h1; omega
    · exact h1.2
  · push Not at hO
    rw [h.obj o hO.2 hO.1] at hi
    have := hs o hO.2 i hi
    omega

theorem exec_sound {H : Heap K} (hs : H.Sound) (env : Env K) (jn : Scratch K) (c : Cmd K) : (c.exec env jn H).Sound :=
  (exec_ext hs env jn c).sound hs fun _ h => h.2

theorem execAll_sound (env : Env K) : ∀ (p : List (Scratch K × Cmd K)) {H : Heap K}, H.Sound → (execAll env H p).Sound
  | [], _, hs => hs
  | c :: p, H, hs => execAll_sound env p (H := c.2.exec env c.1 H) (exec_sound hs env c.1 c.2)

theorem exec_invalid {H : Heap K} (env : Env K) (jn : Scratch K) {c : Cmd K} {o : ℕ} (hn : c.Names o) (ho : H.no ≤ o) :
    c.exec env jn H = H := by
  have key : ∀ {α : Type} (f : Obj → HM K α), ((getObj o >>= f) H).2 = H := fun f => by
    rw [bind_err (by rw [getObj, if_neg (by omega)])]
  cases c with
  | geo o' g => cases hn; cases g <;> exact key _
  | new => exact hn.elim
  | newArr => exact hn.elim
  | write => exact hn.elim
  | _ => cases hn; exact key _

theorem frame (env : Env K) {H0 : Heap K} {S T : ℕ → Prop} : ∀ (p : List (Scratch K × Cmd K)) {H : Heap K}, H.Sound →
    H0.no ≤ H.no → H0.na ≤ H.na →
    (∀ o < H.no, S o ∨ H0.no ≤ o → ∀ i, (H.obj o).Uses i → T i ∨ H0.na ≤ i) →
    (∀ c ∈ p, c.2.Within S T H0.no H0.na) →
    H0.no ≤ (execAll env H p).no ∧ H0.na ≤ (execAll env H p).na ∧
    (∀ o < H0.no, ¬ S o → (execAll env H p).obj o = H.obj o) ∧
    (∀ i < H0.na, ¬ T i → (execAll env H p).arr i = H.arr i)
  | [], H, _, h1, h2, _, _ => ⟨h1, h2, fun _ _ _ => rfl, fun _ _ _ => rfl⟩
  | c :: p, H, hs, h1, h2, hu, hp => by
    have he := exec_ext hs env c.1 c.2
    set H1 := c.2.exec env c.1 H with hH1
    have hw := hp c List.mem_cons_self
    have e1 := he.no; have e2 := he.na
    rcases c with ⟨jn, c⟩
    by_cases hv : ∃ o, c.Names o ∧ H.no ≤ o
    · obtain ⟨o, hn, ho⟩ := hv
      have e : H1 = H := exec_invalid env jn hn ho
      have := frame env p hs h1 h2 hu fun c hc => hp c (List.mem_cons_of_mem _ hc)
      show H0.no ≤ (execAll env H1 p).no ∧ H0.na ≤ (execAll env H1 p).na ∧
        (∀ o < H0.no, ¬ S o → (execAll env H1 p).obj o = H.obj o) ∧ ∀ i < H0.na, ¬ T i → (execAll env H1 p).arr i = H.arr i
      rw [e]
      exact this
    push Not at hv
    have ob : ∀ o, c.Names o → ∀ i, (H.obj o).Uses i → T i ∨ H0.na ≤ i := fun o hn i hi =>
      hu o (hv o hn) (hw.names o hn) i hi
    have hW : ∀ i, H.Writes c i → T i ∨ H0.na ≤ i := by
      intro i hWi
      cases c with
      | geo o g => exact hw.given i hWi
      | write A idx v => exact hw.given i hWi
      | writeNet o idx v => exact ob o rfl i (Or.inl hWi)
      | writeKnot o axis j v => exact ob o rfl i (Or.inr hWi)
      | _ => exact hWi.elim
    have hS : ∀ i, H.Shares c i → T i ∨ H0.na ≤ i := by
      intro i hWi
      cases c with
      | geo o g => exact ob o rfl i hWi
      | clone o => exact ob o rfl i hWi
      | slice o => exact ob o rfl i hWi
      | extract o => exact ob o rfl i hWi
      | boundary o => exact ob o rfl i hWi
      | new knots control => exact hw.given i hWi
      | _ => exact hWi.elim
    have hC : ∀ o, c.Changes o → S o ∨ H0.no ≤ o := by
      intro o ho
      cases c with
      | geo o' g => exact hw.names o ho
      | _ => exact ho.elim
    have hu1 : ∀ o < H1.no, S o ∨ H0.no ≤ o → ∀ i, (H1.obj o).Uses i → T i ∨ H0.na ≤ i := by
      intro o ho hSo i hi
      by_cases hO : c.Changes o ∨ H.no ≤ o
      · rcases he.uses o ho hO i hi with h | h
        · exact hS i h.1
        · right; omega
      · push Not at hO
        rw [he.obj o hO.2 hO.1] at hi
        exact hu o hO.2 hSo i hi
    obtain ⟨f1, f2, f3, f4⟩ := frame env p (H0 := H0) (S := S) (T := T) (H := H1) (exec_sound hs env jn c) (by omega) (by omega)
      hu1 fun c hc => hp c (List.mem_cons_of_mem _ hc)
    refine ⟨f1, f2, fun o ho hSo => (f3 o ho hSo).trans (he.obj o (by omega) fun h => ?_), fun i hi hT =>
      (f4 i hi hT).trans (he.arr i (by omega) fun h => ?_)⟩
    · rcases hC o h with h | h
      · exact hSo h
      · omega
    · rcases hW i h with h | h
      · exact hT h
      · omega

end Heap
end Igakit
