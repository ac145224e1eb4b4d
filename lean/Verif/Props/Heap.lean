import Verif.Proofs.HeapFrame
import Verif.Props.Vtk

/-!
# C45, C47: sharing of arrays

`Heap.Sound` holds of the empty heap and after every command (`Heap.execAll_sound`).
-/

set_option linter.unusedSectionVars false

namespace Igakit

variable {K : Type} [Field K] [LinearOrder K]

open Heap

theorem view_congr {H H' : Heap K} {o : ℕ} (ho : H'.obj o = H.obj o) (h : ∀ i, (H.obj o).Uses i → H'.arr i = H.arr i) :
    H'.view o = H.view o := by
  unfold Heap.view
  rw [ho, nrb_congr h]

theorem empty_sound (H : Heap K) (h : H.no = 0) : H.Sound := fun o ho => by omega

/-- objects to which no method is applied keep their references -/
theorem obj_keep (env : Env K) : ∀ (p : List (Scratch K × Cmd K)) {H : Heap K}, H.Sound → ∀ {o : ℕ}, o < H.no →
    (∀ c ∈ p, ¬ c.2.Changes o) → (execAll env H p).obj o = H.obj o ∧ o < (execAll env H p).no
  | [], _, _, _, ho, _ => ⟨rfl, ho⟩
  | c :: p, H, hs, o, ho, hp => by
    have he := exec_ext hs env c.1 c.2
    have := obj_keep env p (H := c.2.exec env c.1 H) (exec_sound hs env c.1 c.2) (o := o) (lt_of_lt_of_le ho he.no)
      fun c hc => hp c (List.mem_cons_of_mem _ hc)
    exact ⟨this.1.trans (he.obj o ho (hp c List.mem_cons_self)), this.2⟩

theorem writes_geoGiven {H : Heap K} {c : Cmd K} (h : c.NoWrite) {i : ℕ} (hi : H.Writes c i) : c.GeoGiven i := by
  cases c with
  | geo => exact hi
  | write => exact h.elim
  | writeNet => exact h.elim
  | writeKnot => exact h.elim
  | _ => exact hi.elim

/-- C45: no method writes into an array that existed before, except `refine` into the array that it is given -/
theorem C45_arrays (env : Env K) : ∀ (p : List (Scratch K × Cmd K)) {H : Heap K}, H.Sound → (∀ c ∈ p, c.2.NoWrite) →
    ∀ {i : ℕ}, i < H.na → (∀ c ∈ p, ¬ c.2.GeoGiven i) → (execAll env H p).arr i = H.arr i
  | [], _, _, _, _, _, _ => rfl
  | c :: p, H, hs, hw, i, hi, hp => by
    have he := exec_ext hs env c.1 c.2
    have := C45_arrays env p (H := c.2.exec env c.1 H) (exec_sound hs env c.1 c.2)
      (fun c hc => hw c (List.mem_cons_of_mem _ hc)) (i := i) (lt_of_lt_of_le hi he.na)
      fun c hc => hp c (List.mem_cons_of_mem _ hc)
    exact this.trans (he.arr i hi fun h => hp c List.mem_cons_self (writes_geoGiven (hw c List.mem_cons_self) h))

/-- C45: whatever is done to other objects (clones of `o` among them), by methods, `o` keeps its knots and control net -/
theorem C45_operations (env : Env K) (p : List (Scratch K × Cmd K)) {H : Heap K} (hs : H.Sound) (hw : ∀ c ∈ p, c.2.NoWrite)
    {o : ℕ} (ho : o < H.no) (hc : ∀ c ∈ p, ¬ c.2.Changes o) (hg : ∀ c ∈ p, ∀ i, (H.obj o).Uses i → ¬ c.2.GeoGiven i) :
    (execAll env H p).view o = H.view o :=
  view_congr (obj_keep env p hs ho hc).1 fun _ hi => C45_arrays env p hs hw (hs o ho _ hi) fun c hcp => hg c hcp _ hi

/-- C45: a copy has the values of the original in new arrays -/
theorem C45_copy_fresh (H : Heap K) (hs : H.Sound) {o : ℕ} (ho : o < H.no) :
    ∃ H1, Heap.copy o H = (.ok H.no, H1) ∧ H1.no = H.no + 1 ∧ H1.view H.no = H.view o ∧
      (∀ i, (H1.obj H.no).Uses i → H.na ≤ i) ∧ (∀ i < H.na, H1.arr i = H.arr i) ∧ (∀ o' < H.no, H1.obj o' = H.obj o') ∧
      H1.Sound := by
  have he := copy_ext (H := H) o
  have e : Heap.copy o H = (do
        let A ← fun H1 : Heap K => alloc (H1.arr (H.obj o).arr) H1
        let k ← fun H1 : Heap K => allocAll (fun a => H1.arr ((H.obj o).knots a)) H1
        newObj ⟨(H.obj o).d, A, k⟩ : HM K ℕ) H := getObj_run ho _
  have e1 : (Heap.copy o H).1 = .ok H.no := by rw [e]; rfl
  have hno : (Heap.copy o H).2.no = H.no + 1 := by rw [e]; rfl
  have hobj : (Heap.copy o H).2.obj H.no = ⟨(H.obj o).d, H.na, fun a => H.na + 1 + a⟩ := by
    rw [e]
    exact Function.update_self _ _ _
  refine ⟨(Heap.copy o H).2, by rw [← e1], hno, ?_, fun i hi => ?_, fun i hi => he.arr i hi id,
    fun o' ho' => he.obj o' ho' id, he.sound hs fun _ h => h.elim⟩
  · unfold Heap.view
    rw [hobj]
    refine Sigma.ext rfl (heq_of_eq ?_)
    have hA : (Heap.copy o H).2.arr H.na = H.arr (H.obj o).arr := by
      rw [e]
      show (if h : _ then _ else _) = _
      rw [dif_neg (by show ¬ (H.na + 1 ≤ H.na ∧ _); omega)]
      exact Function.update_self _ _ _
    have hk : ∀ a : Fin (H.obj o).d, (Heap.copy o H).2.arr (H.na + 1 + a) = H.arr ((H.obj o).knots a) := by
      intro a
      have hlt : (H.obj o).knots a < H.na := hs o ho _ (Or.inr ⟨a, rfl⟩)
      rw [e]
      show (if h : H.na + 1 ≤ H.na + 1 + (a : ℕ) ∧ H.na + 1 + (a : ℕ) < H.na + 1 + (H.obj o).d then _ else _) = _
      rw [dif_pos ⟨by omega, by have := a.2; omega⟩]
      show Function.update H.arr H.na _ ((H.obj o).knots ⟨H.na + 1 + (a : ℕ) - (H.na + 1), _⟩) = _
      have : (⟨H.na + 1 + (a : ℕ) - (H.na + 1), by have := a.2; omega⟩ : Fin (H.obj o).d) = a := Fin.ext (by dsimp only; omega)
      rw [this, Function.update_of_ne (by omega)]
    unfold nrb
    dsimp only
    simp only [hA, hk]
  · rcases he.uses H.no (by omega) (Or.inr le_rfl) i hi with h | h
    · exact h.elim
    · exact h.1

/-- C45: nothing that is done with the copy and with what is made from it - writing into its arrays, methods, copies,
clones - changes an object that existed before -/
theorem C45_copy (env : Env K) (H : Heap K) (hs : H.Sound) {o : ℕ} (ho : o < H.no) {H1 : Heap K}
    (h1 : Heap.copy o H = (.ok H.no, H1)) (p : List (Scratch K × Cmd K))
    (hp : ∀ c ∈ p, c.2.Within (fun _ => False) (fun _ => False) H.no H.na) :
    ∀ o' < H.no, (execAll env H1 p).view o' = H.view o' := by
  obtain ⟨H1', h1', hno, -, hu, ha, hob, hs1⟩ := C45_copy_fresh H hs ho
  obtain rfl : H1' = H1 := by rw [h1] at h1'; exact (Prod.mk.inj h1').2.symm
  have hna : H.na ≤ H1'.na := by have := (copy_ext (H := H) o).na; rw [h1] at this; exact this
  obtain ⟨-, -, f3, f4⟩ := frame env (H0 := H) (S := fun _ => False) (T := fun _ => False) p hs1 (by omega) hna
    (fun o' ho' hS i hi => by
      rcases hS with hS | hS
      · exact hS.elim
      · obtain rfl : o' = H.no := by omega
        exact Or.inr (hu i hi)) hp
  intro o' ho'
  refine view_congr ((f3 o' ho' id).trans (hob o' ho')) fun i hi => ?_
  have hlt := hs o' ho' i hi
  exact (f4 i hlt id).trans (ha i hlt)

/-- C45: nothing that is done without the copy changes the copy -/
theorem C45_copy_back (env : Env K) (H : Heap K) (hs : H.Sound) {o : ℕ} (ho : o < H.no) {H1 : Heap K}
    (h1 : Heap.copy o H = (.ok H.no, H1)) (p : List (Scratch K × Cmd K))
    (hp : ∀ c ∈ p, c.2.Within (fun o' => o' ≠ H.no) (fun i => i < H.na) H1.no H1.na) :
    (execAll env H1 p).view H.no = H.view o := by
  obtain ⟨H1', h1', hno, hv, hu, ha, hob, hs1⟩ := C45_copy_fresh H hs ho
  obtain rfl : H1' = H1 := by rw [h1] at h1'; exact (Prod.mk.inj h1').2.symm
  obtain ⟨-, -, f3, f4⟩ := frame env (H0 := H1') (S := fun o' => o' ≠ H.no) (T := fun i => i < H.na) p hs1 le_rfl le_rfl
    (fun o' ho' hS i hi => by
      left
      have : o' < H.no := by
        rcases hS with hS | hS <;> omega
      rw [hob o' this] at hi
      exact hs o' this i hi) hp
  rw [← hv]
  refine view_congr (f3 _ (by omega) fun h => h rfl) fun i hi => f4 i (hs1 _ (by omega) i hi) fun h => ?_
  have := hu i hi
  omega

/-- C45: a clone refers to the same arrays, and is seen with the same values whatever is written into arrays and whatever
is done to other objects, until a method is applied to one of the two -/
theorem C45_clone (env : Env K) (H : Heap K) (hs : H.Sound) {o : ℕ} (ho : o < H.no) :
    ∃ H1, Heap.clone o H = (.ok H.no, H1) ∧ H1.no = H.no + 1 ∧ H1.obj H.no = H1.obj o ∧ H1.arr = H.arr ∧
      (∀ o' < H.no, H1.obj o' = H.obj o') ∧ H1.Sound ∧
      ∀ p, (∀ c ∈ p, ¬ c.2.Changes o ∧ ¬ c.2.Changes H.no) →
        (execAll env H1 p).view H.no = (execAll env H1 p).view o := by
  have e : Heap.clone o H = newObj (H.obj o) H := getObj_run ho _
  have he := clone_ext (H := H) hs o
  have hs1 : (Heap.clone o H).2.Sound := he.sound hs fun _ h => h.2
  have hno : (Heap.clone o H).2.no = H.no + 1 := by rw [e]; rfl
  have hob : ∀ o' < H.no, (Heap.clone o H).2.obj o' = H.obj o' := fun o' ho' => he.obj o' ho' id
  have hsame : (Heap.clone o H).2.obj H.no = (Heap.clone o H).2.obj o := by
    rw [hob o ho, e]
    exact Function.update_self _ _ _
  refine ⟨(Heap.clone o H).2, by rw [e]; rfl, hno, hsame, by rw [e]; rfl, hob, hs1, fun p hp => ?_⟩
  have h1 := (obj_keep env p hs1 (o := o) (by omega) fun c hc => (hp c hc).1).1
  have h2 := (obj_keep env p hs1 (o := H.no) (by omega) fun c hc => (hp c hc).2).1
  unfold Heap.view
  rw [h1, h2, hsame]

/-! ## the array given to `refine` -/

theorem offsetC_unravel {sh : List ℤ} (h : ∀ s ∈ sh, 0 < s) {t : ℤ} (h0 : 0 ≤ t) (h1 : t < sh.prod) :
    offsetF sh.reverse (unravelF sh.reverse t) = t :=
  (offsetF_unravelF (ss := sh.reverse) (fun s hs => h s (List.mem_reverse.1 hs)) h0 (by rw [List.prod_reverse]; exact h1)).2

theorem ravelC_putBlock {A : Nd K} (hA : ∀ s ∈ A.shape, 0 ≤ s) {start : ℕ} {l : List K}
    (h : start + l.length ≤ (ravelC A).length) :
    ravelC (putBlock A start l) = (ravelC A).take start ++ l ++ (ravelC A).drop (start + l.length) := by
  have hlen : ∀ B : Nd K, (ravelC B).length = B.shape.prod.toNat := fun B => by simp [ravelC]
  apply List.ext_getElem
  · rw [hlen, List.length_append, List.length_append, List.length_take, List.length_drop, min_eq_left (by omega)]
    rw [hlen] at *
    show A.shape.prod.toNat = _
    omega
  · intro t h1 h2
    rw [hlen] at h1
    change t < A.shape.prod.toNat at h1
    have hpos : ∀ s ∈ A.shape, 0 < s := by
      intro s hs
      rcases (hA s hs).lt_or_eq with h | h
      · exact h
      · exfalso
        have : A.shape.prod = 0 := List.prod_eq_zero (h ▸ hs)
        rw [this] at h1
        simp at h1
    have ht : offsetF A.shape.reverse (unravelF A.shape.reverse t) = t := offsetC_unravel hpos (by omega) (by omega)
    have e : (ravelC (putBlock A start l))[t]'(by rw [hlen]; exact h1) =
        if start ≤ t ∧ t < start + l.length then l.getD (t - start) 0 else (ravelC A)[t]'(by rw [hlen]; exact h1) := by
      simp only [ravelC, putBlock, List.getElem_map, List.getElem_range, List.reverse_reverse, ht, Int.toNat_natCast]
    rw [e]
    by_cases hc1 : t < start
    · rw [if_neg (by omega), List.getElem_append_left (by simp; omega), List.getElem_append_left (by simp; omega),
        List.getElem_take]
    · by_cases hc2 : t < start + l.length
      · rw [if_pos ⟨by omega, hc2⟩, List.getElem_append_left (by simp; omega), List.getElem_append_right (by simp; omega),
          List.getD_eq_getElem?_getD]
        have hm : min start (ravelC A).length = start := by omega
        simp only [List.length_take, hm]
        rw [List.getElem?_eq_getElem (by omega), Option.getD_some]
      · rw [if_neg (by omega), List.getElem_append_right (by simp; omega), List.getElem_drop]
        congr 1
        simp
        omega

theorem sorted_arr {H : Heap K} {A s c : ℕ} (hA : ∀ n ∈ (H.arr A).shape, 0 ≤ n) (h : s + c ≤ (ravelC (H.arr A)).length) :
    ((H.sorted A s c).arr A).shape = (H.arr A).shape ∧
    ravelC ((H.sorted A s c).arr A) = (ravelC (H.arr A)).take s ++
      (H.block A s c).mergeSort (fun x y => decide (x ≤ y)) ++ (ravelC (H.arr A)).drop (s + c) := by
  have e : (H.sorted A s c).arr A = putBlock (H.arr A) s ((H.block A s c).mergeSort (fun x y => decide (x ≤ y))) :=
    Function.update_self _ _ _
  have hl : (H.block A s c).length = c := by
    unfold Heap.block
    rw [List.length_take, List.length_drop]
    omega
  rw [e]
  refine ⟨rfl, ?_⟩
  have := ravelC_putBlock (start := s) (l := (H.block A s c).mergeSort (fun x y => decide (x ≤ y))) hA
    (by rw [List.length_mergeSort, hl]; exact h)
  rw [List.length_mergeSort, hl] at this
  exact this

/-- C45: `refine` sorts the block that it is given in the array of the caller, whether it then succeeds or raises; the rest
of that array and all other arrays stay as they are -/
theorem C45_refine_sorts (env : Env K) (jn : Scratch K) (H : Heap K) (hs : H.Sound) {o : ℕ} (ho : o < H.no) {axis : ℤ}
    {a : Fin (H.obj o).d} (ha : normAxis (H.obj o).d axis = .ok a) {A s c : ℕ} (hA : A < H.na)
    (hsh : ∀ n ∈ (H.arr A).shape, 0 ≤ n) (h : s + c ≤ (ravelC (H.arr A)).length) {H' : Heap K}
    (hH' : H' = ((Geo.refine axis (.block A s c)).run env jn o H).2) :
    (H'.arr A).shape = (H.arr A).shape ∧
    ravelC (H'.arr A) = (ravelC (H.arr A)).take s ++
      (H.block A s c).mergeSort (fun x y => decide (x ≤ y)) ++ (ravelC (H.arr A)).drop (s + c) ∧
    (∀ i < H.na, i ≠ A → H'.arr i = H.arr i) ∧ ∀ o' < H.no, o' ≠ o → H'.obj o' = H.obj o' := by
  have he := geo_ext hs env jn o (.refine axis (.block A s c))
  have hr := refine_block_valid env jn ho ha hA h
  change H' = (Heap.refine env jn o axis (.block A s c) H).2 at hH'
  rw [hr] at hH'
  change Ext H _ _ _ (Heap.refine env jn o axis (.block A s c) H).2 at he
  rw [hr, ← hH'] at he
  rw [← and_assoc]
  refine ⟨?_, fun i hi hne => he.arr i hi hne, fun o' ho' hne => he.obj o' ho' hne⟩
  by_cases hn : H.block A s c = []
  · rw [if_pos hn] at hH'
    rw [hH', hn]
    refine ⟨rfl, ?_⟩
    have hl : (H.block A s c).length = c := by
      unfold Heap.block
      rw [List.length_take, List.length_drop]
      omega
    rw [hn] at hl
    obtain rfl : c = 0 := by simpa using hl.symm
    simp
  · rw [if_neg hn] at hH'
    have he2 := geo_ext (H := H.sorted A s c) hs env jn o (.refine axis (.fresh (H.block A s c)))
    change Ext _ _ _ _ (Heap.refine env jn o axis _ _).2 at he2
    rw [← hH'] at he2
    have e : H'.arr A = (H.sorted A s c).arr A := he2.arr A hA id
    rw [e]
    exact sorted_arr hsh h

/-- C45: methods change the array that they are given into a permutation of it -/
theorem C45_given (env : Env K) : ∀ (p : List (Scratch K × Cmd K)) {H : Heap K}, H.Sound → (∀ c ∈ p, c.2.NoWrite) →
    ∀ {i : ℕ}, i < H.na → (∀ n ∈ (H.arr i).shape, 0 ≤ n) →
    ((execAll env H p).arr i).shape = (H.arr i).shape ∧ (ravelC ((execAll env H p).arr i)).Perm (ravelC (H.arr i))
  | [], _, _, _, _, _, _ => ⟨rfl, .refl _⟩
  | c :: p, H, hs, hw, i, hi, hsh => by
    have he := exec_ext hs env c.1 c.2
    have step : ((c.2.exec env c.1 H).arr i).shape = (H.arr i).shape ∧
        (ravelC ((c.2.exec env c.1 H).arr i)).Perm (ravelC (H.arr i)) := by
      by_cases hg : c.2.GeoGiven i
      · rcases c with ⟨jn, c⟩
        cases c with
        | geo o g =>
          cases g with
          | refine axis values =>
            cases values with
            | fresh => exact hg.elim
            | block B s c =>
              obtain rfl : i = B := hg
              show ((Heap.refine env jn o axis (.block i s c) H).2.arr i).shape = _ ∧
                (ravelC ((Heap.refine env jn o axis (.block i s c) H).2.arr i)).Perm _
              rcases refine_block H env jn o axis i s c with ⟨r, hr⟩ | ⟨hB, hl, hn, hr⟩
              · rw [hr]; exact ⟨rfl, .refl _⟩
              · have he2 := geo_ext (H := H.sorted i s c) hs env jn o (.refine axis (.fresh (H.block i s c)))
                have e : (Heap.refine env jn o axis (.block i s c) H).2.arr i = (H.sorted i s c).arr i := by
                  rw [hr]; exact he2.arr i hi id
                rw [e]
                obtain ⟨h1, h2⟩ := sorted_arr hsh hl
                refine ⟨h1, ?_⟩
                rw [h2]
                refine (((List.mergeSort_perm _ _).append_left _).append_right _).trans (.of_eq ?_)
                unfold Heap.block
                rw [List.append_assoc, ← List.drop_drop, List.take_append_drop, List.take_append_drop]
          | _ => exact hg.elim
        | _ => exact hg.elim
      · rw [he.arr i hi fun h => hg (writes_geoGiven (hw c List.mem_cons_self) h)]
        exact ⟨rfl, .refl _⟩
    have := C45_given env p (H := c.2.exec env c.1 H) (exec_sound hs env c.1 c.2)
      (fun c hc => hw c (List.mem_cons_of_mem _ hc)) (i := i) (lt_of_lt_of_le hi he.na) (by rw [step.1]; exact hsh)
    exact ⟨this.1.trans step.1, this.2.trans step.2⟩

/-! ## histories -/

/-- one method on one object -/
theorem geo_view {H : Heap K} (hs : H.Sound) {o : ℕ} (ho : o < H.no) (env : Env K) (jn : Scratch K) (g : Geo K) (hf : g.Fresh) :
    (g.run env jn o H).2.view o = Cmd.after env jn g (H.view o) := by
  have hv : ∃ d A k, H.obj o = ⟨d, A, k⟩ := ⟨_, _, _, rfl⟩
  obtain ⟨d, A, k, hx⟩ := hv
  have := geo_does ho (hs o ho) hx env jn g hf
  have e : H.view o = ⟨d, H.nrb ⟨d, A, k⟩⟩ := by unfold Heap.view; rw [hx]
  rw [Cmd.after, e]
  dsimp only
  revert this
  generalize g.apply env jn g.vals (H.nrb ⟨d, A, k⟩) = r
  cases r with
  | error err =>
    rintro ⟨H', h1, h2⟩
    rw [h1]
    dsimp only
    rw [← e]
    exact view_congr (by rw [h2.obj]) fun i hi => h2.arr i (hs o ho i hi)
  | ok N =>
    rintro ⟨H', A', k', h1, h2, h3⟩
    rw [h1]
    unfold Heap.view
    dsimp only
    rw [h2.obj, Function.update_self, h3]

/-- C45: objects behave as values: after any program of methods, copies, clones, slices and so on, the knots and the net of
an object are what its own methods make of them, although clones share arrays -/
theorem C45_values (env : Env K) : ∀ (p : List (Scratch K × Cmd K)) {H : Heap K}, H.Sound → (∀ c ∈ p, c.2.NoWrite) →
    (∀ c ∈ p, ∀ i, ¬ c.2.GeoGiven i) → ∀ {o : ℕ}, o < H.no → (execAll env H p).view o = ownAll env o (H.view o) p
  | [], _, _, _, _, _, _ => rfl
  | c :: p, H, hs, hw, hg, o, ho => by
    have he := exec_ext hs env c.1 c.2
    have := C45_values env p (H := c.2.exec env c.1 H) (exec_sound hs env c.1 c.2)
      (fun c hc => hw c (List.mem_cons_of_mem _ hc)) (fun c hc => hg c (List.mem_cons_of_mem _ hc)) (o := o)
      (lt_of_lt_of_le ho he.no)
    refine this.trans ?_
    show ownAll env o _ p = ownAll env o (c.2.own env c.1 o (H.view o)) p
    congr 1
    have keep : ¬ c.2.Changes o → (c.2.exec env c.1 H).view o = H.view o := fun hc =>
      view_congr (he.obj o ho hc) fun i hi => he.arr i (hs o ho i hi) fun h =>
        hg c List.mem_cons_self i (writes_geoGiven (hw c List.mem_cons_self) h)
    rcases c with ⟨jn, c⟩
    cases c with
    | geo o' g =>
      by_cases hoo : o' = o
      · subst hoo
        have hf : g.Fresh := by
          cases g with
          | refine axis values =>
            cases values with
            | fresh => trivial
            | block A s c => exact (hg _ List.mem_cons_self A rfl).elim
          | _ => trivial
        refine (geo_view hs ho env jn g hf).trans ?_
        show _ = if o' = o' then _ else _
        rw [if_pos rfl]
      · refine (keep fun h => hoo h.symm).trans ?_
        show _ = if o' = o then _ else _
        rw [if_neg hoo]
    | _ => exact keep id

/-! ## C47: exceptions -/

/-- C47: a method that raises leaves all objects and all arrays as they are.  (The argument `values` of `refine` is not an
array of doubles here.) -/
theorem C47_rejected_partial (env : Env K) (jn : Scratch K) (H : Heap K) (hs : H.Sound) (o : ℕ) (g : Geo K) (hf : g.Fresh) {e : Err}
    {H' : Heap K} (h : g.run env jn o H = (.error e, H')) :
    H'.no = H.no ∧ (∀ i < H.na, H'.arr i = H.arr i) ∧ ∀ o' < H.no, H'.obj o' = H.obj o' ∧ H'.view o' = H.view o' := by
  have key : Grown H H' := by
    by_cases ho : o < H.no
    · rcases hx : H.obj o with ⟨d, A, k⟩
      have := geo_does ho (hs o ho) hx env jn g hf
      revert this
      generalize g.apply env jn g.vals (H.nrb ⟨d, A, k⟩) = r
      cases r with
      | error e' =>
        rintro ⟨H2, h1, h2⟩
        rw [h] at h1
        obtain rfl : H' = H2 := (Prod.mk.inj h1).2
        exact h2
      | ok N =>
        rintro ⟨H2, A', k', h1, -⟩
        rw [h] at h1
        cases (Prod.mk.inj h1).1
    · have : g.run env jn o H = (.error .index, H) := by
        cases g <;> exact bind_err (by rw [getObj, if_neg ho])
      rw [h] at this
      rw [(Prod.mk.inj this).2]
      exact Grown.refl H
  exact ⟨key.no, key.arr, fun o' ho' => ⟨by rw [key.obj], view_congr (by rw [key.obj]) fun i hi => key.arr i (hs o' ho' i hi)⟩⟩

/-- C47: `refine` with a block of an array of the caller that raises: the objects that do not use this array stay as they
are -/
theorem C47_given_partial (env : Env K) (jn : Scratch K) (H : Heap K) (hs : H.Sound) (o : ℕ) (g : Geo K) {e : Err}
    {H' : Heap K} (h : g.run env jn o H = (.error e, H')) :
    H'.no = H.no ∧ ∀ o' < H.no, (∀ i, (H.obj o').Uses i → ¬ g.Given i) → H'.view o' = H.view o' := by
  by_cases hf : g.Fresh
  · obtain ⟨h1, -, h3⟩ := C47_rejected_partial env jn H hs o g hf h
    exact ⟨h1, fun o' ho' _ => (h3 o' ho').2⟩
  · cases g with
    | refine axis values =>
      cases values with
      | fresh => exact (hf trivial).elim
      | block B s c =>
        change Heap.refine env jn o axis (.block B s c) H = _ at h
        rcases refine_block H env jn o axis B s c with ⟨r, hr⟩ | ⟨hB, -, -, hr⟩
        · rw [hr] at h
          rw [← (Prod.mk.inj h).2]
          exact ⟨rfl, fun _ _ _ => rfl⟩
        · rw [hr] at h
          obtain ⟨h1, -, h3⟩ := C47_rejected_partial env jn (H.sorted B s c) hs o (.refine axis (.fresh (H.block B s c))) trivial h
          refine ⟨h1, fun o' ho' hu => ((h3 o' ho').2).trans (view_congr rfl fun i hi => ?_)⟩
          exact Function.update_of_ne (fun h => hu i hi h) _ _
    | _ => exact (hf trivial).elim

/-- C47: the methods that make objects, whether they raise or not, leave all existing objects as they are -/
theorem C47_creators (env : Env K) (jn : Scratch K) (H : Heap K) (hs : H.Sound) (c : Cmd K) (hw : c.NoWrite)
    (hc : ∀ o, ¬ c.Changes o) : ∀ o < H.no, (c.exec env jn H).view o = H.view o := fun o ho =>
  C45_operations env [(jn, c)] hs (by simpa using hw) ho (by simpa using hc o) (by
    intro c' hc' i _ hg
    obtain rfl : c' = (jn, c) := by simpa using hc'
    cases c with
    | geo o' g => exact hc o' rfl
    | _ => exact hg)

/-! ## the constructor -/

theorem asArray_run {H H1 : Heap K} {r : ArrRef K} {A : ℕ} (h : asArray r H = (.ok A, H1)) (hr : ∀ i, r = .ref i → i < H.na) :
    Grown H H1 ∧ H1.arr A = r.val H ∧ A < H1.na ∧ (∀ i, r = .ref i → A = i) ∧ (∀ B, r = .fresh B → H.na ≤ A) := by
  cases r with
  | fresh B =>
    obtain ⟨h1, h2⟩ := Prod.mk.inj h
    cases h1
    subst h2
    exact ⟨⟨rfl, rfl, Nat.le_succ _, fun i hi => Function.update_of_ne (by omega) _ _⟩, Function.update_self _ _ _,
      Nat.lt_succ_self _, fun i hi => (by cases hi), fun _ _ => le_rfl⟩
  | ref i =>
    have hi := hr i rfl
    change (if i < H.na then _ else _) = _ at h
    rw [if_pos hi] at h
    obtain ⟨h1, h2⟩ := Prod.mk.inj h
    cases h1
    subst h2
    exact ⟨Grown.refl H, rfl, hi, fun j hj => (by cases hj; rfl), fun _ hB => by cases hB⟩

theorem Heap.Grown.trans {H H1 H2 : Heap K} (h : Grown H H1) (g : Grown H1 H2) : Grown H H2 :=
  ⟨g.obj.trans h.obj, g.no.trans h.no, h.na.trans g.na, fun i hi => (g.arr i (lt_of_lt_of_le hi h.na)).trans (h.arr i hi)⟩

theorem ArrRef.val_grown {H H1 : Heap K} (h : Grown H H1) {r : ArrRef K} (hr : ∀ i, r = .ref i → i < H.na) :
    r.val H1 = r.val H := by
  cases r with
  | fresh => rfl
  | ref i => exact h.arr i (hr i rfl)

theorem asArrays_run : ∀ {d : ℕ} {H H1 : Heap K} {r : Fin d → ArrRef K} {ks : Fin d → ℕ}, asArrays r H = (.ok ks, H1) →
    (∀ a i, r a = .ref i → i < H.na) →
    Grown H H1 ∧ ∀ a, H1.arr (ks a) = (r a).val H ∧ ks a < H1.na ∧ (∀ i, r a = .ref i → ks a = i) ∧
      (∀ B, r a = .fresh B → H.na ≤ ks a)
  | 0, H, H1, r, ks, h, _ => by
    obtain ⟨-, h2⟩ := Prod.mk.inj h
    subst h2
    exact ⟨Grown.refl H, fun a => a.elim0⟩
  | d + 1, H, H1, r, ks, h, hr => by
    unfold asArrays at h
    rw [bind_run] at h
    rcases e : asArray (r 0) H with ⟨_ | A, H2⟩
    · rw [e] at h; cases h
    rw [e] at h
    dsimp only at h
    rw [bind_run] at h
    rcases e2 : asArrays (fun a => r a.succ) H2 with ⟨_ | As, H3⟩
    · rw [e2] at h; cases h
    rw [e2] at h
    obtain ⟨h1, h2⟩ := Prod.mk.inj h
    cases h1
    subst h2
    obtain ⟨g1, f1, f2, f3, f4⟩ := asArray_run e (hr 0)
    have hr2 : ∀ a i, r (Fin.succ a) = .ref i → i < H2.na := fun a i hi => lt_of_lt_of_le (hr _ i hi) g1.na
    obtain ⟨g2, k⟩ := asArrays_run e2 hr2
    refine ⟨g1.trans g2, fun a => ?_⟩
    refine Fin.cases ?_ (fun b => ?_) a
    · exact ⟨(g2.arr A f2).trans f1, lt_of_lt_of_le f2 g2.na, f3, f4⟩
    · obtain ⟨k1, k2, k3, k4⟩ := k b
      exact ⟨k1.trans (ArrRef.val_grown g1 (hr b.succ)), k2, k3, fun B hB => g1.na.trans (k4 B hB)⟩

/-- the new object after `newObj` -/
theorem newObj_view {H : Heap K} (x : Obj) : (newObj x H).2.view H.no = ⟨x.d, H.nrb x⟩ := by
  unfold Heap.view
  have : (newObj x H).2.obj H.no = x := Function.update_self _ _ _
  rw [this]
  rfl

theorem ctor_fields {d : ℕ} {U : Fin d → Nd K} {C : CtrlArg K} {f w : Option (Nd K)} {N : Nrb K d}
    (h : Nrb.ctor U C f w = .ok N) : N.len = (fun a => (U a).shape.headD 0) ∧ N.U = fun a j => (U a).get [j] := by
  unfold Nrb.ctor at h
  obtain ⟨-, -, h⟩ := res_bind_inv h
  obtain ⟨-, -, h⟩ := res_bind_inv h
  obtain ⟨-, -, h⟩ := res_bind_inv h
  obtain ⟨cw, -, h⟩ := res_bind_inv h
  obtain ⟨Hn, -, h⟩ := res_bind_inv h
  obtain ⟨A, -, h⟩ := res_bind_inv h
  obtain ⟨-, -, h⟩ := res_bind_inv h
  obtain ⟨-, -, h⟩ := res_bind_inv h
  cases h
  exact ⟨rfl, rfl⟩

theorem getLastD_concat_dropLast : ∀ {l : List ℤ}, l ≠ [] → l.dropLast ++ [l.getLastD 0] = l := by
  intro l hl
  rw [List.getLastD_eq_getLast?, List.getLast?_eq_getLast_of_ne_nil hl, Option.getD_some, List.dropLast_append_getLast]

/-- with a control array of four components and no fields the net is that array -/
theorem ctor_four {d : ℕ} {U : Fin d → Nd K} {D : Nd K} {w : Option (Nd K)} {N : Nrb K d} (h4 : D.shape.getLastD 0 = 4)
    (h : Nrb.ctor U (.arr D) none w = .ok N) :
    N.shape = (fun a : Fin d => D.shape.getD a 0) ∧ N.nc = (D.shape.getLastD 0).toNat ∧
      N.P = fun idx (c : ℕ) => D.get (List.ofFn idx ++ [(c : ℤ)]) := by
  unfold Nrb.ctor at h
  obtain ⟨-, -, h⟩ := res_bind_inv h
  obtain ⟨-, -, h⟩ := res_bind_inv h
  obtain ⟨-, -, h⟩ := res_bind_inv h
  obtain ⟨cw, hcw, h⟩ := res_bind_inv h
  cases hcw
  obtain ⟨Hn, hH, h⟩ := res_bind_inv h
  obtain ⟨A, hA, h⟩ := res_bind_inv h
  cases hA
  obtain ⟨u, hl, h⟩ := res_bind_inv h
  have hlen := pyAssert_ok_iff.1 hl
  obtain ⟨-, -, h⟩ := res_bind_inv h
  cases h
  change Nrb.ctorControl D w = _ at hH
  unfold Nrb.ctorControl at hH
  obtain ⟨-, h2, hH⟩ := res_bind_inv hH
  obtain ⟨-, -, hH⟩ := res_bind_inv hH
  obtain ⟨-, -, hH⟩ := res_bind_inv hH
  rw [if_neg (by rw [h4]; omega)] at hH
  obtain ⟨-, -, hH⟩ := res_bind_inv hH
  cases hH
  refine ⟨funext fun a => ?_, by rw [h4]; rfl, rfl⟩
  have ha := a.2
  have hlt : (a : ℕ) < D.shape.dropLast.length := by
    show (a : ℕ) < D.shape.dropLast.length
    rw [hlen]; exact ha
  show D.shape.dropLast.getD a 0 = D.shape.getD a 0
  rw [List.getD_eq_getElem?_getD, List.getD_eq_getElem?_getD, List.getElem?_dropLast, if_pos (by
    rw [List.length_dropLast] at hlt; exact hlt)]

/-- C45: the constructor keeps the arrays of doubles that it is given: knot vectors always, control points if they have four
components and there are no fields; everything else is copied.  The values are those of `Nrb.ctor` (C22, C23). -/
theorem C45_new {d : ℕ} (H : Heap K) {knots : Fin d → ArrRef K} {control : CtrlRef K} {fields weights : Option (Nd K)}
    (hk : ∀ a i, knots a = .ref i → i < H.na) (hc : ∀ i, control = .arr (.ref i) → i < H.na) {o : ℕ} {H' : Heap K}
    (h : Heap.new knots control fields weights H = (.ok o, H')) :
    o = H.no ∧ H'.no = H.no + 1 ∧
    (∃ N, Nrb.ctor (fun a => (knots a).val H) (control.val H) fields weights = .ok N ∧ H'.view o = ⟨d, N⟩) ∧
    ∃ A k, H'.obj o = ⟨d, A, k⟩ ∧ (∀ a i, knots a = .ref i → k a = i) ∧ (∀ a B, knots a = .fresh B → H.na ≤ k a) ∧
      (∀ i, control = .arr (.ref i) → ((H.arr i).shape.getLastD 0 = 4 ∧ fields = none → A = i) ∧
        (¬ ((H.arr i).shape.getLastD 0 = 4 ∧ fields = none) → H.na ≤ A)) ∧
      ((∀ i, control ≠ .arr (.ref i)) → H.na ≤ A) := by
  unfold Heap.new at h
  rw [bind_run] at h
  rcases e : asArrays knots H with ⟨_ | ks, H1⟩
  · rw [e] at h; cases h
  rw [e] at h
  dsimp only at h
  obtain ⟨g1, hks⟩ := asArrays_run e hk
  rw [bind_run] at h
  dsimp only [look] at h
  have hU : (fun a => H1.arr (ks a)) = fun a => (knots a).val H := funext fun a => (hks a).1
  rw [hU] at h
  -- an object with a new array for the net
  have fresh : ∀ {H2 : Heap K} {N : Nrb K d} {C : CtrlArg K}, Grown H1 H2 →
      Nrb.ctor (fun a => (knots a).val H) C fields weights = .ok N →
      (do let A ← alloc (netArr N)
          newObj ⟨d, A, ks⟩ : HM K ℕ) H2 = (.ok o, H') →
      o = H.no ∧ H'.no = H.no + 1 ∧ H'.view o = ⟨d, N⟩ ∧ H'.obj o = ⟨d, H2.na, ks⟩ := by
    intro H2 N C g2 hN hr
    change newObj ⟨d, H2.na, ks⟩ (alloc (netArr N) H2).2 = _ at hr
    have hno : H2.no = H.no := g2.no.trans g1.no
    obtain ⟨r1, r2⟩ := Prod.mk.inj hr
    cases r1
    subst r2
    refine ⟨hno, by show H2.no + 1 = _; rw [hno], ?_, Function.update_self _ _ _⟩
    refine (newObj_view (H := (alloc (netArr N) H2).2) _).trans ?_
    refine Sigma.ext rfl (heq_of_eq ?_)
    obtain ⟨c1, c2⟩ := ctor_fields hN
    refine nrb_eq (Function.update_self _ _ _) fun a => ?_
    have hlt : ks a ≠ H2.na := by have := (hks a).2.1; have := g2.na; omega
    have : (alloc (netArr N) H2).2.arr (ks a) = (knots a).val H :=
      (Function.update_of_ne hlt _ _).trans ((g2.arr _ (hks a).2.1).trans (hks a).1)
    rw [this, c1, c2]
    exact ⟨rfl, fun j => rfl⟩
  have hka : ∀ a i, knots a = .ref i → ks a = i := fun a => (hks a).2.2.1
  have hkf : ∀ a B, knots a = .fresh B → H.na ≤ ks a := fun a => (hks a).2.2.2
  cases control with
  | none =>
    dsimp only at h
    rw [bind_run] at h
    cases hN : Nrb.ctor (fun a => (knots a).val H) .none fields weights with
    | error e' => rw [hN] at h; cases h
    | ok N =>
      rw [hN] at h
      obtain ⟨f1, f2, f3, f4⟩ := fresh (Grown.refl H1) hN h
      exact ⟨f1, f2, ⟨N, hN, f3⟩, H1.na, ks, f4, hka, hkf, fun i hi => (by cases hi), fun _ => g1.na⟩
  | arr C =>
    dsimp only at h
    rw [bind_run] at h
    rcases e2 : asArray C H1 with ⟨_ | c, H2⟩
    · rw [e2] at h; cases h
    rw [e2] at h
    dsimp only at h
    have hcr : ∀ i, C = .ref i → i < H.na := fun i hi => hc i (by rw [hi])
    obtain ⟨g2, v1, v2, v3, v4⟩ := asArray_run e2 fun i hi => lt_of_lt_of_le (hcr i hi) g1.na
    have hv : H2.arr c = C.val H := v1.trans (ArrRef.val_grown g1 hcr)
    rw [bind_run] at h
    dsimp only [look] at h
    rw [hv, bind_run] at h
    cases hN : Nrb.ctor (fun a => (knots a).val H) (.arr (C.val H)) fields weights with
    | error e' => rw [hN] at h; cases h
    | ok N =>
      rw [hN] at h
      change (if _ then _ else _ : HM K ℕ) H2 = _ at h
      by_cases h4 : (C.val H).shape.getLastD 0 = 4 ∧ fields.isNone = true
      · rw [if_pos h4] at h
        obtain ⟨r1, r2⟩ := Prod.mk.inj h
        cases r1
        subst r2
        have hno : H2.no = H.no := g2.no.trans g1.no
        have hf : fields = none := Option.isNone_iff_eq_none.1 h4.2
        subst hf
        refine ⟨hno, by show H2.no + 1 = _; rw [hno], ⟨N, hN, ?_⟩, c, ks, Function.update_self _ _ _, hka, hkf, ?_, ?_⟩
        · refine (newObj_view (H := H2) _).trans (Sigma.ext rfl (heq_of_eq ?_))
          obtain ⟨c1, c2⟩ := ctor_fields hN
          obtain ⟨c3, c4, c5⟩ := ctor_four h4.1 hN
          have eN : N = ⟨N.shape, N.nc, N.len, N.U, N.P⟩ := rfl
          rw [eN, c1, c2, c3, c4, c5]
          unfold nrb
          dsimp only
          rw [hv]
          have hk2 : ∀ a, H2.arr (ks a) = (knots a).val H := fun a => (g2.arr _ (hks a).2.1).trans (hks a).1
          simp only [hk2]
        · rintro i hi
          cases hi
          refine ⟨fun _ => v3 i rfl, fun hn => (hn ⟨h4.1, rfl⟩).elim⟩
        · intro hi
          cases C with
          | fresh B => exact g1.na.trans (v4 B rfl)
          | ref i => exact (hi i rfl).elim
      · rw [if_neg h4] at h
        obtain ⟨f1, f2, f3, f4⟩ := fresh g2 hN h
        refine ⟨f1, f2, ⟨N, hN, f3⟩, H2.na, ks, f4, hka, hkf, fun i hi => ?_, fun _ => g1.na.trans g2.na⟩
        cases hi
        exact ⟨fun hh => (h4 ⟨hh.1, by rw [hh.2]; rfl⟩).elim, fun _ => g1.na.trans g2.na⟩

end Igakit
