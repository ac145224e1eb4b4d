import Verif.Props.Heap

/-! # C45, C47: examples and a counterexample -/

namespace Igakit

open Heap

namespace Ex

/-- control points `(5, 2, 0, 1)`, `(7, 0, 0, 1)`, knots `0, 0, 1, 1`, and an array `3/4, 1/4` of the user -/
def heap : Heap ℚ where
  arr := fun i => if i = 0 then ⟨[2, 4], fun l => if l = [0, 0] then 5 else if l = [0, 1] then 2 else if l = [1, 0] then 7
    else if l.getD 1 0 = 3 then 1 else 0⟩
    else if i = 1 then ⟨[4], fun l => if l.headD 0 < 2 then 0 else 1⟩
    else ⟨[2], fun l => if l = [0] then 3 / 4 else 1 / 4⟩
  na := 3
  obj := fun _ => ⟨1, 0, fun _ => 1⟩
  no := 1

def env : Env ℚ := ⟨1 / 1000, fun _ _ _ _ _ => False⟩

def junk : Scratch ℚ := ⟨fun _ => 0, fun _ _ _ => 0, fun _ _ => 0⟩

theorem heap_sound : heap.Sound := by
  intro o _ i hi
  show i < 3
  rcases hi with rfl | ⟨a, rfl⟩
  · show 0 < 3; omega
  · show 1 < 3; omega

end Ex

/-- C45, hypotheses: a copy is written to, refined, copied, and thrown into the constructor; the original stays -/
example (jn : Scratch ℚ) {H1 : Heap ℚ} (h1 : Heap.copy 0 Ex.heap = (.ok 1, H1)) :
    (execAll Ex.env H1 [(jn, .writeNet 1 [0, 0] 9), (jn, .geo 1 (.refine 0 (.fresh [1 / 2]))), (jn, .copy 1), (jn, .clone 1),
      (jn, .geo 3 (.reverse [])), (jn, .writeKnot 1 0 0 (-1)), (jn, .new (fun _ : Fin 1 => .ref 4) (.arr (.ref 3)) none none)]).view 0
      = Ex.heap.view 0 := by
  refine C45_copy Ex.env Ex.heap Ex.heap_sound (o := 0) (by decide) h1 _ ?_ 0 (by decide)
  intro c hc
  simp only [List.mem_cons, List.not_mem_nil, or_false] at hc
  rcases hc with rfl | rfl | rfl | rfl | rfl | rfl | rfl
  all_goals refine ⟨fun o ho => Or.inr ?_, fun i hi => Or.inr ?_⟩
  all_goals first
    | exact hi.elim
    | exact ho.elim
    | (obtain rfl := ho; decide)
    | (rcases hi with ⟨a, hi⟩ | hi <;> cases hi <;> decide)

/-- C45, hypotheses: methods of a clone, one of them with an array of the user -/
example (jn : Scratch ℚ) : ∃ H1, Heap.clone 0 Ex.heap = (.ok 1, H1) ∧
    (execAll Ex.env H1 [(jn, .geo 1 (.insert 0 (1 / 2) none)), (jn, .geo 1 (.refine 0 (.block 2 0 2))),
      (jn, .geo 1 (.transform (.ok fun _ _ => 0)))]).view 0 = Ex.heap.view 0 := by
  obtain ⟨H1, h1, h2, -, h4, h5, h6, -⟩ := C45_clone Ex.env Ex.heap Ex.heap_sound (o := 0) (by decide)
  refine ⟨H1, h1, ?_⟩
  refine (C45_operations Ex.env _ h6 ?_ (o := 0) (by rw [h2]; decide) ?_ ?_).trans
    (view_congr (h5 0 (by decide)) fun i _ => by rw [h4])
  all_goals
    intro c hc
    simp only [List.mem_cons, List.not_mem_nil, or_false] at hc
  · rcases hc with rfl | rfl | rfl <;> trivial
  · rcases hc with rfl | rfl | rfl <;> (intro h; cases h)
  · intro i hi hg
    rw [h5 0 (by decide)] at hi
    have hi : i = 0 ∨ i = 1 := by
      rcases hi with rfl | ⟨a, rfl⟩
      · exact Or.inl rfl
      · exact Or.inr rfl
    rcases hc with rfl | rfl | rfl
    · exact hg
    · obtain rfl : i = 2 := hg
      omega
    · exact hg

/-- C47, hypotheses: insertion outside of the domain, and a bad axis -/
example (jn : Scratch ℚ) : (∃ H', (Geo.insert 0 7 none).run Ex.env jn 0 Ex.heap = (.error .assertion, H')) ∧
    ∃ H', (Geo.insert 5 (1 / 2) none).run Ex.env jn 0 Ex.heap = (.error .index, H') := by
  refine ⟨⟨Ex.heap, ?_⟩, ⟨Ex.heap, rfl⟩⟩
  show Heap.insert Ex.env jn 0 0 7 none Ex.heap = _
  rfl

/-- C47 fails when `refine` is given entries of the control net of the object itself: the call is refused, because the
values are outside of the domain, and the coordinates 5 and 2 of the first control point have been exchanged -/
theorem C47_refine_own : ∃ (H H' : Heap ℚ) (e : Err), H.Sound ∧ 0 < H.no ∧
    (Geo.refine 0 (.block (H.obj 0).arr 0 2)).run Ex.env Ex.junk 0 H = (.error e, H') ∧
    (H.nrb ⟨1, 0, fun _ => 1⟩).P ![0] 0 = 5 ∧ (H'.nrb ⟨1, 0, fun _ => 1⟩).P ![0] 0 = 2 ∧
    H.obj 0 = ⟨1, 0, fun _ => 1⟩ ∧ H'.obj 0 = ⟨1, 0, fun _ => 1⟩ := by
  have hb : Ex.heap.block 0 0 2 = [5, 2] := by decide +kernel
  have hm : [(5 : ℚ), 2].mergeSort (fun x y => decide (x ≤ y)) = [2, 5] := by
    simp [List.mergeSort, List.MergeSort.Internal.splitInTwo, List.merge]
    norm_num
  have hr := refine_block_valid (H := Ex.heap) Ex.env Ex.junk (o := 0) (by decide) (axis := 0) (a := (0 : Fin 1)) rfl
    (B := 0) (s := 0) (c := 2) (by decide) (by decide +kernel)
  rw [hb, if_neg (by simp)] at hr
  have hs : Ex.heap.sorted 0 0 2 = { Ex.heap with
      arr := Function.update Ex.heap.arr 0 (putBlock (Ex.heap.arr 0) 0 [2, 5]) } := by
    unfold Heap.sorted sortVals
    dsimp only
    rw [hb, hm]
  have hso : (Ex.heap.sorted 0 0 2).Sound := Ex.heap_sound
  have hd := refine_does (H := Ex.heap.sorted 0 0 2) (o := 0) (d := 0) (A := 0) (k := fun _ => 1) (by decide)
    (hso 0 (by decide)) rfl Ex.env Ex.junk 0 [5, 2]
  have he : ((Ex.heap.sorted 0 0 2).nrb ⟨1, 0, fun _ => 1⟩).refine Ex.env.eps Ex.junk.k Ex.junk.rows 0 [5, 2] =
      .error .assertion := by
    unfold Nrb.refine
    rw [if_neg (by simp), show normAxis (0 + 1) 0 = .ok (0 : Fin 1) from rfl, res_ok_bind]
    unfold Nrb.refineArg
    rw [hm, hs]
    rfl
  rw [he] at hd
  obtain ⟨H', h1, h2⟩ := hd
  refine ⟨Ex.heap, H', .assertion, Ex.heap_sound, by decide, hr.trans h1, rfl, ?_, rfl, by rw [h2.obj]; rfl⟩
  show (H'.arr 0).get _ = _
  rw [h2.arr 0 (by decide), hs]
  rfl

/-- C45, hypotheses of `C45_refine_sorts`: an array of the user is sorted by `refine` -/
example (jn : Scratch ℚ) : ravelC (((Geo.refine 0 (.block 2 0 2)).run Ex.env jn 0 Ex.heap).2.arr 2) = [1 / 4, 3 / 4] := by
  obtain ⟨-, h, -⟩ := C45_refine_sorts Ex.env jn Ex.heap Ex.heap_sound (o := 0) (by decide) (axis := 0) (a := (0 : Fin 1)) rfl
    (A := 2) (s := 0) (c := 2) (by decide) (by decide) (by decide +kernel) rfl
  rw [h]
  have hb : Ex.heap.block 2 0 2 = [3 / 4, 1 / 4] := by decide +kernel
  have hm : [(3 / 4 : ℚ), 1 / 4].mergeSort (fun x y => decide (x ≤ y)) = [1 / 4, 3 / 4] := by
    simp [List.mergeSort, List.MergeSort.Internal.splitInTwo, List.merge]
    norm_num
  rw [hb, hm]
  decide +kernel

/-- C45: the user writes into the array that was given to the constructor and sees the object change -/
example : ∃ H1, Heap.new (fun _ : Fin 1 => .ref 1) (.arr (.ref 0)) none none Ex.heap = (.ok 1, H1) ∧
    (H1.nrb (H1.obj 1)).P (fun _ => 0) 0 = 5 ∧
    ((Heap.write 0 [0, 0] 9 H1).2.nrb (H1.obj 1)).P (fun _ => 0) 0 = 9 :=
  ⟨_, rfl, rfl, rfl⟩

end Igakit
