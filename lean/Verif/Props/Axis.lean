import Verif.Proofs.Nrb
import Verif.Model.Ctor
import Verif.Model.Remove
import Verif.Model.Elevate
import Verif.Spec.Examples
import Verif.Props.NrbAxis

/-! # C54: the argument `axis` of the methods

Axes are counted from `0`, or from the end with `-1, -2, ...`; every other number is an `IndexError`, whatever
the other arguments are. -/

set_option linter.unusedSectionVars false

namespace Igakit

/-- the number `axis` stands for axis `a` of an object with `d` axes: counted from the front, or from the end -/
def AxisName (d : ℕ) (axis : ℤ) (a : Fin d) : Prop :=
  axis = ((a : ℕ) : ℤ) ∨ -axis = (d : ℤ) - ((a : ℕ) : ℤ)

variable {d : ℕ}

/-- exactly the numbers `-d, ..., d-1` stand for an axis -/
theorem C54_range (axis : ℤ) : (∃ a : Fin d, AxisName d axis a) ↔ -(d : ℤ) ≤ axis ∧ axis < d := by
  constructor
  · rintro ⟨a, h | h⟩ <;> have := a.2 <;> omega
  · rintro ⟨h1, h2⟩
    by_cases h : 0 ≤ axis
    · exact ⟨⟨axis.toNat, by omega⟩, Or.inl (by simp; omega)⟩
    · exact ⟨⟨(axis + d).toNat, by omega⟩, Or.inr (by simp; omega)⟩

/-- and for only one -/
theorem C54_unique {axis : ℤ} {a b : Fin d} (ha : AxisName d axis a) (hb : AxisName d axis b) : a = b := by
  have := a.2
  have := b.2
  apply Fin.ext
  rcases ha with h | h <;> rcases hb with h' | h' <;> omega

theorem normAxis_named {axis : ℤ} {a : Fin d} (h : AxisName d axis a) : normAxis d axis = .ok a := by
  have := a.2
  unfold normAxis
  rcases h with h | h
  · rw [dif_pos ⟨by omega, by omega⟩]
    exact congrArg _ (Fin.ext (by simp; omega))
  · rw [dif_neg (by omega), dif_pos ⟨by omega, by omega⟩]
    exact congrArg _ (Fin.ext (by simp; omega))

theorem normAxis_unnamed {axis : ℤ} (h : ∀ a : Fin d, ¬ AxisName d axis a) : normAxis d axis = .error .index := by
  have h' : ¬ (-(d : ℤ) ≤ axis ∧ axis < d) := fun hh => by
    obtain ⟨a, ha⟩ := (C54_range (d := d) axis).2 hh
    exact h a ha
  unfold normAxis
  rw [dif_neg (by omega), dif_neg (by omega)]

section
variable {K : Type} [Field K] [LinearOrder K] [IsStrictOrderedRing K]

/-- The methods which change one axis: an axis counted from the end is the axis counted from the front. -/
theorem C54_methods (eps : K) (jk : ℤ → K) (je : ℤ → (Fin d → ℤ) → ℕ → K) (jb : ℤ → ℤ → K)
    (N : Nrb K (d + 1)) {axis : ℤ} {a : Fin (d + 1)} (h : AxisName (d + 1) axis a) :
    (∀ u t, N.insert eps jk je axis u t = N.insert eps jk je ((a : ℕ) : ℤ) u t) ∧
    (∀ s, N.clamp eps je axis s = N.clamp eps je ((a : ℕ) : ℤ) s) ∧
    (∀ s c, N.unclamp eps je axis s c = N.unclamp eps je ((a : ℕ) : ℤ) s c) ∧
    (∀ vs, N.refine eps jk je axis vs = N.refine eps jk je ((a : ℕ) : ℤ) vs) ∧
    (∀ t, N.elevate eps jk je jb axis t = N.elevate eps jk je jb ((a : ℕ) : ℤ) t) ∧
    (∀ x y, N.slice eps jk je axis x y = N.slice eps jk je ((a : ℕ) : ℤ) x y) ∧
    (∀ u, N.extract eps je axis u = N.extract eps je ((a : ℕ) : ℤ) u) ∧
    (∀ s, N.boundary eps je axis s = N.boundary eps je ((a : ℕ) : ℤ) s) ∧
    (∀ x y, N.remap axis x y = N.remap ((a : ℕ) : ℤ) x y) := by
  have e1 := normAxis_named h
  have e2 := normAxis_self a
  refine ⟨fun u t => ?_, fun s => ?_, fun s c => ?_, fun vs => ?_, fun t => ?_, fun x y => ?_, fun u => ?_,
    fun s => ?_, fun x y => ?_⟩
  · unfold Nrb.insert; rw [e1, e2]
  · unfold Nrb.clamp; rw [e1, e2]
  · unfold Nrb.unclamp; rw [e1, e2]
  · unfold Nrb.refine; rw [e1, e2]
  · unfold Nrb.elevate; rw [e1, e2]
  · unfold Nrb.slice; rw [e1, e2]
  · unfold Nrb.extract; rw [e1, e2]
  · unfold Nrb.boundary; rw [e1, e2]
  · unfold Nrb.remap; rw [e1, e2]

/-- `remove` -/
theorem C54_remove (eps : ℝ) (jt : ℤ → (Fin d → ℤ) → ℕ → ℝ) (N : Nrb ℝ (d + 1)) {axis : ℤ} {a : Fin (d + 1)}
    (h : AxisName (d + 1) axis a) (u : ℝ) (t : Option ℤ) (dev : ℝ) :
    N.remove eps jt axis u t dev = N.remove eps jt ((a : ℕ) : ℤ) u t dev := by
  unfold Nrb.remove; rw [normAxis_named h, normAxis_self a]

/-- the methods with several axes -/
theorem C54_swap (N : Nrb K d) {axis1 axis2 : ℤ} {a b : Fin d} (h1 : AxisName d axis1 a)
    (h2 : AxisName d axis2 b) : N.swap axis1 axis2 = N.swap ((a : ℕ) : ℤ) ((b : ℕ) : ℤ) := by
  unfold Nrb.swap; rw [normAxis_named h1, normAxis_named h2, normAxis_self a, normAxis_self b]

theorem reverse_fold (l : List ℤ) (l' : List (Fin d)) (h : List.Forall₂ (AxisName d) l l') :
    ∀ N : Nrb K d, (l.foldlM (fun N axis => do
      let a ← normAxis d axis
      pure (Nrb.reverse1 N a)) N : Res (Nrb K d)) =
    ((l'.map (fun a : Fin d => ((a : ℕ) : ℤ))).foldlM (fun N axis => do
      let a ← normAxis d axis
      pure (Nrb.reverse1 N a)) N : Res (Nrb K d)) := by
  induction h with
  | nil => intro N; rfl
  | cons h1 _ ih =>
    intro N
    rw [List.foldlM_cons, List.map_cons, List.foldlM_cons, normAxis_named h1, normAxis_self]
    exact ih _

theorem C54_reverse (N : Nrb K d) {axes : List ℤ} {l : List (Fin d)} (h : List.Forall₂ (AxisName d) axes l) :
    N.reverse axes = N.reverse (l.map (fun a : Fin d => ((a : ℕ) : ℤ))) := by
  unfold Nrb.reverse
  dsimp only
  by_cases e : axes = []
  · subst e
    cases h
    rfl
  · have e' : l.map (fun a : Fin d => ((a : ℕ) : ℤ)) ≠ [] := by
      intro hl
      rw [List.map_eq_nil_iff] at hl
      subst hl
      cases h
      exact e rfl
    rw [if_neg e, if_neg e']
    exact reverse_fold axes l h N

/-- the methods which tell something about one axis -/
theorem C54_queries (eps : K) (ji : ℤ → ℤ) (N : Nrb K d) {axis : ℤ} {a : Fin d} (h : AxisName d axis a) :
    N.spans eps ji axis = N.spans eps ji ((a : ℕ) : ℤ) ∧
    N.breaks axis = N.breaks ((a : ℕ) : ℤ) ∧
    N.breakMults eps axis = N.breakMults eps ((a : ℕ) : ℤ) ∧
    N.greville axis = N.greville ((a : ℕ) : ℤ) := by
  have e1 := normAxis_named h
  have e2 := normAxis_self a
  refine ⟨?_, ?_, ?_, ?_⟩
  · unfold Nrb.spans; rw [e1, e2]
  · unfold Nrb.breaks; rw [e1, e2]
  · unfold Nrb.breakMults; rw [e1, e2]
  · unfold Nrb.greville; rw [e1, e2]

/-- Numbers which stand for no axis raise `IndexError`, with all other arguments.  `refine` without values and
`elevate` by nothing return the object without looking at the axis. -/
theorem C54_rejects (eps : K) (ji : ℤ → ℤ) (jk : ℤ → K) (je : ℤ → (Fin d → ℤ) → ℕ → K) (jb : ℤ → ℤ → K)
    (N : Nrb K (d + 1)) {axis : ℤ} (h : axis < -(d + 1 : ℤ) ∨ (d + 1 : ℤ) ≤ axis) :
    (∀ u t, N.insert eps jk je axis u t = .error .index) ∧
    (∀ s, N.clamp eps je axis s = .error .index) ∧
    (∀ s c, N.unclamp eps je axis s c = .error .index) ∧
    (∀ vs, N.refine eps jk je axis vs = if vs = [] then .ok N else .error .index) ∧
    (∀ t : ℤ, 0 ≤ t → N.elevate eps jk je jb axis (some t) = if t = 0 then .ok N else .error .index) ∧
    (∀ x y, N.slice eps jk je axis x y = .error .index) ∧
    (∀ u, N.extract eps je axis u = .error .index) ∧
    (∀ s, s = 0 ∨ s = 1 → N.boundary eps je axis s = .error .index) ∧
    (∀ x y, N.remap axis x y = .error .index) ∧
    (∀ axis', N.swap axis axis' = .error .index) ∧
    (∀ b : Fin (d + 1), ∀ axis', AxisName (d + 1) axis' b → N.swap axis' axis = .error .index) ∧
    N.spans eps ji axis = .error .index ∧
    N.breaks axis = .error .index ∧
    N.breakMults eps axis = .error .index ∧
    N.greville axis = .error .index := by
  have e : normAxis (d + 1) axis = .error .index := by
    apply normAxis_unnamed
    intro a ha
    have := (C54_range (d := d + 1) axis).1 ⟨a, ha⟩
    push_cast at this
    omega
  refine ⟨fun u t => ?_, fun s => ?_, fun s c => ?_, fun vs => ?_, fun t ht => ?_, fun x y => ?_, fun u => ?_,
    fun s hs => ?_, fun x y => ?_, fun b => ?_, fun b c hb => ?_, ?_, ?_, ?_, ?_⟩
  · unfold Nrb.insert; rw [e]; rfl
  · unfold Nrb.clamp; rw [e]; rfl
  · unfold Nrb.unclamp; rw [e]; rfl
  · unfold Nrb.refine
    split
    · rfl
    · rw [e]; rfl
  · unfold Nrb.elevate
    dsimp only
    rw [pyAssert_ok ht]
    show (if t = 0 then pure N else _) = _
    split
    · rfl
    · rw [e]; rfl
  · unfold Nrb.slice; rw [e]; rfl
  · unfold Nrb.extract; rw [e]; rfl
  · unfold Nrb.boundary; rw [pyAssert_ok hs, e]; rfl
  · unfold Nrb.remap; rw [e]; rfl
  · unfold Nrb.swap; rw [e]; rfl
  · unfold Nrb.swap; rw [normAxis_named hb, e]; rfl
  · unfold Nrb.spans; rw [e]; rfl
  · unfold Nrb.breaks; rw [e]; rfl
  · unfold Nrb.breakMults; rw [e]; rfl
  · unfold Nrb.greville; rw [e]; rfl

theorem C54_remove_rejects (eps : ℝ) (jt : ℤ → (Fin d → ℤ) → ℕ → ℝ) (N : Nrb ℝ (d + 1)) {axis : ℤ}
    (h : axis < -(d + 1 : ℤ) ∨ (d + 1 : ℤ) ≤ axis) (u : ℝ) (t : Option ℤ) (dev : ℝ) :
    N.remove eps jt axis u t dev = .error .index := by
  have e : normAxis (d + 1) axis = .error .index := by
    apply normAxis_unnamed
    intro a ha
    have := (C54_range (d := d + 1) axis).1 ⟨a, ha⟩
    push_cast at this
    omega
  unfold Nrb.remove; rw [e]; rfl

end

/-- the last axis of a surface is `1` or `-1` -/
example : AxisName 2 (-1) 1 ∧ AxisName 2 1 1 ∧ AxisName 2 (-2) 0 ∧ ¬ ∃ a, AxisName 2 2 a := by
  refine ⟨Or.inr rfl, Or.inl rfl, Or.inr rfl, ?_⟩
  rw [C54_range]
  omega

example (eps : ℚ) (je : ℤ → (Fin 1 → ℤ) → ℕ → ℚ) :
    Ex.S.boundary eps je (-1) 1 = Ex.S.boundary eps je 1 1 :=
  (C54_methods eps (fun _ => 0) je (fun _ _ => 0) Ex.S (axis := -1) (a := 1) (Or.inr rfl)).2.2.2.2.2.2.2.1 1

example (eps : ℚ) (je : ℤ → (Fin 1 → ℤ) → ℕ → ℚ) : Ex.S.clamp eps je 2 none = .error .index :=
  (C54_rejects eps (fun _ => 0) (fun _ => 0) je (fun _ _ => 0) Ex.S (axis := 2) (Or.inr (by norm_num))).2.1 none

end Igakit
