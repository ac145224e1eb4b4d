import Verif.Model.Eval
import Verif.Props.IoVec
import Verif.Props.Nurbs
import Verif.Props.Greville

set_option linter.unusedSectionVars false

namespace Igakit
open Spec

variable {K : Type} [Field K] [LinearOrder K] [IsStrictOrderedRing K] {d : ℕ}

/-! ## dropping axes of length one -/

theorem offsetF_filter {α : Type} (L : List α) (q : α → Bool) (s i : α → ℤ)
    (h : ∀ a ∈ L, q a = false → s a = 1 ∧ i a = 0) :
    offsetF ((L.filter q).map s) ((L.filter q).map i) = offsetF (L.map s) (L.map i) := by
  induction L with
  | nil => rfl
  | cons a L ih =>
    have ih := ih (fun b hb => h b (List.mem_cons_of_mem _ hb))
    by_cases hq : q a = true
    · rw [List.filter_cons_of_pos hq]
      simp only [List.map_cons, offsetF]
      rw [ih]
    · rw [List.filter_cons_of_neg hq]
      obtain ⟨h1, h2⟩ := h a List.mem_cons_self (by simpa using hq)
      simp only [List.map_cons, offsetF]
      rw [ih, h1, h2]
      ring

theorem prod_filter {α : Type} (L : List α) (q : α → Bool) (s : α → ℤ)
    (h : ∀ a ∈ L, q a = false → s a = 1) : ((L.filter q).map s).prod = (L.map s).prod := by
  induction L with
  | nil => rfl
  | cons a L ih =>
    have ih := ih (fun b hb => h b (List.mem_cons_of_mem _ hb))
    by_cases hq : q a = true
    · rw [List.filter_cons_of_pos hq]
      simp only [List.map_cons, List.prod_cons]
      rw [ih]
    · rw [List.filter_cons_of_neg hq]
      simp only [List.map_cons, List.prod_cons]
      rw [ih, h a List.mem_cons_self (by simpa using hq), one_mul]

theorem prod_pos_of {L : List ℤ} (h : ∀ x ∈ L, 0 < x) : 0 < L.prod := by
  induction L with
  | nil => simp
  | cons x L ih =>
    rw [List.prod_cons]
    exact mul_pos (h x List.mem_cons_self) (ih (fun y hy => h y (List.mem_cons_of_mem _ hy)))

theorem inShape_map {α : Type} (L : List α) (s i : α → ℤ) (h : ∀ a ∈ L, 0 ≤ i a ∧ i a < s a) :
    InShape (L.map s) (L.map i) := by
  induction L with
  | nil => trivial
  | cons a L ih => exact ⟨h a List.mem_cons_self, ih (fun b hb => h b (List.mem_cons_of_mem _ hb))⟩

/-- the index of the result: the axes whose argument was a number are left out -/
def keptIdx (q : Fin d → Bool) (i : Fin d → ℤ) : List ℤ := ((List.finRange d).filter (fun a => !q a)).map i

theorem keptShape_eq (uvw : Fin d → List K × Bool) :
    Nrb.keptShape uvw = keptIdx (fun a => (uvw a).2) (fun a => ((uvw a).1.length : ℤ)) := rfl

section
variable {uvw : Fin d → List K × Bool} (h1 : ∀ a, (uvw a).1 ≠ []) (h2 : ∀ a, (uvw a).2 = true → (uvw a).1.length = 1)
include h1 h2

theorem kept_prod : (Nrb.keptShape uvw).prod = (List.ofFn fun a => ((uvw a).1.length : ℤ)).prod := by
  rw [List.ofFn_eq_map]
  exact prod_filter _ _ _ (fun a _ hq => by
    have := h2 a (by simpa using hq)
    omega)

theorem kept_pos : 0 < (Nrb.keptShape uvw).prod := by
  rw [kept_prod h1 h2]
  apply prod_pos_of
  intro x hx
  obtain ⟨a, rfl⟩ := (List.mem_ofFn).1 hx
  have := List.length_pos_of_ne_nil (h1 a)
  exact_mod_cast this

theorem kept_offset {i : Fin d → ℤ} (hi : ∀ a, 0 ≤ i a ∧ i a < ((uvw a).1.length : ℤ)) :
    offsetF (Nrb.keptShape uvw).reverse (keptIdx (fun a => (uvw a).2) i).reverse =
      offsetF (List.ofFn fun a => ((uvw a).1.length : ℤ)).reverse (List.ofFn i).reverse := by
  rw [List.ofFn_eq_map, List.ofFn_eq_map, keptShape_eq]
  unfold keptIdx
  simp only [← List.map_reverse, ← List.filter_reverse]
  apply offsetF_filter
  intro a _ hq
  have := h2 a (by simpa using hq)
  have := hi a
  constructor <;> omega

theorem gridArr_get (m : ℕ) (f : (Fin d → ℤ) → ℕ → K) {i : Fin d → ℤ} {c : ℕ} :
    (Nrb.gridArr uvw m f).get (List.ofFn i ++ [(c : ℤ)]) = f i c := by
  show f _ _ = _
  congr 1
  · funext a
    rw [List.getD_eq_getElem?_getD, List.getElem?_append_left (by simp)]
    simp
  · rw [List.getD_eq_getElem?_getD, List.getElem?_append_right (by simp)]
    simp

theorem reshape_kept (m : ℕ) (f : (Fin d → ℤ) → ℕ → K) :
    ∃ B, PetIGA.reshapeLast (Nrb.gridArr uvw m f) (Nrb.keptShape uvw) = .ok B ∧
      B.shape = Nrb.keptShape uvw ++ [(m : ℤ)] ∧
      ∀ i : Fin d → ℤ, (∀ a, 0 ≤ i a ∧ i a < ((uvw a).1.length : ℤ)) → ∀ c < m,
        B.get (keptIdx (fun a => (uvw a).2) i ++ [(c : ℤ)]) = f i c := by
  have hp := kept_pos h1 h2
  have e : (Nrb.gridArr uvw m f).shape.prod = (Nrb.keptShape uvw).prod * m := by
    rw [kept_prod h1 h2]
    simp [Nrb.gridArr]
  unfold PetIGA.reshapeLast reshapeC
  rw [if_pos ⟨by omega, by rw [e]; simp⟩, e, Int.mul_ediv_cancel_left _ (by omega),
    if_pos (by rw [ravelC_length, e, List.prod_append]; simp; positivity)]
  refine ⟨_, rfl, rfl, fun i hi c hc => ?_⟩
  rw [← gridArr_get h1 h2 m f, ← ravelC_get (Nrb.gridArr uvw m f)]
  · dsimp only
    congr 2
    show offsetF _ _ = offsetF (_ ++ [(m : ℤ)]).reverse _
    simp only [List.reverse_append, List.reverse_singleton, List.singleton_append, offsetF]
    rw [kept_offset h1 h2 hi]
  · refine inShape_append ?_ ?_
    · rw [List.ofFn_eq_map, List.ofFn_eq_map]
      exact inShape_map _ _ _ (fun a _ => hi a)
    · exact ⟨by omega, trivial⟩

theorem reshape_squeezed (f : (Fin d → ℤ) → ℕ → K) :
    ∃ B, reshapeC (ravelC (Nrb.gridArr uvw 1 f)) (Nrb.keptShape uvw ++ []) = .ok B ∧
      B.shape = Nrb.keptShape uvw ∧
      ∀ i : Fin d → ℤ, (∀ a, 0 ≤ i a ∧ i a < ((uvw a).1.length : ℤ)) →
        B.get (keptIdx (fun a => (uvw a).2) i) = f i 0 := by
  have hp := kept_pos h1 h2
  have e : (Nrb.gridArr uvw 1 f).shape.prod = (Nrb.keptShape uvw).prod := by
    rw [kept_prod h1 h2]
    simp [Nrb.gridArr]
  unfold reshapeC
  rw [List.append_nil, if_pos (by rw [ravelC_length, e]; omega)]
  refine ⟨_, rfl, rfl, fun i hi => ?_⟩
  rw [← gridArr_get h1 h2 1 f, ← ravelC_get (Nrb.gridArr uvw 1 f)]
  · dsimp only
    congr 2
    show offsetF _ _ = offsetF (_ ++ [((1 : ℕ) : ℤ)]).reverse _
    simp only [List.reverse_append, List.reverse_singleton, List.singleton_append, offsetF]
    rw [kept_offset h1 h2 hi]
    push_cast
    ring
  · refine inShape_append ?_ ?_
    · rw [List.ofFn_eq_map, List.ofFn_eq_map]
      exact inShape_map _ _ _ (fun a _ => hi a)
    · exact ⟨by omega, trivial⟩

theorem reshape_plain (m : ℕ) (f : (Fin d → ℤ) → ℕ → K) :
    reshapeC (ravelC (Nrb.gridArr uvw m f)) (Nrb.keptShape uvw ++ [(m : ℤ)]) =
      PetIGA.reshapeLast (Nrb.gridArr uvw m f) (Nrb.keptShape uvw) := by
  have hp := kept_pos h1 h2
  have e : (Nrb.gridArr uvw m f).shape.prod = (Nrb.keptShape uvw).prod * m := by
    rw [kept_prod h1 h2]
    simp [Nrb.gridArr]
  unfold PetIGA.reshapeLast
  rw [if_pos ⟨by omega, by rw [e]; simp⟩, e, Int.mul_ediv_cancel_left _ (by omega)]

end

end Igakit
