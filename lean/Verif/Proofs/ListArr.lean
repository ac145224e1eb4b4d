import Verif.Proofs.Count
import Verif.Model.Nurbs
import Mathlib.Data.List.Sort

/-! # Lists and arrays -/

set_option linter.unusedSectionVars false

namespace Igakit
open Spec

variable {K : Type} [Field K] [LinearOrder K] {d : ℕ}

theorem slab_coe (U : ℤ → K) (lo hi : ℤ) :
    (Nrb.slab U lo hi : Multiset K) = (Finset.Icc lo hi).val.map U := by
  unfold Nrb.slab
  have h : (Finset.Icc lo hi) = (Finset.range (hi + 1 - lo).toNat).map
      ⟨fun i : ℕ => lo + i, fun a b h => by simpa using h⟩ := by
    ext z
    simp only [Finset.mem_Icc, Finset.mem_map, Finset.mem_range, Function.Embedding.coeFn_mk]
    constructor
    · rintro ⟨h1, h2⟩; exact ⟨(z - lo).toNat, by omega, by show lo + ((z - lo).toNat : ℤ) = z; omega⟩
    · rintro ⟨i, h1, h2⟩
      change lo + (i : ℤ) = z at h2
      omega
  rw [h, Finset.map_val, Multiset.map_map]
  rfl

theorem slab_count (U : ℤ → K) (lo hi : ℤ) (x : K) : (Nrb.slab U lo hi).count x = mult U lo hi x := by
  rw [← Multiset.coe_count, slab_coe, Multiset.count_map, mult, ← Finset.filter_val, Finset.card_val]
  congr 2
  ext z; simp [eq_comm]

theorem slab_zero_length (U : ℤ → K) (lo hi : ℤ) : (Nrb.slab U lo hi).length = (hi + 1 - lo).toNat := by
  simp [Nrb.slab]

theorem slab_ofList (l : List K) : Nrb.slab (Nrb.ofList l) 0 (l.length - 1) = l := by
  apply List.ext_getElem
  · rw [slab_zero_length]; omega
  · intro i h1 h2
    simp [Nrb.slab, Nrb.ofList, h2]

theorem knotMS_ofList (l : List K) : knotMS (Nrb.ofList l) (l.length - 1) = (l : Multiset K) := by
  conv_rhs => rw [← slab_ofList l]
  rw [slab_coe]; rfl

theorem ofList_getElem (l : List K) {j : ℤ} (h0 : 0 ≤ j) (h1 : j ≤ l.length - 1) :
    Nrb.ofList l j = l[j.toNat]'(by omega) := by
  simp [Nrb.ofList, (by omega : j.toNat < l.length)]

theorem sortedOn_ofList {l : List K} (h : l.Pairwise (· ≤ ·)) : SortedOn (Nrb.ofList l) 0 (l.length - 1) := by
  intro i j h1 h2 h3
  rw [ofList_getElem l h1 (by omega), ofList_getElem l (by omega) h3]
  rcases h2.eq_or_lt with e | e
  · subst e; exact le_refl _
  · exact List.pairwise_iff_getElem.mp h _ _ _ _ (by omega)

theorem sort_pairwise (l : List K) : (l.mergeSort (fun x y => decide (x ≤ y))).Pairwise (· ≤ ·) := by
  have := List.pairwise_mergeSort (le := fun x y : K => decide (x ≤ y))
    (fun a b c h1 h2 => by
      simp only [decide_eq_true_eq] at *; exact le_trans h1 h2)
    (fun a b => by simp only [Bool.or_eq_true, decide_eq_true_eq]; exact le_total a b) l
  simpa using this

theorem sort_perm (l : List K) : (l.mergeSort (fun x y => decide (x ≤ y))).Perm l :=
  List.mergeSort_perm _ _

end Igakit
