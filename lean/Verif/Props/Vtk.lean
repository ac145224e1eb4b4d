import Verif.Spec.Vtk
import Verif.Props.Io
import Verif.Props.Spans
import Verif.Props.Greville

/-! # VTK files (C44) -/

set_option linter.unusedSectionVars false

namespace Igakit
open Spec

variable {K : Type} [Field K] [LinearOrder K] [IsStrictOrderedRing K] {d : ℕ}

theorem offsetF_unravelF {ss : List ℤ} (h : ∀ s ∈ ss, 0 < s) {t : ℤ} (h0 : 0 ≤ t) (h1 : t < ss.prod) :
    InShape ss (unravelF ss t) ∧ offsetF ss (unravelF ss t) = t := by
  induction ss generalizing t with
  | nil => simp [InShape, unravelF, offsetF] at *; omega
  | cons s ss ih =>
    have hs := h s (by simp)
    rw [List.prod_cons] at h1
    have := ih (fun s' hs' => h s' (List.mem_cons_of_mem _ hs')) (t := t / s) (Int.ediv_nonneg h0 hs.le)
      (Int.ediv_lt_of_lt_mul hs (by rw [mul_comm]; exact h1))
    refine ⟨⟨⟨Int.emod_nonneg _ hs.ne', Int.emod_lt_of_pos _ hs⟩, this.1⟩, ?_⟩
    rw [unravelF, offsetF, this.2, Int.emod_add_mul_ediv]

theorem inShape_length {ss is : List ℤ} (h : InShape ss is) : is.length = ss.length := by
  induction ss generalizing is with
  | nil => cases is with
    | nil => rfl
    | cons => exact h.elim
  | cons s ss ih =>
    cases is with
    | nil => exact h.elim
    | cons i is => simp [ih h.2]

theorem inShape_ofFn_iff {d : ℕ} {s i : Fin d → ℤ} : InShape (List.ofFn s) (List.ofFn i) ↔ InGrid s i := by
  refine ⟨fun h => ?_, fun h => inShape_ofFn h⟩
  induction d with
  | zero => intro a; exact a.elim0
  | succ d ih =>
    rw [List.ofFn_succ, List.ofFn_succ] at h
    intro a
    refine Fin.cases h.1 (fun b => ih h.2 b) a

theorem gridPos_eq (hd : d ≤ 3) (n i : Fin d → ℤ) : gridPos n i = offsetF (List.ofFn n) (List.ofFn i) := by
  interval_cases d <;> simp [gridPos, vtkPos, pad, offsetF, List.ofFn_succ] <;> try rfl

/-- the positions of the points of a grid are the numbers below their number, each exactly once -/
theorem gridPos_bij (hd : d ≤ 3) {n : Fin d → ℤ} (hn : ∀ a, 0 < n a) {t : ℤ} (h0 : 0 ≤ t) (h1 : t < ∏ a, n a) :
    ∃! i : Fin d → ℤ, InGrid n i ∧ gridPos n i = t := by
  have hp : ∀ s ∈ List.ofFn n, 0 < s := by
    intro s hs
    obtain ⟨a, rfl⟩ := (List.mem_ofFn' _ _).mp hs
    exact hn a
  obtain ⟨e1, e2⟩ := offsetF_unravelF hp h0 (by rw [List.prod_ofFn]; exact h1)
  have hl : (unravelF (List.ofFn n) t).length = d := by rw [inShape_length e1, List.length_ofFn]
  obtain ⟨i, hi⟩ : ∃ i : Fin d → ℤ, List.ofFn i = unravelF (List.ofFn n) t := by
    refine ⟨fun a => (unravelF (List.ofFn n) t)[(a : ℕ)]'(by rw [hl]; exact a.2), ?_⟩
    apply List.ext_getElem (by rw [List.length_ofFn, hl])
    intro k h1 h2
    rw [List.getElem_ofFn]
  rw [← hi] at e1 e2
  refine ⟨i, ⟨inShape_ofFn_iff.mp e1, by rw [gridPos_eq hd]; exact e2⟩, ?_⟩
  rintro j ⟨j1, j2⟩
  rw [gridPos_eq hd] at j2
  apply List.ofFn_injective
  rw [← unravelF_offsetF (inShape_ofFn j1), j2, hi]

theorem gridPos_range (hd : d ≤ 3) {n i : Fin d → ℤ} (h : InGrid n i) : 0 ≤ gridPos n i ∧ gridPos n i < ∏ a, n a := by
  rw [gridPos_eq hd, ← List.prod_ofFn]
  exact offsetF_range (inShape_ofFn h)

namespace VTK

theorem flat_holds (hd : d ≤ 3) {n : Fin d → ℤ} (hn : ∀ a, 0 ≤ n a) {m : ℕ} {A : Nd K} (hA : A.shape = List.ofFn n ++ [(m : ℤ)]) :
    Holds n m (flat A) (fun i c => A.get (List.ofFn i ++ [(c : ℤ)])) := by
  have hs : (rollFirst A).shape = (m : ℤ) :: List.ofFn n := by simp [rollFirst, hA]
  have hp : 0 ≤ (m : ℤ) * ∏ a, n a := mul_nonneg (Int.natCast_nonneg _) (Finset.prod_nonneg fun a _ => hn a)
  have hl : ((flat A).length : ℤ) = m * ∏ a, n a := by
    rw [flat, ravelF_length, hs, List.prod_cons, List.prod_ofFn, Int.toNat_of_nonneg hp]
  refine ⟨hl, ?_⟩
  intro i hi c hc
  obtain ⟨g0, g1⟩ := gridPos_range hd hi
  have hin : InShape (rollFirst A).shape ((c : ℤ) :: List.ofFn i) := by
    rw [hs]; exact inShape_cons ⟨Int.natCast_nonneg _, by exact_mod_cast hc⟩ (inShape_ofFn hi)
  have h := ravelF_get (rollFirst A) hin
  rw [hs, offsetF, ← gridPos_eq hd, add_comm] at h
  have hlt : ((m : ℤ) * gridPos n i + c).toNat < (flat A).length := by
    have : (m : ℤ) * gridPos n i + m ≤ m * ∏ a, n a := by nlinarith
    have := mul_nonneg (Int.natCast_nonneg m) g0
    omega
  rw [List.getElem?_eq_getElem hlt]
  rw [List.getD_eq_getElem?_getD] at h
  change ((flat A)[_]?).getD 0 = _ at h
  rw [List.getElem?_eq_getElem hlt, Option.getD_some] at h
  rw [h]
  simp [rollFirst]

theorem column_ok {nf : ℕ} {i : ℤ} {c : ℕ} (h : IsColumn nf i c) : column nf i = .ok (c : ℤ) := by
  obtain ⟨h1, h2⟩ := h
  unfold column
  rcases h2 with rfl | rfl
  · rw [if_pos (by omega)]; rfl
  · rw [if_neg (by omega), if_pos (by omega)]
    show Except.ok _ = _
    congr 1; omega

theorem column_err {nf : ℕ} {i : ℤ} (h : ¬ ∃ c, IsColumn nf i c) : column nf i = .error .index := by
  unfold column
  rw [if_neg, if_neg]; · rfl
  · rintro ⟨h1, h2⟩; exact h ⟨(i + nf).toNat, by omega, Or.inr (by omega)⟩
  · rintro ⟨h1, h2⟩; exact h ⟨i.toNat, by omega, Or.inl (by omega)⟩

theorem mapM_forall {α β : Type} {f : α → Res β} {R : α → β → Prop} {l : List α} (h : ∀ x ∈ l, ∃ y, f x = .ok y ∧ R x y) :
    ∃ ys, l.mapM f = .ok ys ∧ List.Forall₂ R l ys := by
  induction l with
  | nil => exact ⟨[], rfl, .nil⟩
  | cons x l ih =>
    obtain ⟨y, h1, h2⟩ := h x (by simp)
    obtain ⟨ys, h3, h4⟩ := ih (fun z hz => h z (List.mem_cons_of_mem _ hz))
    refine ⟨y :: ys, ?_, .cons h2 h4⟩
    rw [List.mapM_cons, h1, res_ok_bind, h3, res_ok_bind, res_pure]

theorem grid_ok (sampler : List K → List K) (N : Nrb K d) :
    ∃ g : Fin d → List K, grid sampler N = .ok g ∧ ∀ a : Fin d, ∃ l, N.breaks (a : ℕ) = .ok l ∧ g a = sampler l := by
  choose l hl using fun a : Fin d => C32_breaks N (normAxis_self a)
  refine ⟨fun a => sampler (l a), ?_, fun a => ⟨l a, (hl a).1, rfl⟩⟩
  unfold grid
  apply seqFin_ok
  intro a
  rw [(hl a).1, res_ok_bind, res_pure]

/-- the fields argument fits and gives `nf` fields -/
def FieldsFit (N : Nrb K d) (nf : ℕ) : Option (Nd K) → Prop
  | none => N.nc = 4 + nf
  | some A => (A.shape = List.ofFn N.shape ∧ nf = 1) ∨ A.shape = List.ofFn N.shape ++ [(nf : ℤ)]

theorem withFields_ok {N : Nrb K d} {nf : ℕ} {A : Nd K} (h : FieldsFit N nf (some A)) :
    ∃ M, withFields N A = .ok M ∧ Shows N (some A) M ∧ M.nc = 4 + nf := by
  unfold withFields
  rcases h with ⟨h, rfl⟩ | h
  · rw [if_pos h, res_pure, res_ok_bind]
    refine ⟨_, rfl, ⟨rfl, rfl, rfl, fun idx c hc => if_pos hc, (fun h => by cases h), ?_, ?_⟩, rfl⟩
    · rintro B ⟨⟩ -
      exact ⟨rfl, fun idx => by simp [h]⟩
    · rintro B nf ⟨⟩ h'
      rw [h] at h'
      have := congrArg List.length h'
      simp at this
  · have hne : A.shape ≠ List.ofFn N.shape := by
      intro h'
      rw [h] at h'
      have := congrArg List.length h'
      simp at this
    rw [if_neg hne, pyAssert_ok (by rw [h]; simp), res_ok_bind, pyAssert_ok (by rw [h]; simp), res_ok_bind, res_pure, res_ok_bind]
    refine ⟨_, rfl, ⟨rfl, rfl, rfl, fun idx c hc => if_pos hc, (fun h => by cases h), ?_, ?_⟩, ?_⟩
    · rintro B ⟨⟩ h'; exact absurd h' hne
    · rintro B m ⟨⟩ h'
      have hm : (A.shape.getLastD 0).toNat = m := by rw [h']; simp
      refine ⟨by rw [hm], fun idx c => ?_⟩
      simp [hne]
    · show 4 + (A.shape.getLastD 0).toNat = _
      rw [h]; simp

theorem sample_ok (jk : ℤ → K) (je : ℤ → ℕ → K) (hd : d ≤ 3) {M : Nrb K d} (hv : M.Valid) {nf : ℕ} (hnf : M.nc = 4 + nf)
    {g : Fin d → List K} (h0 : ∀ a, g a ≠ []) (hg : ∀ a, ∀ x ∈ g a, M.lo a ≤ x ∧ x ≤ M.hi a) (flag : Bool) :
    ∃ C F, sample jk je M g flag = .ok (C, F) ∧
      Holds (fun a => ((g a).length : ℤ)) 3 (flat C) (fun i c => M.proj (fun a => (g a).getD (i a).toNat 0) c) ∧
      F.shape.getLastD 0 = ((if flag then nf else 0 : ℕ) : ℤ) ∧
      Holds (fun a => ((g a).length : ℤ)) (if flag then nf else 0) (flat F)
        (fun i c => M.proj (fun a => (g a).getD (i a).toNat 0) (4 + c)) := by
  have hpos : ∀ a, 0 < (g a).length := fun a => List.length_pos_iff.mpr (h0 a)
  obtain ⟨V, h1, h2⟩ := C05_call jk je hd hv (r := fun a => ((g a).length : ℤ) - 1) (X := fun a j => (g a).getD j.toNat 0)
    (fun a => by have := hpos a; omega) (by
      intro a i hi0 hi1
      apply hg
      have hlt : i.toNat < (g a).length := by have := hpos a; omega
      rw [List.getD_eq_getElem?_getD, List.getElem?_eq_getElem hlt, Option.getD_some]
      exact List.getElem_mem _)
  unfold sample
  rw [h1, res_ok_bind, res_pure]
  have hlast : (if flag = true then (M.nc : ℤ) - 4 else 0) = ((if flag then nf else 0 : ℕ) : ℤ) := by
    rw [hnf]; cases flag <;> simp
  have hidx : ∀ (i : Fin d → ℤ) (c : ℤ), (fun a : Fin d => (List.ofFn i ++ [c]).getD a 0) = i := by
    intro i c
    funext a
    rw [List.getD_eq_getElem?_getD, List.getElem?_append_left (by simp), List.getElem?_ofFn]
    simp
  refine ⟨_, _, rfl, ?_, ?_, ?_⟩
  · obtain ⟨e1, e2⟩ := flat_holds hd (n := fun a => ((g a).length : ℤ)) (fun a => by positivity) (m := 3)
      (A := ⟨List.ofFn (fun a => ((g a).length : ℤ)) ++ [3], fun i => (V (fun a => i.getD a 0)).1 (i.getLastD 0).toNat⟩) rfl
    refine ⟨e1, fun i hi c hc => (e2 i hi c hc).trans ?_⟩
    dsimp only
    rw [hidx]
    have := (h2 i (fun a => ⟨(hi a).1, Int.le_sub_one_of_lt (hi a).2⟩) c).1
    simp only [List.getLastD_concat, Int.toNat_natCast]
    rw [this]
  · simp only [List.getLastD_concat]
    exact hlast
  · obtain ⟨e1, e2⟩ := flat_holds hd (n := fun a => ((g a).length : ℤ)) (fun a => by positivity) (m := if flag then nf else 0)
      (A := ⟨List.ofFn (fun a => ((g a).length : ℤ)) ++ [if flag then (M.nc : ℤ) - 4 else 0],
        fun i => (V (fun a => i.getD a 0)).2 (i.getLastD 0).toNat⟩) (by rw [hlast])
    refine ⟨e1, fun i hi c hc => (e2 i hi c hc).trans ?_⟩
    dsimp only
    rw [hidx]
    have := (h2 i (fun a => ⟨(hi a).1, Int.le_sub_one_of_lt (hi a).2⟩) c).2
    simp only [List.getLastD_concat, Int.toNat_natCast]
    rw [this]

/-- a scalar: one number for each point -/
theorem scalarData_ok (hd : d ≤ 3) {n : Fin d → ℤ} (hn : ∀ a, 0 < n a) {nf : ℕ} {F : List K} {f : (Fin d → ℤ) → ℕ → K}
    (hF : Holds n nf F f) {np : ℕ} (hnp : (np : ℤ) = ∏ a, n a) {x : String × ℤ} {c : ℕ} (hc : IsColumn nf x.2 c) :
    ∃ l, scalarData F np nf x = .ok (x.1, l) ∧ Holds n 1 l (fun i _ => f i c) := by
  unfold scalarData
  rw [column_ok hc, res_ok_bind, res_pure]
  refine ⟨_, rfl, by rw [Nat.cast_one, one_mul, ← hnp]; simp [col], ?_⟩
  intro i hi k hk
  obtain rfl : k = 0 := by omega
  obtain ⟨g0, g1⟩ := gridPos_range hd hi
  have h := hF.get i hi c hc.1
  have hlt : (((1 : ℕ) : ℤ) * gridPos n i + ((0 : ℕ) : ℤ)).toNat < np := by push_cast; omega
  unfold col
  rw [List.getElem?_map, List.getElem?_range (by simpa using hlt), Option.map_some]
  congr 1
  rw [List.getD_eq_getElem?_getD]
  have e : ((c : ℤ) + nf * ((((1 : ℕ) : ℤ) * gridPos n i + ((0 : ℕ) : ℤ)).toNat : ℕ)).toNat = ((nf : ℤ) * gridPos n i + c).toNat := by
    rw [Nat.cast_one, one_mul, Nat.cast_zero, add_zero, Int.toNat_of_nonneg g0, add_comm]
  rw [e, h, Option.getD_some]

/-- the columns of a vector -/
def IsColumns (nf : ℕ) (is : List ℤ) (cs : List ℕ) : Prop := List.Forall₂ (IsColumn nf) is cs

theorem columns_ok {nf : ℕ} {is : List ℤ} {cs : List ℕ} (h : IsColumns nf is cs) :
    is.mapM (column (nf : ℤ)) = .ok (cs.map (fun c : ℕ => (c : ℤ))) := by
  induction h with
  | nil => rfl
  | cons h _ ih => rw [List.mapM_cons, column_ok h, res_ok_bind, ih, res_ok_bind, res_pure, List.map_cons]

theorem vectorData_ok (hd : d ≤ 3) {n : Fin d → ℤ} {nf : ℕ} {F : List K} {f : (Fin d → ℤ) → ℕ → K}
    (hF : Holds n nf F f) {np : ℕ} (hnp : (np : ℤ) = ∏ a, n a) {x : String × List ℤ} {cs : List ℕ} (hc : IsColumns nf x.2 cs)
    (h3 : cs.length ≤ 3) :
    ∃ l, vectorData F np nf x = .ok (x.1, l) ∧ Holds n 3 l (fun i k => if h : k < cs.length then f i cs[k] else 0) := by
  unfold vectorData
  rw [columns_ok hc, res_ok_bind]
  dsimp only
  rw [if_neg (by rw [List.length_map]; omega)]
  refine ⟨_, rfl, by rw [List.length_map, List.length_range]; push_cast; rw [← hnp]; simp, ?_⟩
  intro i hi k hk
  obtain ⟨g0, g1⟩ := gridPos_range hd hi
  have hlt : (((3 : ℕ) : ℤ) * gridPos n i + k).toNat < 3 * (np : ℤ).toNat := by push_cast; omega
  rw [List.getElem?_map, List.getElem?_range hlt, Option.map_some]
  congr 1
  have e1 : (((3 : ℕ) : ℤ) * gridPos n i + k).toNat % 3 = k := by push_cast; omega
  have e2 : ((((3 : ℕ) : ℤ) * gridPos n i + k).toNat / 3 : ℕ) = (gridPos n i).toNat := by push_cast; omega
  rw [e1, e2, List.length_map]
  by_cases hk' : k < cs.length
  · have hcol : IsColumn nf (x.2[k]'(by rw [hc.length_eq]; exact hk')) cs[k] := List.Forall₂.get hc _ _
    have h := hF.get i hi cs[k] hcol.1
    rw [if_pos hk', dif_pos hk', List.getD_eq_getElem?_getD, List.getD_eq_getElem?_getD, List.getElem?_map,
      List.getElem?_eq_getElem hk', Option.map_some, Option.getD_some, Int.toNat_of_nonneg g0, add_comm, h, Option.getD_some]
  · rw [if_neg hk', dif_neg hk']

end VTK

theorem VTK.isEmpty_iff {ι : Type} (x : VtkArg ι) : x.isEmpty = true ↔ x.items = [] := by
  cases x with
  | seq l => simp [VtkArg.isEmpty, VtkArg.items]
  | dict l =>
    simp only [VtkArg.isEmpty, VtkArg.items, List.isEmpty_iff]
    rw [← List.length_eq_zero_iff, ← List.length_eq_zero_iff, List.length_mergeSort]

theorem VTK.pad_dims (g : Fin d → List K) (k : Fin 3) : pad (fun a => ((g a).length : ℤ)) 1 k = (VTK.dims g k : ℕ) := by
  unfold pad VTK.dims
  split <;> simp

theorem VTK.coords_length (g : Fin d → List K) (k : ℕ) : (VTK.coords g k).length = VTK.dims g k := by
  unfold VTK.coords VTK.dims
  split <;> simp

theorem toString_cast (m : ℕ) : toString ((m : ℕ) : ℤ) = toString m := rfl

theorem VTK.file_eq (title : String) (g : Fin d → List K) (pts : List K)
    (hp : (pts.length : ℤ) = 3 * ∏ a, ((g a).length : ℤ)) (control : Bool) (sc ve : List (String × List K)) :
    ([.text "# vtk DataFile Version 2.0", .text "\n", .text (String.ofList (title.toList.take 255)), .text "\n", .text "BINARY", .text "\n"] ++
      VTK.geometry g pts control ++ VTK.pointData (pts.length / 3) sc ve : List (Chunk K)) =
    vtkFile title (fun a => ((g a).length : ℤ))
        (if control then .inl pts else .inr (fun k => if h : (k : ℕ) < d then g ⟨k, h⟩ else [0])) sc ve := by
  have hnp : ∏ a, ((g a).length : ℤ) = (pts.length / 3 : ℕ) := by omega
  unfold vtkFile
  rw [hnp, VTK.pad_dims, VTK.pad_dims, VTK.pad_dims, toString_cast, toString_cast, toString_cast, toString_cast]
  have hpd : VTK.pointData (pts.length / 3) sc ve = (if sc = [] ∧ ve = [] then [] else
    line ("POINT_DATA " ++ toString (pts.length / 3)) ++
    (sc.zipIdx.map (fun x => line ("SCALARS " ++ vtkName "scalars" x.2 x.1.1 ++ " double") ++ line "LOOKUP_TABLE default" ++
      data x.1.2)).flatten ++
    (ve.zipIdx.map (fun x => line ("VECTORS " ++ vtkName "vectors" x.2 x.1.1 ++ " double") ++ data x.1.2)).flatten) := by
    unfold VTK.pointData
    by_cases h : sc = [] ∧ ve = []
    · rw [if_pos h, if_pos (by simp [h.1, h.2])]
    · rw [if_neg h, if_neg (by simpa using h)]
      rfl
  rw [← hpd]
  cases control
  · unfold VTK.geometry
    simp only [Bool.false_eq_true, if_false]
    simp only [List.flatMap_cons, List.flatMap_nil, VTK.coords_length]
    rfl
  · rfl

/-- Hypotheses of C44: the sampler gives at least one parameter per axis, all in the domain -/
def VTK.Samples (N : Nrb K d) (sampler : List K → List K) : Prop :=
  ∀ a : Fin d, ∀ l, N.breaks (a : ℕ) = .ok l → sampler l ≠ [] ∧ ∀ x ∈ sampler l, N.lo a ≤ x ∧ x ≤ N.hi a

/-- C44: the whole file.  The points, the scalars and the vectors hold the values of the object at the sampled parameters, in
VTK order: point `(i, j, k)` is number `i + nx * (j + ny * k)`. -/
theorem C44_write (title : String) (jk : ℤ → K) (je : ℤ → ℕ → K) {N : Nrb K d} (hd : d ≤ 3) (hv : N.Valid) (h4 : 4 ≤ N.nc)
    (control : Bool) {fields : Option (Nd K)} {nf : ℕ} (hf : VTK.FieldsFit N nf fields) {scalars : VtkArg ℤ}
    (hsc : ∀ x ∈ scalars.items, ∃ c, IsColumn nf x.2 c) {vectors : VtkArg (List ℤ)}
    (hve : ∀ x ∈ vectors.items, x.2.length ≤ 3 ∧ ∀ i ∈ x.2, ∃ c, IsColumn nf i c) {sampler : List K → List K}
    (hs : VTK.Samples N sampler) :
    ∃ (M : Nrb K d) (g : Fin d → List K) (pts : List K) (sc ve : List (String × List K)),
      Shows N fields M ∧
      (∀ a : Fin d, ∃ l, N.breaks (a : ℕ) = .ok l ∧ g a = sampler l) ∧
      VTK.write title jk je N control fields scalars vectors sampler = .ok (vtkFile title (fun a => ((g a).length : ℤ))
        (if control then .inl pts else .inr (fun k => if h : (k : ℕ) < d then g ⟨k, h⟩ else [0])) sc ve) ∧
      Holds (fun a => ((g a).length : ℤ)) 3 pts (fun i c => N.proj (fun a => (g a).getD (i a).toNat 0) c) ∧
      List.Forall₂ (fun x y => y.1 = x.1 ∧ ∃ c, IsColumn nf x.2 c ∧ Holds (fun a => ((g a).length : ℤ)) 1 y.2
        (fun i _ => M.proj (fun a => (g a).getD (i a).toNat 0) (4 + c))) scalars.items sc ∧
      List.Forall₂ (fun x y => y.1 = x.1 ∧ ∃ cs, List.Forall₂ (IsColumn nf) x.2 cs ∧
        Holds (fun a => ((g a).length : ℤ)) 3 y.2 (fun i k => if h : k < cs.length then
          M.proj (fun a => (g a).getD (i a).toNat 0) (4 + cs[k]) else 0)) vectors.items ve := by
  obtain ⟨g, hg, hb⟩ := VTK.grid_ok sampler N
  have hg0 : ∀ a, g a ≠ [] := fun a => by
    obtain ⟨l, h1, h2⟩ := hb a
    rw [h2]; exact (hs a l h1).1
  have hgd : ∀ a, ∀ x ∈ g a, N.lo a ≤ x ∧ x ≤ N.hi a := fun a => by
    obtain ⟨l, h1, h2⟩ := hb a
    rw [h2]; exact (hs a l h1).2
  have hpos : ∀ a, 0 < ((g a).length : ℤ) := fun a => by
    have := List.length_pos_iff.mpr (hg0 a); omega
  obtain ⟨M, hM, hMs, hMn⟩ : ∃ M, (match fields with | some F => VTK.withFields N F | none => pure N) = .ok M ∧
      Shows N fields M ∧ M.nc = 4 + nf := by
    cases fields with
    | none => exact ⟨N, rfl, ⟨rfl, rfl, rfl, fun _ _ _ => rfl, fun _ => rfl, (fun A h => by cases h), (fun A m h => by cases h)⟩, hf⟩
    | some A => exact VTK.withFields_ok hf
  have hMd : ∀ a, M.degree a = N.degree a ∧ M.n a = N.n a ∧ M.lo a = N.lo a ∧ M.hi a = N.hi a := by
    intro a
    have e1 : M.degree a = N.degree a := by unfold Nrb.degree; rw [hMs.len, hMs.shape]
    refine ⟨e1, by unfold Nrb.n; rw [hMs.shape], ?_, ?_⟩
    · unfold Nrb.lo; rw [e1, hMs.U]
    · unfold Nrb.hi; rw [e1, hMs.U, hMs.len]
  have hMv : M.Valid := by
    intro a
    obtain ⟨e1, e2, -, -⟩ := hMd a
    rw [e1, e2, hMs.U]
    exact hv a
  have hMp : ∀ x c, c < 4 → M.proj x c = N.proj x c := by
    have hMe : ∀ x c, c < 4 → M.eval x c = N.eval x c := by
      intro x c hc
      rw [Nrb.eval_apply, Nrb.eval_apply]
      have e : M.n = N.n := funext fun a => (hMd a).2.1
      have e' : M.degree = N.degree := funext fun a => (hMd a).1
      unfold Nrb.wt
      rw [e, e', hMs.U]
      exact Finset.sum_congr rfl (fun idx _ => by rw [hMs.control idx c hc])
    intro x c hc
    unfold Nrb.proj
    rw [hMe x c hc, hMe x 3 (by omega)]
  unfold VTK.write
  rw [hg, res_ok_bind]
  by_cases hflag : scalars.items = [] ∧ vectors.items = []
  · have e1 := (VTK.isEmpty_iff scalars).mpr hflag.1
    have e2 := (VTK.isEmpty_iff vectors).mpr hflag.2
    obtain ⟨C, F, h1, h2, h3, h4⟩ := VTK.sample_ok jk je hd hv (nf := N.nc - 4) (by omega) hg0 hgd false
    refine ⟨M, g, VTK.flat C, [], [], hMs, hb, ?_, h2, by rw [hflag.1]; exact .nil, by rw [hflag.2]; exact .nil⟩
    have e3 : VTK.shown N fields (!(scalars.isEmpty && vectors.isEmpty)) = Except.ok N := by
      rw [e1, e2]; cases fields <;> rfl
    dsimp only
    rw [e3, res_ok_bind, e1, e2]
    simp only [Bool.and_self, Bool.not_true]
    rw [h1, res_ok_bind, hflag.1, hflag.2]
    rw [← VTK.file_eq title g (VTK.flat C) h2.length control [] []]
    rfl
  · have e1 : (!(scalars.isEmpty && vectors.isEmpty)) = true := by
      rw [← VTK.isEmpty_iff, ← VTK.isEmpty_iff] at hflag
      cases h1 : scalars.isEmpty <;> cases h2 : vectors.isEmpty <;> simp_all
    obtain ⟨C, F, h1, h2, h3, h4⟩ := VTK.sample_ok jk je hd hMv hMn hg0
      (fun a x hx => by rw [(hMd a).2.2.1, (hMd a).2.2.2]; exact hgd a x hx) true
    have e3 : VTK.shown N fields (!(scalars.isEmpty && vectors.isEmpty)) = Except.ok M := by
      rw [← hM, e1]; cases fields <;> rfl
    have hnp : (((VTK.flat C).length / 3 : ℕ) : ℤ) = ∏ a, ((g a).length : ℤ) := by
      have := h2.length
      omega
    rw [if_pos rfl] at h3 h4
    obtain ⟨sc, s1, s2⟩ := VTK.mapM_forall (f := VTK.scalarData (VTK.flat F) ((VTK.flat C).length / 3 : ℕ) nf)
      (R := fun x y => y.1 = x.1 ∧ ∃ c, IsColumn nf x.2 c ∧ Holds (fun a => ((g a).length : ℤ)) 1 y.2
        (fun i _ => M.proj (fun a => (g a).getD (i a).toNat 0) (4 + c))) (l := scalars.items) (by
      intro x hx
      obtain ⟨c, hc⟩ := hsc x hx
      obtain ⟨l, l1, l2⟩ := VTK.scalarData_ok hd hpos h4 hnp hc
      exact ⟨_, l1, rfl, c, hc, l2⟩)
    obtain ⟨ve, v1, v2⟩ := VTK.mapM_forall (f := VTK.vectorData (VTK.flat F) ((VTK.flat C).length / 3 : ℕ) nf)
      (R := fun x y => y.1 = x.1 ∧ ∃ cs, List.Forall₂ (IsColumn nf) x.2 cs ∧
        Holds (fun a => ((g a).length : ℤ)) 3 y.2 (fun i k => if h : k < cs.length then
          M.proj (fun a => (g a).getD (i a).toNat 0) (4 + cs[k]) else 0)) (l := vectors.items) (by
      intro x hx
      obtain ⟨hx3, hxc⟩ := hve x hx
      obtain ⟨cs, hcs⟩ : ∃ cs, List.Forall₂ (IsColumn nf) x.2 cs := by
        revert hxc
        clear hx3
        generalize x.2 = is
        intro hxc
        induction is with
        | nil => exact ⟨[], .nil⟩
        | cons i is ih =>
          obtain ⟨c, hc⟩ := hxc i (by simp)
          obtain ⟨cs, hcs⟩ := ih (fun j hj => hxc j (List.mem_cons_of_mem _ hj))
          exact ⟨c :: cs, .cons hc hcs⟩
      obtain ⟨l, l1, l2⟩ := VTK.vectorData_ok hd h4 hnp hcs (by rw [← hcs.length_eq]; exact hx3)
      exact ⟨_, l1, rfl, cs, hcs, l2⟩)
    refine ⟨M, g, VTK.flat C, sc, ve, hMs, hb, ?_, ⟨h2.length, fun i hi c hc => (h2.get i hi c hc).trans ?_⟩, s2, v2⟩
    · dsimp only
      rw [e3, res_ok_bind, e1, h1, res_ok_bind]
      dsimp only
      rw [h3, s1, res_ok_bind, v1, res_ok_bind, res_pure, VTK.file_eq title g (VTK.flat C) h2.length control sc ve]
    · rw [hMp _ _ (by omega)]

/-- C44: every place in the arrays of the file belongs to exactly one point of the grid. -/
theorem C44_each_once (hd : d ≤ 3) {n : Fin d → ℤ} (hn : ∀ a, 0 < n a) {t : ℤ} (h0 : 0 ≤ t) (h1 : t < ∏ a, n a) :
    ∃! i : Fin d → ℤ, InGrid n i ∧ gridPos n i = t := gridPos_bij hd hn h0 h1

/-- C44: for a volume the place of point `(i, j, k)` is `i + nx * (j + ny * k)`. -/
theorem C44_order (n i : Fin 3 → ℤ) : gridPos n i = i 0 + n 0 * (i 1 + n 1 * i 2) := rfl

/-- C44: without a sampler the parameters are the distinct knots of the domain. -/
theorem C44_default_sampler {N : Nrb K d} (hv : N.Valid) : VTK.Samples N id := by
  intro a l hl
  obtain ⟨l', h1, h2, h3⟩ := C32_breaks N (normAxis_self a)
  obtain rfl : l' = l := Except.ok.inj (h1.symm.trans hl)
  have hva := hv a
  have hp := hva.one_le
  have hpn := hva.le
  refine ⟨List.ne_nil_of_mem ((h3 _).mpr ⟨N.degree a, le_rfl, by omega, rfl⟩), fun x hx => ?_⟩
  obtain ⟨k, k1, k2, rfl⟩ := (h3 x).mp hx
  rw [N.hi_eq]
  exact ⟨hva.sorted _ _ (by omega) k1 (by omega), hva.sorted _ _ (by omega) k2 (by omega)⟩

/-- C44: a dict of scalars or vectors is written in the order of its keys, every entry once. -/
theorem C44_dict {ι : Type} (l : List (String × ι)) :
    ((VtkArg.dict l).items).Perm l ∧ ((VtkArg.dict l).items).Pairwise (fun x y => x.1 ≤ y.1) := by
  refine ⟨List.mergeSort_perm _ _, ?_⟩
  have := List.pairwise_mergeSort (le := fun (x y : String × ι) => decide (x.1 ≤ y.1))
    (fun a b c h1 h2 => by simp only [decide_eq_true_eq] at *; exact String.le_trans h1 h2)
    (fun a b => by simp only [Bool.or_eq_true, decide_eq_true_eq]; exact String.le_total _ _) l
  exact this.imp (fun h => by simpa using h)

/-- C44: a scalar that is not a column of the fields is refused before anything is written (IndexError). -/
theorem C44_rejects (title : String) (jk : ℤ → K) (je : ℤ → ℕ → K) {N : Nrb K d} (hd : d ≤ 3) (hv : N.Valid)
    (control : Bool) {nf : ℕ} (hf : N.nc = 4 + nf) {l : List (String × ℤ)} (hl : ∃ x ∈ l, ¬ ∃ c, IsColumn nf x.2 c)
    (vectors : VtkArg (List ℤ)) {sampler : List K → List K} (hs : VTK.Samples N sampler) :
    VTK.write title jk je N control none (.seq l) vectors sampler = .error .index := by
  obtain ⟨g, hg, hb⟩ := VTK.grid_ok sampler N
  have hg0 : ∀ a, g a ≠ [] := fun a => by
    obtain ⟨l, h1, h2⟩ := hb a
    rw [h2]; exact (hs a l h1).1
  have hgd : ∀ a, ∀ x ∈ g a, N.lo a ≤ x ∧ x ≤ N.hi a := fun a => by
    obtain ⟨l, h1, h2⟩ := hb a
    rw [h2]; exact (hs a l h1).2
  have hne : l.isEmpty = false := by
    obtain ⟨x, hx, -⟩ := hl
    cases l with
    | nil => cases hx
    | cons => rfl
  obtain ⟨C, F, h1, h2, h3, h4⟩ := VTK.sample_ok jk je hd hv hf hg0 hgd true
  have hm : ∀ (G : List K) (np : ℤ), l.mapM (VTK.scalarData G np nf) = .error .index := by
    intro G np
    clear hne
    induction l with
    | nil => obtain ⟨x, hx, -⟩ := hl; cases hx
    | cons y l ih =>
      rw [List.mapM_cons]
      by_cases hy : ∃ c, IsColumn nf y.2 c
      · obtain ⟨c, hc⟩ := hy
        have : VTK.scalarData G np nf y = .ok (y.1, VTK.col G np nf c) := by
          unfold VTK.scalarData
          rw [VTK.column_ok hc, res_ok_bind, res_pure]
        rw [this, res_ok_bind, ih, res_err_bind]
        obtain ⟨x, hx, h⟩ := hl
        rcases List.mem_cons.mp hx with rfl | hx
        · exact absurd ⟨c, hc⟩ h
        · exact ⟨x, hx, h⟩
      · have : VTK.scalarData G np nf y = .error .index := by
          unfold VTK.scalarData
          rw [VTK.column_err hy, res_err_bind]
        rw [this, res_err_bind]
  unfold VTK.write
  rw [hg, res_ok_bind]
  have e1 : (!((VtkArg.seq l).isEmpty && vectors.isEmpty)) = true := by
    show (!(l.isEmpty && vectors.isEmpty)) = true
    rw [hne]; rfl
  dsimp only
  rw [e1]
  unfold VTK.shown
  dsimp only
  rw [res_pure, res_ok_bind, h1, res_ok_bind]
  dsimp only
  rw [h3, if_pos rfl]
  unfold VtkArg.items
  dsimp only
  rw [hm, res_err_bind]

example := C44_write "t" (fun _ => 7) (fun _ _ => 9) (N := Ex.S) (by decide) Ex.S_valid (by decide) true (fields := none) (nf := 1) rfl
  (scalars := .dict [("q", 0), ("p", -1)]) (by
    intro x hx
    rcases List.mem_cons.mp ((C44_dict _).1.mem_iff.mp hx) with rfl | hx
    · exact ⟨0, by decide, Or.inl rfl⟩
    · obtain rfl := List.mem_singleton.mp hx
      exact ⟨0, by decide, Or.inr rfl⟩)
  (vectors := .seq [("v w", [0, 0])]) (by
    intro x hx
    obtain rfl := List.mem_singleton.mp hx
    exact ⟨by decide, fun i hi => ⟨0, by decide, Or.inl (by simpa using hi)⟩⟩) (C44_default_sampler Ex.S_valid)
example : ∃! i : Fin 3 → ℤ, InGrid ![2, 3, 4] i ∧ gridPos ![2, 3, 4] i = 11 :=
  C44_each_once (by decide) (by decide) (by decide) (by decide)
example : gridPos ![2, 3, 4] ![1, 2, 1] = 11 := by decide
example := C44_rejects "t" (fun _ => 7) (fun _ _ => 9) (N := Ex.S) (by decide) Ex.S_valid true (nf := 1) rfl (l := [("p", 0), ("q", 1)])
  ⟨("q", 1), by simp, by rintro ⟨c, h1, h2⟩; dsimp only at h2; omega⟩ (.seq []) (C44_default_sampler Ex.S_valid)

end Igakit
