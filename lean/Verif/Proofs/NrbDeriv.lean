import Verif.Proofs.Derivs
import Verif.Proofs.DersAlg
import Verif.Proofs.CurveForm
import Verif.Proofs.Hull

/-!
# Derivatives of the rational map of an object: reduction to one cell of knot spans
-/

namespace Igakit
open Spec Polynomial
set_option linter.unusedSectionVars false

theorem SpanOf.unique {K : Type*} [Field K] [LinearOrder K] [IsStrictOrderedRing K] {n : ℤ} {p : ℕ}
    {U : ℤ → K} {k k' : ℤ} {u : K} (hs : SortedOn U 0 (n + p + 1))
    (h : SpanOf n p U k u) (h' : SpanOf n p U k' u) : k = k' := by
  have key : ∀ {k k'}, SpanOf n p U k u → SpanOf n p U k' u → ¬ k < k' := by
    intro k k' h h' hlt
    have a1 := h.lo
    have a2 := h'.hi
    have hk := hs (k + 1) k' (by omega) (by omega) (by omega)
    have hn := hs (k + 1) (n + 1) (by omega) (by have := h.lo; omega) (by omega)
    rcases h.mem with ⟨b, c⟩ | ⟨b, c, e⟩
    · exact absurd (h'.left) (not_le.mpr (lt_of_lt_of_le c hk))
    · rcases h'.mem with ⟨b', c'⟩ | ⟨b', c', e'⟩
      · have := hs (k' + 1) (n + 1) (by omega) (by have := h.lo; omega) (by omega)
        exact absurd c' (not_lt.mpr (e ▸ this))
      · exact absurd (c ▸ hk) (not_le.mpr b')
  have h1 := key h h'
  have h2 := key h' h
  omega

variable {d : ℕ} {N : Nrb ℝ d} {x : Fin d → ℝ}

/-- polynomial piece of the local function `loc` on every axis -/
noncomputable def Nrb.Qp (N : Nrb ℝ d) (x : Fin d → ℝ) (loc : Fin d → ℤ) : Fin d → ℝ[X] :=
  fun a => pieceP (N.U a) (N.spanAt x a) (N.degree a).toNat (N.ctl x loc a)

theorem vk (hv : N.Valid) (a : Fin d) : ValidKnots (N.n a) ((N.degree a).toNat : ℤ) (N.U a) := by
  rw [hv.degNat]; exact hv a

theorem spanAt_ok (hv : N.Valid) (hx : N.InDom x) (a : Fin d) :
    SpanOf (N.n a) (N.degree a).toNat (N.U a) (N.spanAt x a) (x a) := by
  have := SpanOf.of_findSpan (vk hv a) (u := x a) (by rw [hv.degNat]; exact (hx a).1)
    (by rw [← N.hi_eq]; exact (hx a).2)
  rw [hv.degNat] at this
  exact this

theorem mem_locs {loc : Fin d → ℤ} : loc ∈ N.locs ↔ ∀ a, 0 ≤ loc a ∧ loc a ≤ N.degree a := by
  unfold Nrb.locs
  simp [Fintype.mem_piFinset]

theorem tensorN_eq (J : Junk ℝ) (hv : N.Valid) (hx : N.InDom x) (hd : d = 1 ∨ d = 2 ∨ d = 3) {m : ℕ}
    {l : List (Fin d)} (hl : l.length ≤ m) (hl' : l.length ≤ 3 ∨ (l.length = 4 ∧ d ≠ 1))
    {loc : Fin d → ℤ} (hloc : loc ∈ N.locs) :
    N.tensorN J m x l loc = prodFam (N.Qp x loc) l x := by
  unfold Nrb.tensorN prodFam
  refine Finset.prod_congr rfl fun a _ => ?_
  have hb := mem_locs.mp hloc a
  have hdn := hv.degNat a
  rw [tpExp_count hd l hl' a]
  have hc : l.count a ≤ m := List.count_le_length.trans hl
  have := dersBasisFuns_spec J.k1 J.ndu J.a J.ders (N.spanAt x a) (x a) (N.degree a).toNat m (N.U a)
    ((spanAt_ok hv hx a).win (vk hv a).sorted) (loc a) hb.1 (by omega) (l.count a) (by omega)
  rw [hdn] at this
  exact this

theorem tensor_window (hv : N.Valid) (hx : N.InDom x) {y : Fin d → ℝ}
    (hy : ∀ a, SpanOf (N.n a) (N.degree a).toNat (N.U a) (N.spanAt x a) (y a)) (G : (Fin d → ℤ) → ℝ) :
    tensor N.n (fun a => (N.degree a).toNat) N.U G y =
      ∑ loc ∈ N.locs, prodFam (N.Qp x loc) [] y * G (N.ctl x loc) := by
  unfold tensor
  symm
  refine Eq.trans ?_ (Finset.sum_subset (s₁ := Fintype.piFinset
    (fun a => Finset.Icc (N.spanAt x a - N.degree a) (N.spanAt x a))) ?_ ?_)
  · refine Finset.sum_bij (fun loc _ => N.ctl x loc) ?_ ?_ ?_ ?_
    · intro loc hloc
      have := mem_locs.mp hloc
      refine Fintype.mem_piFinset.mpr fun a => Finset.mem_Icc.mpr ?_
      have := this a
      unfold Nrb.ctl
      omega
    · intro l1 _ l2 _ e
      funext a
      have := congrFun e a
      unfold Nrb.ctl at this
      omega
    · intro idx hidx
      refine ⟨fun a => idx a - (N.spanAt x a - N.degree a), mem_locs.mpr fun a => ?_, ?_⟩
      · have := Finset.mem_Icc.mp (Fintype.mem_piFinset.mp hidx a)
        omega
      · funext a; unfold Nrb.ctl; ring
    · intro loc hloc
      rw [smul_eq_mul]
      congr 1
      unfold prodFam
      refine Finset.prod_congr rfl fun a _ => ?_
      have h1 := mem_locs.mp hloc a
      have h2 := (hy a).lo
      have h3 := (hy a).hi
      have h4 := hv.degNat a
      rw [List.count_nil, Function.iterate_zero, id_eq, Nrb.Qp, eval_pieceP,
        (hy a).basis (vk hv a).sorted (by unfold Nrb.ctl; omega) (by unfold Nrb.ctl; omega)]
  · intro idx hidx
    refine Fintype.mem_piFinset.mpr fun a => Finset.mem_Icc.mpr ?_
    have := Finset.mem_Icc.mp (Fintype.mem_piFinset.mp hidx a)
    have h2 := (hy a).lo
    have h3 := (hy a).hi
    have h4 := hv.degNat a
    omega
  · intro idx h1 h2
    have h1 := fun a => Finset.mem_Icc.mp (Fintype.mem_piFinset.mp h1 a)
    rw [Fintype.mem_piFinset] at h2
    push Not at h2
    obtain ⟨a, ha⟩ := h2
    rw [Finset.mem_Icc] at ha
    rw [Finset.prod_eq_zero (Finset.mem_univ a), zero_smul]
    rw [(hy a).basis (vk hv a).sorted (h1 a).1 (h1 a).2]
    have h4 := hv.degNat a
    by_cases hlt : idx a ≤ N.spanAt x a
    · exact piece_zero_of_lt _ _ _ _ _ (by omega)
    · exact piece_zero_of_gt _ _ _ _ _ (by omega)

/-- numerator family -/
noncomputable def Nrb.famA (N : Nrb ℝ d) (x : Fin d → ℝ) (F : (Fin d → ℤ) → ℝ) (l : List (Fin d))
    (y : Fin d → ℝ) : ℝ :=
  ∑ loc ∈ N.locs, N.P (N.ctl x loc) 3 * prodFam (N.Qp x loc) l y * F (N.ctl x loc)

/-- denominator family -/
noncomputable def Nrb.famW (N : Nrb ℝ d) (x : Fin d → ℝ) (l : List (Fin d)) (y : Fin d → ℝ) : ℝ :=
  ∑ loc ∈ N.locs, N.P (N.ctl x loc) 3 * prodFam (N.Qp x loc) l y

theorem famA_dfam (F : (Fin d → ℤ) → ℝ) : DFam (N.famA x F) :=
  DFam.sum fun _ _ => ((prodFam_dfam _).const_mul _).mul_const _

theorem famW_dfam : DFam (N.famW x) := DFam.sum fun _ _ => (prodFam_dfam _).const_mul _

theorem cell_span (hv : N.Valid) (hx : N.InDom x) {S : Fin d → Set ℝ} (hS : N.Cell x S) {y : Fin d → ℝ}
    (hy : ∀ a, y a ∈ S a) (a : Fin d) :
    SpanOf (N.n a) (N.degree a).toNat (N.U a) (N.spanAt x a) (y a) := by
  obtain ⟨k, h1, h2, h3, h4⟩ := hS a
  have h5 := hv.degNat a
  have key : ∀ z, z ∈ S a → SpanOf (N.n a) (N.degree a).toNat (N.U a) k z := by
    intro z hz
    refine ⟨by omega, h2, ?_⟩
    rcases h4 with e | e | ⟨e, e1, _⟩
    · rw [e] at hz; exact Or.inl ⟨hz.1.le, hz.2⟩
    · rw [e] at hz; exact Or.inl hz
    · rw [e] at hz
      rcases hz.2.eq_or_lt with h | h
      · exact Or.inr ⟨hz.1, h, by rw [h, e1, N.hi_eq]⟩
      · exact Or.inl ⟨hz.1.le, h⟩
  rw [← SpanOf.unique (vk hv a).sorted (key _ h3) (spanAt_ok hv hx a)]
  exact key _ (hy a)

theorem cell_inDom (hv : N.Valid) {S : Fin d → Set ℝ} (hx : N.InDom x) (hS : N.Cell x S) {y : Fin d → ℝ}
    (hy : ∀ a, y a ∈ S a) : N.InDom y := by
  intro a
  have h := cell_span hv hx hS hy a
  have h1 := h.lo
  have h2 := h.hi
  have h4 := hv.degNat a
  have hs := (vk hv a).sorted
  refine ⟨(hs _ _ (by omega) h1 (by omega)).trans ?_ |> fun h => by
    rw [h4] at h; exact h, ?_⟩
  · exact h.left
  · rw [N.hi_eq]; exact h.right.trans (hs _ _ (by omega) (by omega) (by omega))

theorem cell_unique {S : Fin d → Set ℝ} (hS : N.Cell x S) (a : Fin d) : UniqueDiffOn ℝ (S a) := by
  obtain ⟨k, _, _, _, e | e | ⟨e, _⟩⟩ := hS a
  · rw [e]; exact uniqueDiffOn_Ioo _ _
  · rw [e]; exact uniqueDiffOn_Ico _ _
  · rw [e]; exact uniqueDiffOn_Ioc _ _

theorem cell_mem {S : Fin d → Set ℝ} (hS : N.Cell x S) (a : Fin d) : x a ∈ S a := by
  obtain ⟨k, _, _, h, _⟩ := hS a
  exact h

theorem denom_eq (hv : N.Valid) (hx : N.InDom x) {y : Fin d → ℝ}
    (hy : ∀ a, SpanOf (N.n a) (N.degree a).toNat (N.U a) (N.spanAt x a) (y a)) :
    N.denom y = N.famW x [] y := by
  unfold Nrb.denom Nrb.eval
  have := tensor_window hv hx hy (fun idx => N.P idx 3)
  unfold tensor at this ⊢
  rw [Finset.sum_apply]
  simp only [Pi.smul_apply]
  rw [this]
  unfold Nrb.famW
  exact Finset.sum_congr rfl fun _ _ => by ring

theorem ratField_eq (hv : N.Valid) (hx : N.InDom x) {y : Fin d → ℝ}
    (hy : ∀ a, SpanOf (N.n a) (N.degree a).toNat (N.U a) (N.spanAt x a) (y a))
    (F : (Fin d → ℤ) → ℕ → ℝ) (c : ℕ) :
    N.ratField F c y = q0 (N.famA x (fun i => F i c)) (N.famW x) y := by
  unfold Nrb.ratField q0
  rw [denom_eq hv hx hy, tensor_window hv hx hy]
  congr 1
  unfold Nrb.famA
  exact Finset.sum_congr rfl fun _ _ => by ring

theorem sumsUpTo (J : Junk ℝ) (hv : N.Valid) (hx : N.InDom x) (hd : d = 1 ∨ d = 2 ∨ d = 3) {m o : ℕ}
    (hm : m ≤ 3 ∨ (m = 4 ∧ d ≠ 1)) (ho : m ≤ o) (F : (Fin d → ℤ) → ℕ → ℝ) (c : ℕ) :
    SumsUpTo N.locs (fun loc => N.P (N.ctl x loc) 3) (N.tensorN J o x)
      (fun loc => F (N.ctl x loc) c) m (N.famA x (fun i => F i c)) (N.famW x) x := by
  constructor
  · intro l hl
    unfold Nrb.famW ratW
    refine Finset.sum_congr rfl fun loc hloc => ?_
    rw [tensorN_eq J hv hx hd (hl.trans ho) (by omega) hloc]
    try ring
  · intro l hl
    unfold Nrb.famA
    refine Finset.sum_congr rfl fun loc hloc => ?_
    rw [tensorN_eq J hv hx hd (hl.trans ho) (by omega) hloc]

/-- derivatives of the denominator -/
theorem pd_denom (hv : N.Valid) (hx : N.InDom x) {S : Fin d → Set ℝ} (hS : N.Cell x S) :
    ∀ (l : List (Fin d)) (y : Fin d → ℝ), (∀ a, y a ∈ S a) → pd S l N.denom y = N.famW x l y := by
  intro l
  induction l with
  | nil => intro y hy; exact denom_eq hv hx (cell_span hv hx hS hy)
  | cons i l ih => intro y hy; exact pd_step (cell_unique hS) ih hy (famW_dfam l y i)

theorem pd_const {S : Fin d → Set ℝ} (c : ℝ) : ∀ (l : List (Fin d)) (i : Fin d),
    pd S (i :: l) (fun _ => c) = fun _ => 0 := by
  intro l
  induction l with
  | nil => intro i; funext y; simp [pd]
  | cons j l ih => intro i; funext y; rw [pd, ih j]; simp

/-- equal weights: the derivatives of the denominator vanish -/
theorem famW_const (hv : N.Valid) (hx : N.InDom x) {S : Fin d → Set ℝ} (hS : N.Cell x S) {w : ℝ}
    (hw : ∀ idx, (∀ a, 0 ≤ idx a ∧ idx a ≤ N.n a) → N.P idx 3 = w) (i : Fin d) (l : List (Fin d)) :
    N.famW x (i :: l) x = 0 := by
  rw [← pd_denom hv hx hS _ x (cell_mem hS),
    pd_congr (g := fun _ => w) (fun y hy => ?_) _ x (cell_mem hS), pd_const]
  unfold Nrb.denom
  rw [Nrb.eval_apply, Finset.sum_congr rfl (g := fun idx => N.wt y idx * w), ← Finset.sum_mul,
    Nrb.wt_sum hv (cell_inDom hv hx hS hy), one_mul]
  intro idx h
  rw [hw idx fun a => Finset.mem_Icc.mp (Fintype.mem_piFinset.mp h a)]

end Igakit
