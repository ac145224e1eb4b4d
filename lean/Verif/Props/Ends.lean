import Verif.Proofs.Ends
import Verif.Props.Derivs
import Verif.Props.Data
import Verif.Props.Axis

/-! # C67: corners, boundary nets and end tangents of clamped objects -/

set_option linter.unusedSectionVars false

namespace Igakit
open Spec Polynomial

section
variable {K : Type} [Field K] [LinearOrder K] [IsStrictOrderedRing K] {d : ℕ}

/-- C67: at a clamped corner a call returns the outermost control point and its fields (divided by the weight) -/
theorem C67_corner (jk : ℤ → K) (je : ℤ → ℕ → K) {N : Nrb K d} (hd : d ≤ 3) (hv : N.Valid) {r : Fin d → ℤ} {X : Fin d → ℤ → K}
    (hr : ∀ a, 0 ≤ r a) (hx : ∀ a i, 0 ≤ i → i ≤ r a → N.lo a ≤ X a i ∧ X a i ≤ N.hi a) :
    ∃ C, N.call jk je r X = .ok C ∧ ∀ g : Fin d → ℤ, (∀ a, 0 ≤ g a ∧ g a ≤ r a) → ∀ s : Fin d → Bool,
      (∀ a, N.ClampedAt a (s a) ∧ X a (g a) = N.endPar a (s a)) →
      ∀ c, (C g).1 c = N.P (fun a => N.endIdx a (s a)) c / N.P (fun a => N.endIdx a (s a)) 3 ∧
        (C g).2 c = N.P (fun a => N.endIdx a (s a)) (4 + c) / N.P (fun a => N.endIdx a (s a)) 3 := by
  obtain ⟨C, h1, h2⟩ := C05_call jk je hd hv hr hx
  refine ⟨C, h1, fun g hg s hs c => ?_⟩
  have e : (fun a => X a (g a)) = fun a => N.endPar a (s a) := funext fun a => (hs a).2
  have he : ∀ k, N.eval (fun a => N.endPar a (s a)) k = N.P (fun a => N.endIdx a (s a)) k := by
    intro k
    unfold Nrb.eval
    rw [tensor_apply]
    exact tensor_ends hv (fun a => (hs a).1) _
  have := h2 g hg c
  rw [e] at this
  unfold Nrb.proj at this
  rw [he, he, he] at this
  exact this

theorem findMult_ge {eps : K} (heps : 0 < eps) {i p : ℤ} {u : K} {U : ℤ → K} {lo hi : ℤ} (h1 : -p ≤ lo) (h2 : hi ≤ p + 1)
    (h : ∀ j, lo ≤ j → j ≤ hi → U (i + j) = u) : hi + 1 - lo ≤ findMult eps i u p U := by
  unfold findMult
  rw [forUp_count (fun j => |u - U (i + j)| < eps)]
  have hsub : Finset.Icc lo hi ⊆ (Finset.Icc (-p) (p + 1)).filter (fun j => |u - U (i + j)| < eps) := by
    intro j hj
    obtain ⟨j1, j2⟩ := Finset.mem_Icc.1 hj
    refine Finset.mem_filter.2 ⟨Finset.mem_Icc.2 ⟨by omega, by omega⟩, ?_⟩
    rw [h j j1 j2, sub_self, abs_zero]
    exact heps
  have := Finset.card_le_card hsub
  rw [Int.card_Icc] at this
  omega

/-- C67: the boundary of a clamped axis has the outermost layer of the control net as its control net, and the knots of
the other axes -/
theorem C67_boundary {eps : K} (heps : 0 < eps) (je : ℤ → (Fin d → ℤ) → ℕ → K) {N : Nrb K (d + 1)} (hv : N.Valid) {axis : ℤ}
    {a : Fin (d + 1)} (ha : AxisName (d + 1) axis a) {s : Bool} (hc : N.ClampedAt a s) :
    ∃ N', N.boundary eps je axis (if s then 1 else 0) = .ok N' ∧ N'.nc = N.nc ∧
      (∀ b, N'.shape b = N.shape (a.succAbove b) ∧ N'.len b = N.len (a.succAbove b) ∧ N'.U b = N.U (a.succAbove b)) ∧
      ∀ idx, N'.P idx = N.P (a.insertNth (N.endIdx a s) idx) := by
  obtain ⟨p, hp, hk, e⟩ := deg_nat hv a
  have h1 := hk.one_le
  have h2 := hk.le
  have hlt : N.U a p < N.U a (N.n a + 1) :=
    lt_of_le_of_lt (hk.sorted p (N.n a) (by omega) (by omega) (by omega)) hk.last
  have hlo : N.lo a = N.U a p := by rw [N.lo_eq, hp]
  have hhi := N.hi_eq a
  have hE : BSp.Extract eps je (N.n a) (N.degree a) (N.U a) (N.row a) (N.endPar a s) = .ok (N.row a (N.endIdx a s)) := by
    unfold BSp.Extract
    rw [hp, if_pos (by omega)]
    unfold curvePntByCornerCut
    cases s with
    | false =>
      have hc : ClampedL (p : ℤ) (N.U a) := by rw [← hp]; exact hc
      rw [if_pos (show N.endPar a false ≤ N.U a p from hlo.le), if_pos]
      · rfl
      have := findMult_ge heps (i := p) (p := p) (u := N.U a p) (U := N.U a) (lo := -p) (hi := 0) le_rfl (by omega)
        (fun j j1 j2 => hc _ (by omega) (by omega))
      omega
    | true =>
      have hc : ClampedR (N.n a) (p : ℤ) (N.U a) := by rw [← hp]; exact hc
      rw [if_neg (show ¬N.endPar a true ≤ N.U a p by
        simp only [Nrb.endPar]; rw [hhi]; exact not_le.2 hlt), if_pos (show N.endPar a true ≥ _ from hhi.ge), if_pos]
      · rfl
      have := findMult_ge heps (i := N.n a) (p := p) (u := N.U a (N.n a + 1)) (U := N.U a) (lo := 1) (hi := p + 1)
        (by omega) (by omega) (fun j j1 j2 => hc _ (by omega) (by omega))
      omega
  have hd1 : N.lo a ≤ N.endPar a s := by
    cases s
    · exact le_rfl
    · simp only [Nrb.endPar]; rw [hlo, hhi]; exact hlt.le
  have hd2 : N.endPar a s ≤ N.hi a := by
    cases s
    · simp only [Nrb.endPar]; rw [hlo, hhi]; exact hlt.le
    · exact le_rfl
  have hval : (if (if s then (1 : ℤ) else 0) = 0 then N.lo a else N.hi a) = N.endPar a s := by
    cases s <;> simp [Nrb.endPar]
  unfold Nrb.boundary
  rw [pyAssert_ok (by cases s <;> simp), res_ok_bind, normAxis_named ha, res_ok_bind]
  unfold Nrb.extract
  rw [normAxis_self, res_ok_bind, hval, pyAssert_ok hd1, res_ok_bind, pyAssert_ok hd2, res_ok_bind, hE, res_ok_bind]
  exact ⟨_, rfl, rfl, fun b => ⟨rfl, rfl, rfl⟩, fun idx => rfl⟩

end

section
variable {d : ℕ} {N : Nrb ℝ d}

/-- the cell at a corner -/
def endCell (N : Nrb ℝ d) (s : Fin d → Bool) (a : Fin d) : Set ℝ :=
  match s a with
  | false => Set.Ico (N.lo a) (N.U a (N.degree a + 1))
  | true => Set.Ioc (N.U a (N.n a)) (N.hi a)

/-- along the outermost span of a clamped axis a curve is a polynomial; its derivative at the end -/
theorem end_poly (hv : N.Valid) {s : Fin d → Bool} {a : Fin d} (hc : N.ClampedAt a (s a)) (Q : ℤ → ℝ) :
    ∃ A : ℝ[X], (∀ t ∈ endCell N s a, curve (N.n a) (N.degree a).toNat (N.U a) Q t = A.eval t) ∧
      (derivative A).eval (N.endPar a (s a)) =
        N.degree a / N.endSpan a (s a) * (Q (N.nextIdx a (s a)) - Q (N.endIdx a (s a))) := by
  obtain ⟨p, hp, hk, _⟩ := deg_nat hv a
  have k1 := hk.one_le
  have k2 := hk.le
  have hpn : (N.degree a).toNat = p := by omega
  obtain ⟨q, rfl⟩ : ∃ q, p = q + 1 := ⟨p - 1, by omega⟩
  have hhi := N.hi_eq a
  rw [hpn]
  unfold endCell
  have hn : N.n a = N.shape a - 1 := rfl
  cases hs : s a with
  | false =>
    rw [hs] at hc
    have hc : ClampedL ((q + 1 : ℕ) : ℤ) (N.U a) := by rw [← hp]; exact hc
    have hlo : N.lo a = N.U a (q + 1 : ℕ) := by rw [N.lo_eq, hp]
    have hso : ∀ t ∈ Set.Ico (N.lo a) (N.U a (N.degree a + 1)), SpanOf (N.n a) (q + 1) (N.U a) (q + 1 : ℕ) t := by
      intro t ht
      rw [hlo, hp] at ht
      exact ⟨le_rfl, by omega, Or.inl ht⟩
    refine ⟨spanPoly (q + 1) (N.U a) (q + 1 : ℕ) Q, fun t ht => spanPoly_eval (hso t ht) hk.sorted Q, ?_⟩
    have hw := (hso (N.lo a) ⟨le_rfl, by rw [hlo, hp]; exact hk.first⟩).win hk.sorted
    have := spanPoly_deriv hw (y := 1) (u := N.lo a) (by push_cast; omega) (by push_cast; omega)
      (fun l l1 l2 => by rw [hlo]; exact hc _ (by omega) (by push_cast; omega)) Q
    simp only [Nrb.endPar, Nrb.endSpan, Nrb.nextIdx, Nrb.endIdx]
    rw [this, hlo, ← hc 1 (by omega) (by push_cast; omega), hp]
    push_cast
    rw [show (1 : ℤ) + q + 1 = q + 1 + 1 by ring]
  | true =>
    rw [hs] at hc
    have hc : ClampedR (N.n a) ((q + 1 : ℕ) : ℤ) (N.U a) := by rw [← hp]; exact hc
    have hso : ∀ t ∈ Set.Ioc (N.U a (N.n a)) (N.hi a), SpanOf (N.n a) (q + 1) (N.U a) (N.n a) t := by
      intro t ht
      rw [hhi] at ht
      refine ⟨by omega, le_rfl, ?_⟩
      rcases eq_or_lt_of_le ht.2 with e | e
      · exact Or.inr ⟨ht.1, e, e⟩
      · exact Or.inl ⟨ht.1.le, e⟩
    refine ⟨spanPoly (q + 1) (N.U a) (N.n a) Q, fun t ht => spanPoly_eval (hso t ht) hk.sorted Q, ?_⟩
    have hw := (hso (N.hi a) ⟨by rw [hhi]; exact hk.last, le_rfl⟩).win hk.sorted
    have := spanPoly_deriv hw (y := N.n a) (u := N.hi a) (by omega) le_rfl
      (fun l l1 l2 => by rw [hhi]; exact hc _ (by omega) (by push_cast; omega)) Q
    simp only [Nrb.endPar, Nrb.endSpan, Nrb.nextIdx, Nrb.endIdx]
    rw [this, show N.n a + (q : ℤ) + 1 = N.n a + ((q + 1 : ℕ) : ℤ) by push_cast; ring, hc _ (by push_cast; omega) (by omega),
      ← hhi, hp, hn, show N.shape a - 1 - 1 = N.shape a - 2 by ring, ← neg_sub (N.hi a), div_neg]
    push_cast
    ring

/-- C67: at a clamped corner, the derivative in direction of axis `a` of a field with control values `F` points from the
control value of the corner to that of its neighbour; the factor is the degree, divided by the length of the first
(last) knot span, times the ratio of the two weights -/
theorem C67_tangent (J : Junk ℝ) (hv : N.Valid) (hd : d = 1 ∨ d = 2 ∨ d = 3)
    {fields : Option (Nd ℝ)} {nf : ℤ} {F : (Fin d → ℤ) → ℕ → ℝ} (hf : N.fieldArg fields = .ok (nf, F))
    (hnf : 1 ≤ nf) {r : Fin d → ℤ} {X : Fin d → ℤ → ℝ} (hr : ∀ a, 0 ≤ r a)
    (hx : ∀ a i, 0 ≤ i → i ≤ r a → N.lo a ≤ X a i ∧ X a i ≤ N.hi a)
    (hw : ∀ idx, N.InNet idx → 0 < N.P idx 3) :
    ∃ G, N.gradient J fields false r X = .ok G ∧
      ∀ g : Fin d → ℤ, (∀ a, 0 ≤ g a ∧ g a ≤ r a) → ∀ s : Fin d → Bool,
        (∀ a, N.ClampedAt a (s a) ∧ X a (g a) = N.endPar a (s a)) → ∀ a c,
          let i := fun b => N.endIdx b (s b)
          let j := Function.update i a (N.nextIdx a (s a))
          G g [a] c = N.degree a / N.endSpan a (s a) * (N.P j 3 / N.P i 3) * (F j c - F i c) := by
  obtain ⟨G, _, h1, _, h2⟩ := C27_derivatives J hv hd le_rfl (by norm_num) hf hnf hr hx
  refine ⟨G, h1 rfl, fun g hg s hs a c => ?_⟩
  intro i j
  have hw' : ∀ idx, (∀ a, 0 ≤ idx a ∧ idx a ≤ N.n a) → 0 < N.P idx 3 := fun idx h => hw idx fun b => by
    have := h b
    unfold Nrb.n at this
    omega
  have e : (fun b => X b (g b)) = fun b => N.endPar b (s b) := funext fun b => (hs b).2
  have hin : N.InDom (fun b => X b (g b)) := fun b => hx b (g b) (hg b).1 (hg b).2
  have hcell : N.Cell (fun b => X b (g b)) (endCell N s) := by
    intro b
    obtain ⟨p, hp, hk, _⟩ := deg_nat hv b
    have k1 := hk.one_le
    have k2 := hk.le
    have eb := (hs b).2
    unfold endCell
    dsimp only
    rw [eb]
    cases s b with
    | false =>
      refine ⟨N.degree b, le_rfl, by omega, ⟨le_rfl, ?_⟩, Or.inr (Or.inl ?_)⟩
      · simp only [Nrb.endPar]; rw [N.lo_eq, hp]; exact hk.first
      · rw [N.lo_eq]
    | true =>
      refine ⟨N.n b, by omega, le_rfl, ⟨?_, le_rfl⟩, Or.inr (Or.inr ⟨?_, (N.hi_eq b).symm, rfl⟩)⟩
      · simp only [Nrb.endPar]; rw [N.hi_eq]; exact hk.last
      · rw [N.hi_eq]
  rw [h2 g hg _ hcell (C27_denom_pos hv hin hw' hcell) [a] rfl c, e]
  rw [e] at hcell hin
  have hy : ∀ b, N.endPar b (s b) ∈ endCell N s b := cell_mem hcell
  obtain ⟨A, A1, A2⟩ := end_poly hv (hs a).1 (fun k => N.P (Function.update i a k) 3 * F (Function.update i a k) c)
  obtain ⟨W, W1, W2⟩ := end_poly hv (hs a).1 (fun k => N.P (Function.update i a k) 3)
  have hF : ∀ t ∈ endCell N s a, N.ratField F c (Function.update (fun b => N.endPar b (s b)) a t) = A.eval t / W.eval t := by
    intro t ht
    unfold Nrb.ratField Nrb.denom Nrb.eval
    rw [tensor_apply, tensor_edge hv a (fun b _ => (hs b).1), tensor_edge hv a (fun b _ => (hs b).1), A1 t ht, W1 t ht]
  have hii : Function.update i a (i a) = i := Function.update_eq_self a i
  have hend : ∀ G : (Fin d → ℤ) → ℝ, curve (N.n a) (N.degree a).toNat (N.U a) (fun k => G (Function.update i a k))
      (N.endPar a (s a)) = G i := by
    intro G
    rw [← tensor_edge hv a (fun b _ => (hs b).1) G, Function.update_eq_self a (fun b => N.endPar b (s b)),
      tensor_ends hv (fun b => (hs b).1)]
  have hA0 : A.eval (N.endPar a (s a)) = N.P i 3 * F i c := by
    rw [← A1 _ (hy a)]; exact hend fun idx => N.P idx 3 * F idx c
  have hW0 : W.eval (N.endPar a (s a)) = N.P i 3 := by
    rw [← W1 _ (hy a)]; exact hend fun idx => N.P idx 3
  have hi0 : 0 < N.P i 3 := hw i fun b => by
    have h1 := (hv b).one_le
    have h2 := (hv b).le
    unfold Nrb.n at h2
    show 0 ≤ N.endIdx b (s b) ∧ N.endIdx b (s b) < N.shape b
    cases s b <;> simp only [Nrb.endIdx] <;> omega
  show derivWithin (fun t => N.ratField F c (Function.update (fun b => N.endPar b (s b)) a t)) (endCell N s a)
    (N.endPar a (s a)) = _
  rw [derivWithin_congr hF (hF _ (hy a))]
  have hder := (A.hasDerivAt (N.endPar a (s a))).div (W.hasDerivAt (N.endPar a (s a))) (by rw [hW0]; exact hi0.ne')
  have hder' := hder.hasDerivWithinAt (s := endCell N s a)
  have huq : UniqueDiffWithinAt ℝ (endCell N s a) (N.endPar a (s a)) :=
    cell_unique hcell a _ (hy a)
  refine (hder'.derivWithin huq).trans ?_
  have ei : N.endIdx a (s a) = i a := rfl
  rw [ei, hii] at A2 W2
  rw [A2, W2, hA0, hW0]
  show _ = N.degree a / N.endSpan a (s a) * (N.P j 3 / N.P i 3) * (F j c - F i c)
  have := hi0.ne'
  field_simp
  ring
end

/-! a quadratic by linear surface with weights 1, 2, 3, clamped on both axes -/

noncomputable def Ex.patch : Nrb ℝ 2 where
  shape := ![3, 2]
  nc := 4
  len := ![6, 4]
  U := ![fun i => if i ≤ 2 then 0 else 2, fun i => if i ≤ 1 then 0 else 1]
  P := fun idx c => if c = 3 then 1 + idx 0 else (1 + idx 0) * (if c = 0 then idx 0 ^ 2 else idx 1)

theorem Ex.patch_valid : Ex.patch.Valid := by
  intro a
  fin_cases a
  · refine ⟨by decide, by decide, fun i j _ h _ => ?_, ?_, ?_⟩
    · show (if i ≤ 2 then (0 : ℝ) else 2) ≤ if j ≤ 2 then 0 else 2
      split_ifs <;> first | (exfalso; omega) | norm_num
    · show (if (2 : ℤ) ≤ 2 then (0 : ℝ) else 2) < if (2 + 1 : ℤ) ≤ 2 then 0 else 2
      norm_num
    · show (if (2 : ℤ) ≤ 2 then (0 : ℝ) else 2) < if (2 + 1 : ℤ) ≤ 2 then 0 else 2
      norm_num
  · refine ⟨by decide, by decide, fun i j _ h _ => ?_, ?_, ?_⟩
    · show (if i ≤ 1 then (0 : ℝ) else 1) ≤ if j ≤ 1 then 0 else 1
      split_ifs <;> first | (exfalso; omega) | norm_num
    · show (if (1 : ℤ) ≤ 1 then (0 : ℝ) else 1) < if (1 + 1 : ℤ) ≤ 1 then 0 else 1
      norm_num
    · show (if (1 : ℤ) ≤ 1 then (0 : ℝ) else 1) < if (1 + 1 : ℤ) ≤ 1 then 0 else 1
      norm_num

theorem Ex.patch_clamped (a : Fin 2) (s : Bool) : Ex.patch.ClampedAt a s := by
  fin_cases a <;> cases s <;> intro i h1 h2
  · show (if i ≤ 2 then (0 : ℝ) else 2) = if (2 : ℤ) ≤ 2 then 0 else 2
    have : i ≤ 2 := h2
    simp [this]
  · show (if i ≤ 2 then (0 : ℝ) else 2) = if (2 + 1 : ℤ) ≤ 2 then 0 else 2
    have : (2 : ℤ) + 1 ≤ i := h1
    rw [if_neg (by omega), if_neg (by omega)]
  · show (if i ≤ 1 then (0 : ℝ) else 1) = if (1 : ℤ) ≤ 1 then 0 else 1
    have : i ≤ 1 := h2
    simp [this]
  · show (if i ≤ 1 then (0 : ℝ) else 1) = if (1 + 1 : ℤ) ≤ 1 then 0 else 1
    have : (1 : ℤ) + 1 ≤ i := h1
    rw [if_neg (by omega), if_neg (by omega)]

theorem Ex.patch_pos (idx : Fin 2 → ℤ) (h : Ex.patch.InNet idx) : 0 < Ex.patch.P idx 3 := by
  have h := (h 0).1
  show (0 : ℝ) < 1 + (idx 0 : ℝ)
  have : (0 : ℝ) ≤ idx 0 := by exact_mod_cast h
  linarith

/-- at the corner `(2, 0)` the derivative along the first axis of the first coordinate `x = i²` is
`2 / (0 - 2) * (2 / 3) * (1 - 4) = 2` -/
example (J : Junk ℝ) : ∃ G, Ex.patch.gradient J none false (fun _ => 0) (fun a _ => Ex.patch.endPar a (a = 0)) = .ok G ∧
    G 0 [0] 0 = 2 := by
  have hn : ∀ idx, (∀ a, 0 ≤ idx a ∧ idx a ≤ Ex.patch.n a) → Ex.patch.P idx 3 ≠ 0 := fun idx h =>
    (Ex.patch_pos idx fun a => by have := h a; unfold Nrb.n at this; omega).ne'
  have hf : Ex.patch.fieldArg none = .ok (3, fun idx c => Ex.patch.P idx c / Ex.patch.P idx 3) := rfl
  have hle : ∀ a, Ex.patch.lo a ≤ Ex.patch.hi a := fun a => by
    fin_cases a
    · show (if (2 : ℤ) ≤ 2 then (0 : ℝ) else 2) ≤ if (3 : ℤ) ≤ 2 then 0 else 2
      norm_num
    · show (if (1 : ℤ) ≤ 1 then (0 : ℝ) else 1) ≤ if (2 : ℤ) ≤ 1 then 0 else 1
      norm_num
  obtain ⟨G, h1, h2⟩ := C67_tangent J Ex.patch_valid (Or.inr (Or.inl rfl)) hf (by norm_num) (r := fun _ => 0)
    (X := fun a _ => Ex.patch.endPar a (a = 0)) (fun _ => le_rfl)
    (fun a _ _ _ => by cases decide (a = 0) <;> simp [Nrb.endPar, hle]) Ex.patch_pos
  refine ⟨G, h1, ?_⟩
  rw [h2 0 (fun _ => ⟨le_rfl, le_rfl⟩) (fun a => a = 0) (fun a => ⟨Ex.patch_clamped a _, rfl⟩) 0 0]
  have e1 : Ex.patch.endSpan 0 (decide ((0 : Fin 2) = 0)) = -2 := by
    show (if (2 : ℤ) ≤ 2 then (0 : ℝ) else 2) - (if (3 : ℤ) ≤ 2 then (0 : ℝ) else 2) = -2
    norm_num
  have e2 : Ex.patch.degree 0 = 2 := rfl
  have e3 : (fun b : Fin 2 => Ex.patch.endIdx b (decide (b = 0))) = ![2, 0] := by decide
  have e4 : Function.update (![2, 0] : Fin 2 → ℤ) 0 (Ex.patch.nextIdx 0 (decide ((0 : Fin 2) = 0))) = ![1, 0] := by decide
  rw [e1, e2, e3, e4]
  norm_num [Ex.patch]

/-- the upper boundary along the first axis has the control points `(2, j)` -/
example (je : ℤ → (Fin 1 → ℤ) → ℕ → ℝ) : ∃ N', Ex.patch.boundary (1 / 1000) je (-2) 1 = .ok N' ∧
    N'.P ![1] 1 = 3 := by
  obtain ⟨N', h1, _, _, h2⟩ := C67_boundary (eps := 1 / 1000) (by norm_num) je Ex.patch_valid (axis := -2) (a := 0)
    (Or.inr rfl) (Ex.patch_clamped 0 true)
  refine ⟨N', h1, ?_⟩
  rw [h2]
  show (1 + ((2 : ℤ) : ℝ)) * ((1 : ℤ) : ℝ) = 3
  norm_num

end Igakit
