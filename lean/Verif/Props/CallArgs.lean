import Verif.Proofs.CallArgs
import Verif.Spec.Examples

/-! # C55: calling an object, with all forms of the arguments -/

set_option linter.unusedSectionVars false

namespace Igakit
open Spec

variable {K : Type} [Field K] [LinearOrder K] [IsStrictOrderedRing K] {d : ℕ}

/-- the parameters an argument stands for: by default the means of `p` consecutive knots, one for each control point -/
def ParArg.values (N : Nrb K d) (a : Fin d) : ParArg K → List K
  | .none => (List.range (N.shape a).toNat).map
      (fun i : ℕ => (∑ j ∈ Finset.range (N.degree a).toNat, N.U a (i + 1 + j)) / ((N.degree a : ℤ) : K))
  | .num x => [x]
  | .seq l => l

def ParArg.isNum : ParArg K → Bool
  | .num _ => true
  | _ => false

/-- values and shape of a result: an axis for each argument which is not a number, in their order, then the axes `last`;
the entry for the parameters with numbers `i a` is `f i` -/
def IsGrid (N : Nrb K d) (args : ℕ → ParArg K) (last : List ℤ) (A : Nd K) (f : (Fin d → ℤ) → List ℤ → K) : Prop :=
  A.shape = keptIdx (fun a => (args a).isNum) (fun a => (((args a).values N a).length : ℤ)) ++ last ∧
  ∀ i : Fin d → ℤ, (∀ a, 0 ≤ i a ∧ i a < (((args a).values N a).length : ℤ)) → ∀ c, InShape last c →
    A.get (keptIdx (fun a => (args a).isNum) i ++ c) = f i c

/-- the parameters with numbers `i a` -/
def ParArg.at (N : Nrb K d) (args : ℕ → ParArg K) (i : Fin d → ℤ) : Fin d → K :=
  fun a => ((args a).values N a).getD (i a).toNat 0

/-- the arguments are not empty and inside the domain -/
def ParArg.Inside (N : Nrb K d) (args : ℕ → ParArg K) : Prop :=
  ∀ a : Fin d, (args a).values N a ≠ [] ∧ ∀ x ∈ (args a).values N a, N.lo a ≤ x ∧ x ≤ N.hi a

theorem greville_mean (p : ℕ) (U : ℤ → K) (i : ℤ) :
    greville (p : ℤ) U i = (∑ j ∈ Finset.range p, U (i + 1 + j)) / ((p : ℤ) : K) := by
  by_cases hp : p = 0
  · subst hp
    simp [greville]
  · have : (p : K) ≠ 0 := Nat.cast_ne_zero.2 hp
    rw [eq_div_iff (by exact_mod_cast this)]
    have := greville_mul U i (p := p) (by omega)
    exact_mod_cast this

theorem greville_list {N : Nrb K d} (hv : N.Valid) (a : Fin d) :
    N.parVal a .none = .ok (ParArg.values N a .none, false) := by
  obtain ⟨p, hp, hk, e⟩ := deg_nat hv a
  obtain ⟨X, hX, _⟩ := C24_Greville hk
  have h1 := hk.one_le
  have h2 := hk.le
  have hXe : X = greville (p : ℤ) (N.U a) := by
    unfold BSp.Greville at hX
    split at hX
    · exact (Except.ok.inj hX).symm
    · cases hX
  have hg : N.greville ((a : ℕ) : ℤ) = .ok (N.shape a, X) := by
    unfold Nrb.greville
    rw [normAxis_self, res_ok_bind, hp, e, hX, res_ok_bind, res_pure]
    congr 2
    unfold Nrb.n; ring
  unfold Nrb.parVal
  dsimp only
  rw [hg, res_ok_bind, res_pure]
  congr 2
  unfold Nrb.slab ParArg.values
  rw [hp, show N.shape a - 1 + 1 - 0 = N.shape a by ring]
  apply List.map_congr_left
  intro i _
  dsimp only
  rw [hXe, zero_add, greville_mean, Int.toNat_natCast]

/-- what `parVal` makes of an argument inside the domain -/
theorem parVal_ok {N : Nrb K d} (hv : N.Valid) (a : Fin d) {arg : ParArg K} (h1 : arg.values N a ≠ [])
    (h2 : ∀ x ∈ arg.values N a, N.lo a ≤ x ∧ x ≤ N.hi a) : N.parVal a arg = .ok (arg.values N a, arg.isNum) := by
  match arg with
  | .none => exact greville_list hv a
  | .num x =>
    have := h2 x (List.mem_singleton.2 rfl)
    unfold Nrb.parVal
    dsimp only
    rw [pyAssert_ok this.1, res_ok_bind, pyAssert_ok this.2]
    rfl
  | .seq l =>
    unfold Nrb.parVal
    dsimp only
    have h2 : ∀ x ∈ l, N.lo a ≤ x ∧ x ≤ N.hi a := h2
    rw [if_neg (show l ≠ [] from h1), pyAssert_ok (fun x hx => (h2 x hx).1), pyAssert_ok (fun x hx => (h2 x hx).2)]
    rfl

theorem parVals_ok {N : Nrb K d} (hv : N.Valid) {args : ℕ → ParArg K} (h : ParArg.Inside N args) :
    N.parVals args = .ok (fun a => ((args a).values N a, (args a).isNum)) :=
  seqFin_ok (fun a => parVal_ok hv a (h a).1 (h a).2)

theorem isNum_length (N : Nrb K d) (a : Fin d) {arg : ParArg K} (h : arg.isNum = true) :
    (arg.values N a).length = 1 := by
  cases arg with
  | none => cases h
  | num x => rfl
  | seq l => cases h

theorem evalArr_ok (jk : ℤ → K) (je : ℤ → ℕ → K) {N : Nrb K d} (hd : d ≤ 3) (hv : N.Valid) {args : ℕ → ParArg K}
    (h : ParArg.Inside N args) (A : (Fin d → ℤ) → ℕ → K) :
    ∃ C, N.evalArr jk je A (fun a => ((args a).values N a, (args a).isNum)) = .ok C ∧
      ∀ i : Fin d → ℤ, (∀ a, 0 ≤ i a ∧ i a < (((args a).values N a).length : ℤ)) →
        C i = ({ N with P := A } : Nrb K d).eval (ParArg.at N args i) := by
  have hv' : ({ N with P := A } : Nrb K d).Valid := hv
  obtain ⟨C, h1, h2⟩ := evaluateH_eq jk je hd hv' (fun a => (((args a).values N a).length : ℤ) - 1)
    (fun a => Nrb.ofList ((args a).values N a))
  refine ⟨C, ?_, fun i hi => ?_⟩
  · unfold Nrb.evalArr
    rw [if_pos]
    · exact h1
    · intro a
      obtain ⟨p, hp, hk, e⟩ := deg_nat hv a
      have := hk.one_le
      have := hk.le
      constructor <;> omega
  · rw [h2 i (fun a => ⟨(hi a).1, by have := (hi a).2; omega⟩)]
    · rfl
    · intro a
      refine (h a).2 _ ?_
      have := hi a
      show List.getD _ _ _ ∈ _
      rw [List.getD_eq_getElem?_getD, List.getElem?_eq_getElem (by omega)]
      exact List.getElem_mem _

theorem inShape_one' {m : ℕ} {c : List ℤ} (h : InShape [(m : ℤ)] c) : ∃ k : ℕ, k < m ∧ c = [(k : ℤ)] := by
  match c, h with
  | [x], h =>
    have := h.1
    exact ⟨x.toNat, by omega, by rw [Int.toNat_of_nonneg this.1]⟩

theorem isGrid_of {N : Nrb K d} {args : ℕ → ParArg K} (h : ParArg.Inside N args) (m : ℕ)
    (f : (Fin d → ℤ) → ℕ → K) :
    ∃ B, PetIGA.reshapeLast (Nrb.gridArr (fun a => ((args a).values N a, (args a).isNum)) m f)
        (Nrb.keptShape (fun a => ((args a).values N a, (args a).isNum))) = .ok B ∧
      IsGrid N args [(m : ℤ)] B (fun i c => f i (c.headD 0).toNat) := by
  obtain ⟨B, h1, h2, h3⟩ := reshape_kept (uvw := fun a => ((args a).values N a, (args a).isNum))
    (fun a => (h a).1) (fun a hq => isNum_length N a hq) m f
  refine ⟨B, h1, ?_, fun i hi c hc => ?_⟩
  · exact h2
  · obtain ⟨k, hk, rfl⟩ := inShape_one' hc
    rw [h3 i hi k hk]
    rfl

/-- C55: `nrb(u,v,w)`: the points on the grid of the parameters; numbers do not make an axis, `None` stands for the
Greville abscissae, arguments beyond the dimension are ignored. -/
theorem C55_call (jk : ℤ → K) (je : ℤ → ℕ → K) {N : Nrb K d} (hd : d ≤ 3) (hv : N.Valid) {args : ℕ → ParArg K}
    (h : ParArg.Inside N args) :
    ∃ C, N.callFull jk je args .no = .ok (C, none) ∧
      IsGrid N args [3] C (fun i c => N.proj (ParArg.at N args i) (c.headD 0).toNat) := by
  unfold Nrb.callFull
  rw [parVals_ok hv h, res_ok_bind]
  unfold Nrb.callNet
  dsimp only
  rw [res_pure, res_ok_bind]
  obtain ⟨C, h1, h2⟩ := evalArr_ok jk je hd hv h (fun idx c => if c < 4 then N.P idx c else 0)
  dsimp only
  rw [h1, res_ok_bind]
  obtain ⟨B, g1, g2, g3⟩ := isGrid_of h 3 (fun i c => C i c / C i 3)
  rw [g1, res_ok_bind]
  refine ⟨B, rfl, g2, fun i hi c hc => ?_⟩
  rw [g3 i hi c hc]
  dsimp only
  rw [h2 i hi]
  obtain ⟨k, hk, rfl⟩ := inShape_one' (m := 3) hc
  have e : ∀ c < 4, ({ N with P := fun idx c => if c < 4 then N.P idx c else 0 } : Nrb K d).eval (ParArg.at N args i) c =
      N.eval (ParArg.at N args i) c := by
    intro c hc
    rw [Nrb.eval_apply, Nrb.eval_apply]
    simp only [if_pos hc]
    rfl
  show _ / _ = N.proj _ _
  unfold Nrb.proj
  rw [e _ (by simp; omega), e 3 (by omega)]


/-- C55: `nrb(u,v,w,fields=True)`: also the fields of the object. -/
theorem C55_call_fields (jk : ℤ → K) (je : ℤ → ℕ → K) {N : Nrb K d} (hd : d ≤ 3) (hv : N.Valid) {args : ℕ → ParArg K}
    (h : ParArg.Inside N args) :
    ∃ C F, N.callFull jk je args .all = .ok (C, some F) ∧
      IsGrid N args [3] C (fun i c => N.proj (ParArg.at N args i) (c.headD 0).toNat) ∧
      IsGrid N args [((N.nc - 4 : ℕ) : ℤ)] F (fun i c => N.proj (ParArg.at N args i) (4 + (c.headD 0).toNat)) := by
  unfold Nrb.callFull
  rw [parVals_ok hv h, res_ok_bind]
  unfold Nrb.callNet
  dsimp only
  rw [res_pure, res_ok_bind]
  obtain ⟨C, h1, h2⟩ := evalArr_ok jk je hd hv h N.P
  dsimp only
  rw [h1, res_ok_bind]
  obtain ⟨B, g1, g2, g3⟩ := isGrid_of h 3 (fun i c => C i c / C i 3)
  obtain ⟨B', f1, f2, f3⟩ := isGrid_of h (N.nc - 4) (fun i c => C i (4 + c) / C i 3)
  rw [g1, res_ok_bind, f1, res_ok_bind]
  refine ⟨B, B', rfl, ⟨g2, fun i hi c hc => ?_⟩, ⟨f2, fun i hi c hc => ?_⟩⟩
  · rw [g3 i hi c hc]
    dsimp only
    rw [h2 i hi]
    rfl
  · rw [f3 i hi c hc]
    dsimp only
    rw [h2 i hi]
    rfl

/-- an array fits the control net: one value for each control point, or `m` of them -/
def FitsNet (N : Nrb K d) (F : Nd K) (last : List ℤ) : Prop :=
  F.shape = List.ofFn N.shape ++ last

/-- the rational function with the values `f` at the control points -/
noncomputable def Nrb.rational (N : Nrb K d) (f : (Fin d → ℤ) → K) (x : Fin d → K) : K :=
  (∑ idx ∈ Fintype.piFinset (fun a => Finset.Icc 0 (N.n a)), N.wt x idx * (f idx * N.P idx 3)) / N.eval x 3

/-- values of a user array at a control point -/
def netVal (F : Nd K) (c : List ℤ) (idx : Fin d → ℤ) : K := F.get (List.ofFn idx ++ c)

theorem given_scalar {N : Nrb K d} {F : Nd K} (hF : FitsNet N F []) :
    N.givenFields F = .ok (1, fun idx _ => F.get (List.ofFn idx), true) := by
  unfold FitsNet at hF
  rw [List.append_nil] at hF
  unfold Nrb.givenFields
  rw [if_pos hF]
  rfl

theorem given_vector {N : Nrb K d} {F : Nd K} {m : ℕ} (hF : FitsNet N F [(m : ℤ)]) :
    N.givenFields F = .ok (m, fun idx c => F.get (List.ofFn idx ++ [(c : ℤ)]), false) := by
  unfold FitsNet at hF
  unfold Nrb.givenFields
  rw [if_neg (by rw [hF]; intro h; have := congrArg List.length h; simp at this),
    pyAssert_ok (by rw [hF]; simp), res_ok_bind, pyAssert_ok (by rw [hF]; simp), res_ok_bind, hF]
  simp

theorem rational_eval (N : Nrb K d) (x : Fin d → K) (A : (Fin d → ℤ) → ℕ → K) (c k : ℕ) (f : (Fin d → ℤ) → K)
    (hk : ∀ idx, A idx k = N.P idx 3) (hc : ∀ idx, A idx c = f idx * N.P idx 3) :
    ({ N with P := A } : Nrb K d).eval x c / ({ N with P := A } : Nrb K d).eval x k = N.rational f x := by
  unfold Nrb.rational
  rw [Nrb.eval_apply, Nrb.eval_apply, Nrb.eval_apply]
  simp only [hk, hc]
  rfl

/-- C55: `nrb(u,v,w,fields=F)` and `nrb.evaluate(F,u,v,w)` with `m` numbers for each control point: the rational
functions with these coefficients, together with the points; both methods give the same. -/
theorem C55_given (jk : ℤ → K) (je : ℤ → ℕ → K) {N : Nrb K d} (hd : d ≤ 3) (hv : N.Valid) {args : ℕ → ParArg K}
    (h : ParArg.Inside N args) {F : Nd K} {m : ℕ} (hF : FitsNet N F [(m : ℤ)]) :
    ∃ C G G', N.callFull jk je args (.arr F) = .ok (C, some G) ∧ N.evaluate jk je (some F) args = .ok G' ∧
      IsGrid N args [3] C (fun i c => N.proj (ParArg.at N args i) (c.headD 0).toNat) ∧
      IsGrid N args [(m : ℤ)] G (fun i c => N.rational (netVal F c) (ParArg.at N args i)) ∧
      IsGrid N args [(m : ℤ)] G' (fun i c => N.rational (netVal F c) (ParArg.at N args i)) := by
  unfold Nrb.callFull Nrb.evaluate
  rw [parVals_ok hv h, res_ok_bind, res_ok_bind]
  unfold Nrb.callNet Nrb.evaluateNet
  dsimp only
  rw [given_vector hF, res_ok_bind, res_ok_bind, res_pure, res_ok_bind, res_pure, res_ok_bind]
  dsimp only
  obtain ⟨C, h1, h2⟩ := evalArr_ok jk je hd hv h
    (fun idx c => if c < 4 then N.P idx c else F.get (List.ofFn idx ++ [((c - 4 : ℕ) : ℤ)]) * N.P idx 3)
  obtain ⟨C', h1', h2'⟩ := evalArr_ok jk je hd hv h
    (fun idx c => if c = 0 then N.P idx 3 else F.get (List.ofFn idx ++ [((c - 1 : ℕ) : ℤ)]) * N.P idx 3)
  rw [h1, h1', res_ok_bind, res_ok_bind]
  obtain ⟨B, g1, g2, g3⟩ := isGrid_of h 3 (fun i c => C i c / C i 3)
  obtain ⟨B', f1, f2, f3⟩ := isGrid_of h m (fun i c => C i (4 + c) / C i 3)
  obtain ⟨B'', e1, e2, e3⟩ := isGrid_of h m (fun i c => C' i (1 + c) / C' i 0)
  rw [g1, res_ok_bind, f1, res_ok_bind, if_neg Bool.false_ne_true,
    reshape_plain (fun a => (h a).1) (fun a hq => isNum_length N a hq), e1]
  refine ⟨B, B', B'', rfl, rfl, ⟨g2, fun i hi c hc => ?_⟩, ⟨f2, fun i hi c hc => ?_⟩, ⟨e2, fun i hi c hc => ?_⟩⟩
  · rw [g3 i hi c hc]
    dsimp only
    rw [h2 i hi]
    obtain ⟨k, hk, rfl⟩ := inShape_one' (m := 3) hc
    unfold Nrb.proj
    rw [Nrb.eval_apply, Nrb.eval_apply, Nrb.eval_apply, Nrb.eval_apply]
    have e : ((([(k : ℤ)] : List ℤ).headD 0).toNat) < 4 := by simp; omega
    simp only [if_pos e, if_pos (show 3 < 4 by omega)]
    rfl
  · rw [f3 i hi c hc]
    dsimp only
    rw [h2 i hi]
    obtain ⟨k, hk, rfl⟩ := inShape_one' hc
    refine rational_eval N _ _ _ _ _ (fun idx => by simp) (fun idx => ?_)
    simp [netVal]
  · rw [e3 i hi c hc]
    dsimp only
    rw [h2' i hi]
    obtain ⟨k, hk, rfl⟩ := inShape_one' hc
    refine rational_eval N _ _ _ _ _ (fun idx => by simp) (fun idx => ?_)
    simp [netVal]

/-- C55: with one number for each control point the result of `evaluate` has no axis for the components, that of
`nrb(..., fields=F)` has one of length one. -/
theorem C55_given_scalar (jk : ℤ → K) (je : ℤ → ℕ → K) {N : Nrb K d} (hd : d ≤ 3) (hv : N.Valid) {args : ℕ → ParArg K}
    (h : ParArg.Inside N args) {F : Nd K} (hF : FitsNet N F []) :
    ∃ C G G', N.callFull jk je args (.arr F) = .ok (C, some G) ∧ N.evaluate jk je (some F) args = .ok G' ∧
      IsGrid N args [3] C (fun i c => N.proj (ParArg.at N args i) (c.headD 0).toNat) ∧
      IsGrid N args [1] G (fun i _ => N.rational (netVal F []) (ParArg.at N args i)) ∧
      IsGrid N args [] G' (fun i _ => N.rational (netVal F []) (ParArg.at N args i)) := by
  unfold Nrb.callFull Nrb.evaluate
  rw [parVals_ok hv h, res_ok_bind, res_ok_bind]
  unfold Nrb.callNet Nrb.evaluateNet
  dsimp only
  rw [given_scalar hF, res_ok_bind, res_ok_bind, res_pure, res_ok_bind, res_pure, res_ok_bind]
  dsimp only
  obtain ⟨C, h1, h2⟩ := evalArr_ok jk je hd hv h
    (fun idx c => if c < 4 then N.P idx c else F.get (List.ofFn idx) * N.P idx 3)
  obtain ⟨C', h1', h2'⟩ := evalArr_ok jk je hd hv h
    (fun idx c => if c = 0 then N.P idx 3 else F.get (List.ofFn idx) * N.P idx 3)
  rw [h1, h1', res_ok_bind, res_ok_bind]
  obtain ⟨B, g1, g2, g3⟩ := isGrid_of h 3 (fun i c => C i c / C i 3)
  obtain ⟨B', f1, f2, f3⟩ := isGrid_of h 1 (fun i c => C i (4 + c) / C i 3)
  obtain ⟨B'', e1, e2, e3⟩ := reshape_squeezed (uvw := fun a => ((args a).values N a, (args a).isNum))
    (fun a => (h a).1) (fun a hq => isNum_length N a hq) (fun i c => C' i (1 + c) / C' i 0)
  rw [g1, res_ok_bind, f1, res_ok_bind, if_pos rfl, e1]
  refine ⟨B, B', B'', rfl, rfl, ⟨g2, fun i hi c hc => ?_⟩, ⟨f2, fun i hi c hc => ?_⟩, ⟨?_, fun i hi c hc => ?_⟩⟩
  · rw [g3 i hi c hc]
    dsimp only
    rw [h2 i hi]
    obtain ⟨k, hk, rfl⟩ := inShape_one' (m := 3) hc
    unfold Nrb.proj
    rw [Nrb.eval_apply, Nrb.eval_apply, Nrb.eval_apply, Nrb.eval_apply]
    have e : ((([(k : ℤ)] : List ℤ).headD 0).toNat) < 4 := by simp; omega
    simp only [if_pos e, if_pos (show 3 < 4 by omega)]
    rfl
  · rw [f3 i hi c hc]
    dsimp only
    rw [h2 i hi]
    refine rational_eval N _ _ _ _ _ (fun idx => by simp) (fun idx => ?_)
    simp [netVal]
  · rw [e2, List.append_nil]
    rfl
  · have hc : c = [] := by
      cases c with
      | nil => rfl
      | cons => exact hc.elim
    subst hc
    rw [List.append_nil, e3 i hi, h2' i hi]
    refine rational_eval N _ _ _ _ _ (fun idx => by simp) (fun idx => ?_)
    simp [netVal]

/-- C55: `nrb.evaluate(None,u,v,w)` is the second result of `nrb(u,v,w,fields=True)`. -/
theorem C55_evaluate (jk : ℤ → K) (je : ℤ → ℕ → K) {N : Nrb K d} (hd : d ≤ 3) (hv : N.Valid) {args : ℕ → ParArg K}
    (h : ParArg.Inside N args) :
    ∃ F, N.evaluate jk je none args = .ok F ∧
      IsGrid N args [((N.nc - 4 : ℕ) : ℤ)] F (fun i c => N.proj (ParArg.at N args i) (4 + (c.headD 0).toNat)) := by
  unfold Nrb.evaluate
  rw [parVals_ok hv h, res_ok_bind]
  unfold Nrb.evaluateNet
  dsimp only
  rw [res_pure, res_ok_bind]
  dsimp only
  obtain ⟨C', h1', h2'⟩ := evalArr_ok jk je hd hv h (fun idx c => N.P idx (3 + c))
  rw [h1', res_ok_bind]
  obtain ⟨B'', e1, e2, e3⟩ := isGrid_of h (N.nc - 4) (fun i c => C' i (1 + c) / C' i 0)
  rw [if_neg Bool.false_ne_true, reshape_plain (fun a => (h a).1) (fun a hq => isNum_length N a hq), e1]
  refine ⟨B'', rfl, ⟨e2, fun i hi c hc => ?_⟩⟩
  rw [e3 i hi c hc]
  dsimp only
  rw [h2' i hi]
  unfold Nrb.proj
  rw [Nrb.eval_apply, Nrb.eval_apply, Nrb.eval_apply, Nrb.eval_apply]
  simp only [← add_assoc]
  rfl

/-- C55: for clamped axes the default parameters lie in the domain. -/
theorem C55_default_inside {N : Nrb K d} (hv : N.Valid) (a : Fin d) (hl : ClampedL (N.degree a) (N.U a))
    (hr : ClampedR (N.n a) (N.degree a) (N.U a)) :
    ParArg.values N a .none ≠ [] ∧ ∀ x ∈ ParArg.values N a .none, N.lo a ≤ x ∧ x ≤ N.hi a := by
  obtain ⟨p, hp, hk, e⟩ := deg_nat hv a
  have h1 := hk.one_le
  have h2 := hk.le
  obtain ⟨X, hX, _, hmono, _, h0, hn⟩ := C24_Greville hk
  rw [hp] at hl hr
  have hXe : X = greville (p : ℤ) (N.U a) := by
    unfold BSp.Greville at hX
    split at hX
    · exact (Except.ok.inj hX).symm
    · cases hX
  have hs : N.shape a = N.n a + 1 := by unfold Nrb.n; ring
  constructor
  · intro hh
    have := congrArg List.length hh
    simp only [ParArg.values, List.length_map, List.length_range, List.length_nil] at this
    omega
  · intro x hx
    unfold ParArg.values at hx
    obtain ⟨i, hi, rfl⟩ := List.mem_map.1 hx
    have hi := List.mem_range.1 hi
    rw [hp, Int.toNat_natCast, ← greville_mean, ← hXe, N.lo_eq, N.hi_eq, hp, ← h0 hl, ← hn hr]
    exact ⟨hmono 0 i le_rfl (by omega) (by omega), hmono i (N.n a) (by omega) (by omega) le_rfl⟩

/-- C55: a parameter outside the domain, and an empty sequence, are rejected by both methods. -/
theorem C55_rejects (jk : ℤ → K) (je : ℤ → ℕ → K) (N : Nrb K (d + 1)) (args : ℕ → ParArg K) :
    (∀ x, args 0 = .num x → (x < N.lo 0 ∨ N.hi 0 < x) →
      (∀ f, N.callFull jk je args f = .error .assertion) ∧ ∀ f, N.evaluate jk je f args = .error .assertion) ∧
    (∀ l, args 0 = .seq l → l ≠ [] → (∃ x ∈ l, x < N.lo 0 ∨ N.hi 0 < x) →
      (∀ f, N.callFull jk je args f = .error .assertion) ∧ ∀ f, N.evaluate jk je f args = .error .assertion) ∧
    (args 0 = .seq [] →
      (∀ f, N.callFull jk je args f = .error .value) ∧ ∀ f, N.evaluate jk je f args = .error .value) := by
  have key : ∀ e, N.parVal 0 (args 0) = .error e →
      (∀ f, N.callFull jk je args f = .error e) ∧ ∀ f, N.evaluate jk je f args = .error e := by
    intro e he
    have : N.parVals args = .error e := by
      unfold Nrb.parVals seqFin
      have he' : N.parVal 0 (args ((0 : Fin (d + 1)) : ℕ)) = .error e := he
      dsimp only
      rw [he']
      rfl
    constructor
    · intro f; unfold Nrb.callFull; rw [this]; rfl
    · intro f; unfold Nrb.evaluate; rw [this]; rfl
  refine ⟨fun x hx h => key _ ?_, fun l hl hne h => key _ ?_, fun hl => key _ ?_⟩
  · rw [hx]
    unfold Nrb.parVal
    dsimp only
    by_cases h' : N.lo 0 ≤ x
    · rw [pyAssert_ok h', res_ok_bind, pyAssert_err (not_le.2 (h.resolve_left (not_lt.2 h')))]
      rfl
    · rw [pyAssert_err h']
      rfl
  · rw [hl]
    unfold Nrb.parVal
    dsimp only
    rw [if_neg hne]
    by_cases h' : ∀ x ∈ l, N.lo 0 ≤ x
    · rw [pyAssert_ok h', res_ok_bind, pyAssert_err]
      · rfl
      · obtain ⟨x, hx, hh⟩ := h
        intro h''
        rcases hh with hh | hh
        · exact absurd (h' x hx) (not_le.2 hh)
        · exact absurd (h'' x hx) (not_le.2 hh)
    · rw [pyAssert_err h']
      rfl
  · rw [hl]
    rfl

theorem seqFin_inv {α : Type} : {d : ℕ} → {f : Fin d → Res α} → {v : Fin d → α} → seqFin f = .ok v → ∀ a, f a = .ok (v a)
  | 0, _, _, _, a => a.elim0
  | d + 1, f, v, h, a => by
    unfold seqFin at h
    obtain ⟨x, hx, h⟩ := res_bind_inv h
    obtain ⟨xs, hxs, h⟩ := res_bind_inv h
    have h := Except.ok.inj h
    subst h
    refine Fin.cases ?_ (fun b => ?_) a
    · exact hx
    · exact seqFin_inv hxs b

/-- C55: the same on any axis: nothing is returned. -/
theorem C55_rejects_any (jk : ℤ → K) (je : ℤ → ℕ → K) (N : Nrb K d) (args : ℕ → ParArg K) (a : Fin d)
    (hn : args a ≠ .none)
    (h : (args a).values N a = [] ∨ ∃ x ∈ (args a).values N a, x < N.lo a ∨ N.hi a < x) :
    (∀ f r, N.callFull jk je args f ≠ .ok r) ∧ ∀ f r, N.evaluate jk je f args ≠ .ok r := by
  have key : ∀ v, N.parVal a (args a) ≠ .ok v := by
    intro v hv
    match e : args a with
    | .none => exact hn e
    | .num x =>
      rw [e] at hv h
      unfold Nrb.parVal at hv
      dsimp only at hv
      obtain ⟨_, h1, hv⟩ := res_bind_inv hv
      obtain ⟨_, h2, hv⟩ := res_bind_inv hv
      have h1 := pyAssert_ok_iff.1 h1
      have h2 := pyAssert_ok_iff.1 h2
      rcases h with h | ⟨y, hy, hh⟩
      · cases h
      · obtain rfl := List.mem_singleton.1 hy
        rcases hh with hh | hh
        · exact absurd h1 (not_le.2 hh)
        · exact absurd h2 (not_le.2 hh)
    | .seq l =>
      rw [e] at hv h
      unfold Nrb.parVal at hv
      dsimp only at hv
      by_cases hl : l = []
      · rw [if_pos hl] at hv
        cases hv
      · rw [if_neg hl] at hv
        obtain ⟨_, h1, hv⟩ := res_bind_inv hv
        obtain ⟨_, h2, hv⟩ := res_bind_inv hv
        have h1 := pyAssert_ok_iff.1 h1
        have h2 := pyAssert_ok_iff.1 h2
        rcases h with h | ⟨y, hy, hh⟩
        · exact hl h
        · rcases hh with hh | hh
          · exact absurd (h1 y hy) (not_le.2 hh)
          · exact absurd (h2 y hy) (not_le.2 hh)
  have key2 : ∀ v, N.parVals args ≠ .ok v := fun v hv => key _ (seqFin_inv hv a)
  constructor
  · intro f r hr
    unfold Nrb.callFull at hr
    obtain ⟨v, hv, _⟩ := res_bind_inv hr
    exact key2 v hv
  · intro f r hr
    unfold Nrb.evaluate at hr
    obtain ⟨v, hv, _⟩ := res_bind_inv hr
    exact key2 v hv

/-- C55: a user array of fields of another shape is rejected. -/
theorem C55_fields_shape (jk : ℤ → K) (je : ℤ → ℕ → K) {N : Nrb K d} (hv : N.Valid) {args : ℕ → ParArg K}
    (h : ParArg.Inside N args) {F : Nd K} (h0 : ¬ FitsNet N F []) (h1 : ∀ m : ℤ, ¬ FitsNet N F [m]) :
    N.callFull jk je args (.arr F) = .error .assertion ∧ N.evaluate jk je (some F) args = .error .assertion := by
  have key : N.givenFields F = .error .assertion := by
    unfold FitsNet at h0 h1
    unfold Nrb.givenFields
    rw [if_neg (by rwa [List.append_nil] at h0)]
    by_cases e : (F.shape.length : ℤ) - 1 = d
    · rw [pyAssert_ok e, res_ok_bind, pyAssert_err]
      · rfl
      · intro hh
        have hne : F.shape ≠ [] := by
          intro h; rw [h] at e; simp at e
        exact h1 (F.shape.getLast hne) (by rw [← hh, List.dropLast_append_getLast])
    · rw [pyAssert_err e]
      rfl
  unfold Nrb.callFull Nrb.evaluate
  rw [parVals_ok hv h, res_ok_bind, res_ok_bind]
  unfold Nrb.callNet Nrb.evaluateNet
  dsimp only
  rw [key]
  exact ⟨rfl, rfl⟩

/-! ## examples -/

namespace Ex

/-- a number for the first axis, three values for the second -/
def args : ℕ → ParArg ℚ := fun a => if a = 0 then .num (3 / 2) else .seq [0, 1 / 2, 1]

theorem args_inside : ParArg.Inside Ex.S args := by
  intro a
  fin_cases a
  · refine ⟨by decide, fun x hx => ?_⟩
    obtain rfl := List.mem_singleton.1 hx
    decide +kernel
  · refine ⟨by decide, fun x hx => ?_⟩
    have hx : x ∈ [(0 : ℚ), 1 / 2, 1] := hx
    simp only [List.mem_cons, List.not_mem_nil, or_false] at hx
    rcases hx with rfl | rfl | rfl <;> decide +kernel

/-- one number for each of the 6 × 3 control points of `Ex.S` -/
def load : Nd ℚ := ⟨[6, 3], fun idx => (idx.getD 0 0 : ℤ) + 10 * (idx.getD 1 0 : ℤ)⟩

end Ex

/-- the result has one axis, for the three values, and the components -/
example : (Ex.S.callFull (fun _ => 7) (fun _ _ => 9) Ex.args .all).map (fun r =>
    (r.1.shape, r.2.map (·.shape), r.1.get [1, 0])) = .ok ([3, 3], some [3, 1], 63 / 16) := by
  decide +kernel

example : (Ex.S.evaluate (fun _ => 7) (fun _ _ => 9) (some Ex.load) Ex.args).map (·.shape) = .ok [3] := by
  decide +kernel

example := C55_call (fun _ => 7) (fun _ _ => 9) (by decide) Ex.S_valid Ex.args_inside
example := C55_given_scalar (fun _ => 7) (fun _ _ => 9) (by decide) Ex.S_valid Ex.args_inside (F := Ex.load)
  (by unfold FitsNet; decide)
example (r) : Ex.S.callFull (fun _ => 7) (fun _ _ => 9) (fun _ => .num 2) .no ≠ .ok r :=
  (C55_rejects_any (fun _ => (7 : ℚ)) (fun _ _ => 9) Ex.S (fun _ => .num 2) 1 (by intro h; cases h)
    (Or.inr ⟨2, List.mem_singleton.2 rfl, Or.inr (by decide +kernel)⟩)).1 .no r

/-- C55: on the unclamped second axis of `Ex.S`, with domain `[0,1]`, the default parameters reach from `-1/2` to `3/2`.
They are used without any check, whereas the same numbers given explicitly are rejected. -/
theorem C55_default_outside :
    ParArg.values Ex.S 1 .none = [-1 / 2, 1 / 2, 3 / 2] ∧ Ex.S.lo 1 = 0 ∧ Ex.S.hi 1 = 1 ∧
    (∀ jk je, ∃ r, Ex.S.callFull jk je (fun _ => .none) .no = .ok r) ∧
    (∀ jk je r, Ex.S.callFull jk je
      (fun a => if a = 1 then .seq [-1 / 2, 1 / 2, 3 / 2] else .none) .no ≠ .ok r) := by
  have hvals : ParArg.values Ex.S 1 .none = [-1 / 2, 1 / 2, 3 / 2] := by decide +kernel
  refine ⟨hvals, by decide +kernel, by decide +kernel, fun jk je => ?_, fun jk je => ?_⟩
  · unfold Nrb.callFull
    have hp : Ex.S.parVals (fun _ => .none) =
        .ok (fun a => (ParArg.values Ex.S a .none, (ParArg.none : ParArg ℚ).isNum)) :=
      seqFin_ok (fun a => greville_list Ex.S_valid a)
    have hne : ∀ a, ParArg.values Ex.S a .none ≠ [] := by
      intro a
      fin_cases a <;> decide
    rw [hp, res_ok_bind]
    unfold Nrb.callNet
    dsimp only
    rw [res_pure, res_ok_bind]
    dsimp only
    unfold Nrb.evalArr
    rw [if_pos (by intro a; fin_cases a <;> decide)]
    obtain ⟨C, h1, _⟩ := evaluateH_eq jk je (by decide)
      (N := { Ex.S with P := fun idx c => if c < 4 then Ex.S.P idx c else 0 }) Ex.S_valid
      (fun a => ((ParArg.values Ex.S a .none).length : ℤ) - 1) (fun a => Nrb.ofList (ParArg.values Ex.S a .none))
    rw [h1, res_ok_bind]
    obtain ⟨B, g1, _⟩ := reshape_kept
      (uvw := fun a => (ParArg.values Ex.S a .none, (ParArg.none : ParArg ℚ).isNum)) hne
      (fun a h => by cases h) 3 (fun i c => C i c / C i 3)
    rw [g1]
    exact ⟨_, rfl⟩
  · exact ((C55_rejects_any jk je Ex.S (fun a => if a = 1 then .seq [-1 / 2, 1 / 2, 3 / 2] else .none) 1
      (by intro h; cases h)
      (Or.inr ⟨-1 / 2, List.mem_cons_self, Or.inl (by decide +kernel)⟩)).1 .no)

end Igakit
