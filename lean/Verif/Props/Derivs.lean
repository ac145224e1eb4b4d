import Verif.Proofs.NrbDeriv
import Verif.Props.Nurbs
import Verif.Props.Ctor

/-!
# Properties C27-C29: derivatives of NURBS objects
-/

namespace Igakit
open Spec
set_option linter.unusedSectionVars false

variable {d : ℕ} {N : Nrb ℝ d} {x : Fin d → ℝ}

/-! ## cells -/

/-- every parameter of the domain lies in a cell -/
theorem cell_exists (hv : N.Valid) (hx : N.InDom x) : ∃ S, N.Cell x S := by
  have : ∀ a, ∃ s : Set ℝ, ∃ k, N.degree a ≤ k ∧ k ≤ N.n a ∧ x a ∈ s ∧
    (s = Set.Ioo (N.U a k) (N.U a (k + 1)) ∨ s = Set.Ico (N.U a k) (N.U a (k + 1)) ∨
      (s = Set.Ioc (N.U a k) (N.U a (k + 1)) ∧ N.U a (k + 1) = N.hi a ∧ x a = N.hi a)) := by
    intro a
    have h := spanAt_ok hv hx a
    have hl := h.lo
    rw [hv.degNat] at hl
    rcases h.mem with h' | ⟨h1, h2, h3⟩
    · exact ⟨Set.Ico (N.U a _) (N.U a (_ + 1)), _, hl, h.hi, h', Or.inr (Or.inl rfl)⟩
    · exact ⟨Set.Ioc (N.U a _) (N.U a (_ + 1)), _, hl, h.hi, ⟨h1, h2.le⟩, Or.inr (Or.inr ⟨rfl, by rw [← h2, h3, N.hi_eq],
        by rw [h3, N.hi_eq]⟩)⟩
  choose S hS using this
  exact ⟨S, hS⟩

theorem derivAt_eq (J : Junk ℝ) (hv : N.Valid) (hx : N.InDom x) (hd : d = 1 ∨ d = 2 ∨ d = 3)
    {S : Fin d → Set ℝ} (hS : N.Cell x S) (hden : ∀ y, (∀ a, y a ∈ S a) → N.denom y ≠ 0)
    {m : ℕ} (hm : m ≤ 3) (F : (Fin d → ℤ) → ℕ → ℝ) (c : ℕ)
    (l : List (Fin d)) (hl : l.length ≤ m) :
    N.derivAt J m F x l c = pd S l (N.ratField F c) x := by
  have hsum := sumsUpTo J hv hx hd (m := m) (by omega) le_rfl F c
  have hq : ∀ y, (∀ a, y a ∈ S a) → N.ratField F c y = q0 (N.famA x (fun i => F i c)) (N.famW x) y :=
    fun y hy => ratField_eq hv hx (cell_span hv hx hS hy) F c
  have h0 : ∀ y, (∀ a, y a ∈ S a) → N.famW x [] y ≠ 0 := fun y hy => by
    rw [← denom_eq hv hx (cell_span hv hx hS hy)]; exact hden y hy
  rw [pd_congr hq l x (cell_mem hS)]
  unfold Nrb.derivAt interpolate
  dsimp only
  match l, hl with
  | [], hl => exact sum_rat0 (hsum.mono hl)
  | [i], hl =>
    rw [pd_q1 (famA_dfam _) famW_dfam (cell_unique hS) h0 i x (cell_mem hS)]
    exact sum_rat1 (hsum.mono hl) i
  | [i, j], hl =>
    rw [pd_q2 (famA_dfam _) famW_dfam (cell_unique hS) h0 i j x (cell_mem hS)]
    exact sum_rat2 (hsum.mono hl) i j
  | [i, j, k], hl =>
    rw [pd_q3 (famA_dfam _) famW_dfam (cell_unique hS) h0 i j k x (cell_mem hS)]
    exact sum_rat3 (hsum.mono hl) i j k
  | _ :: _ :: _ :: _ :: _, hl => simp at hl; omega

theorem derivCore_ok (J : Junk ℝ) (hv : N.Valid) (hd : d = 1 ∨ d = 2 ∨ d = 3) {order : ℕ}
    {fields : Option (Nd ℝ)} {nf : ℤ} {F : (Fin d → ℤ) → ℕ → ℝ} (hf : N.fieldArg fields = .ok (nf, F))
    (hnf : 1 ≤ nf) {r : Fin d → ℤ} {X : Fin d → ℤ → ℝ} (hr : ∀ a, 0 ≤ r a)
    (hx : ∀ a i, 0 ≤ i → i ≤ r a → N.lo a ≤ X a i ∧ X a i ≤ N.hi a) :
    N.derivCore J order fields false r X =
      .ok (fun g dirs c => N.derivAt J order F (fun a => X a (g a)) dirs c) := by
  unfold Nrb.derivCore
  rw [callArg_ok hr hx, res_ok_bind, hf, res_ok_bind]
  dsimp only
  rw [if_neg (by omega), if_neg]
  · simp
  · have : ∀ a, 1 ≤ N.n a ∧ 1 ≤ N.degree a := fun a => by
      have h1 := (hv a).one_le
      have h2 := (hv a).le
      omega
    simp [this, hnf]

/-- C27: `gradient`, `hessian` and `derivative` of order up to three of a valid object of dimension
one to three return the partial derivatives of the rational field, within the cell of knot spans around
each parameter (the open cell, or half open ones at knots and at the end of the domain). -/
theorem C27_derivatives (J : Junk ℝ) (hv : N.Valid) (hd : d = 1 ∨ d = 2 ∨ d = 3) {order : ℕ}
    (h1 : 1 ≤ order) (h3 : order ≤ 3)
    {fields : Option (Nd ℝ)} {nf : ℤ} {F : (Fin d → ℤ) → ℕ → ℝ} (hf : N.fieldArg fields = .ok (nf, F))
    (hnf : 1 ≤ nf) {r : Fin d → ℤ} {X : Fin d → ℤ → ℝ} (hr : ∀ a, 0 ≤ r a)
    (hx : ∀ a i, 0 ≤ i → i ≤ r a → N.lo a ≤ X a i ∧ X a i ≤ N.hi a) :
    ∃ G, N.derivative J order fields false r X = .ok G ∧
      (order = 1 → N.gradient J fields false r X = .ok G) ∧
      (order = 2 → N.hessian J fields false r X = .ok G) ∧
      ∀ g : Fin d → ℤ, (∀ a, 0 ≤ g a ∧ g a ≤ r a) → ∀ S, N.Cell (fun a => X a (g a)) S →
        (∀ y, (∀ a, y a ∈ S a) → N.denom y ≠ 0) → ∀ l : List (Fin d), l.length = order → ∀ c,
          G g l c = pd S l (N.ratField F c) (fun a => X a (g a)) := by
  refine ⟨fun g dirs c => N.derivAt J order F (fun a => X a (g a)) dirs c, ?_, ?_, ?_, ?_⟩
  · unfold Nrb.derivative
    rw [callArg_ok hr hx, res_ok_bind, hf, res_ok_bind, pyAssert_ok (by omega), res_ok_bind]
    exact derivCore_ok J hv hd hf hnf hr hx
  · rintro rfl
    exact derivCore_ok J hv hd hf hnf hr hx
  · rintro rfl
    exact derivCore_ok J hv hd hf hnf hr hx
  · intro g hg S hS hden l hl c
    exact derivAt_eq J hv (fun a => hx a (g a) (hg a).1 (hg a).2) hd hS hden h3 F c l hl.le

/-- C27: positive weights make the denominator positive everywhere in the domain. -/
theorem C27_denom_pos (hv : N.Valid) (hx : N.InDom x)
    (hw : ∀ idx, (∀ a, 0 ≤ idx a ∧ idx a ≤ N.n a) → 0 < N.P idx 3) {S : Fin d → Set ℝ} (hS : N.Cell x S) :
    ∀ y, (∀ a, y a ∈ S a) → N.denom y ≠ 0 := fun _ hy =>
  (Nrb.eval_pos hv (cell_inDom hv hx hS hy) hw).ne'

/-- the rational field of projected control components is the projection of the object -/
theorem ratField_proj (hw : ∀ idx, (∀ a, 0 ≤ idx a ∧ idx a ≤ N.n a) → N.P idx 3 ≠ 0) (k c : ℕ)
    (y : Fin d → ℝ) : N.ratField (fun idx c => N.P idx (k + c) / N.P idx 3) c y = N.proj y (k + c) := by
  unfold Nrb.ratField Nrb.proj Nrb.denom
  congr 1
  rw [Nrb.eval_apply]
  unfold tensor
  refine Finset.sum_congr rfl fun idx h => ?_
  have h := fun a => Finset.mem_Icc.mp (Fintype.mem_piFinset.mp h a)
  dsimp only
  rw [smul_eq_mul, mul_div_cancel₀ _ (hw idx h)]
  rfl

/-- C27: without argument `fields` the fields of the object are differentiated, and the points if it has
none. -/
theorem C27_default (hw : ∀ idx, (∀ a, 0 ≤ idx a ∧ idx a ≤ N.n a) → N.P idx 3 ≠ 0) :
    (4 < N.nc → ∃ F, N.fieldArg none = .ok ((N.nc - 4 : ℕ), F) ∧ ∀ c, N.ratField F c = fun y => N.proj y (4 + c)) ∧
    (N.nc ≤ 4 → ∃ F, N.fieldArg none = .ok (3, F) ∧ ∀ c, N.ratField F c = fun y => N.proj y c) := by
  constructor
  · intro h
    refine ⟨fun idx c => N.P idx (4 + c) / N.P idx 3, ?_, fun c => funext fun y => ratField_proj hw 4 c y⟩
    unfold Nrb.fieldArg Nrb.fields
    rw [if_neg (by omega)]
    rfl
  · intro h
    refine ⟨fun idx c => N.P idx c / N.P idx 3, ?_, fun c => funext fun y => ?_⟩
    · unfold Nrb.fieldArg Nrb.fields
      rw [if_pos (by omega)]
      rfl
    · have := ratField_proj hw 0 c y
      simpa using this

/-- C27: a given array is used as one field if it has the shape of the object, and as several fields if it
has one more axis. -/
theorem C27_given (F : Nd ℝ) :
    (F.shape = List.ofFn N.shape → ∃ G, N.fieldArg (some F) = .ok (1, G) ∧
      ∀ idx, G idx 0 = F.get (List.ofFn idx)) ∧
    (∀ m : ℤ, F.shape = List.ofFn N.shape ++ [m] → ∃ G, N.fieldArg (some F) = .ok (m, G) ∧
      ∀ idx (c : ℕ), G idx c = F.get (List.ofFn idx ++ [(c : ℤ)])) ∧
    (F.shape.length ≠ d → F.shape.length ≠ d + 1 → N.fieldArg (some F) = .error .assertion) := by
  refine ⟨fun h => ?_, fun m h => ?_, fun h1 h2 => ?_⟩
  · refine ⟨fun idx _ => F.get (List.ofFn idx), ?_, fun _ => rfl⟩
    unfold Nrb.fieldArg
    dsimp only
    rw [if_pos h]
    rfl
  · have hl : F.shape.length = d + 1 := by rw [h]; simp
    refine ⟨fun idx c => F.get (List.ofFn idx ++ [(c : ℤ)]), ?_, fun _ _ => rfl⟩
    unfold Nrb.fieldArg
    dsimp only
    rw [if_neg (by rw [h]; simp), pyAssert_ok (by rw [hl]; push_cast; ring), res_ok_bind,
      pyAssert_ok (by rw [h]; simp), res_ok_bind, h]
    simp
  · unfold Nrb.fieldArg
    dsimp only
    rw [if_neg, pyAssert_err (by omega)]
    · rfl
    · intro e; rw [e] at h1; simp at h1

/-! ## open cells: ordinary derivatives -/

/-- iterated partial derivatives -/
noncomputable def Spec.pdo : List (Fin d) → ((Fin d → ℝ) → ℝ) → (Fin d → ℝ) → ℝ
  | [], f => f
  | i :: l, f => fun y => deriv (fun t => Spec.pdo l f (Function.update y i t)) (y i)

theorem pd_open {S : Fin d → Set ℝ} (hS : ∀ a, IsOpen (S a)) (f : (Fin d → ℝ) → ℝ) :
    ∀ (l : List (Fin d)) (y : Fin d → ℝ), (∀ a, y a ∈ S a) → pd S l f y = pdo l f y := by
  intro l
  induction l with
  | nil => intro y _; rfl
  | cons i l ih =>
    intro y hy
    have hu : ∀ t ∈ S i, ∀ a, Function.update y i t a ∈ S a := by
      intro t ht a
      by_cases e : a = i
      · subst e; simpa using ht
      · rw [Function.update_of_ne e]; exact hy a
    simp only [pd, pdo]
    rw [derivWithin_of_isOpen (hS i) (hy i)]
    apply Filter.EventuallyEq.deriv_eq
    filter_upwards [(hS i).mem_nhds (hy i)] with t ht
    exact ih _ (hu t ht)

/-- C27 at parameters which are no knots: the results are the iterated partial derivatives. -/
theorem C27_interior (J : Junk ℝ) (hv : N.Valid) (hd : d = 1 ∨ d = 2 ∨ d = 3) {order : ℕ}
    (h1 : 1 ≤ order) (h3 : order ≤ 3)
    {fields : Option (Nd ℝ)} {nf : ℤ} {F : (Fin d → ℤ) → ℕ → ℝ} (hf : N.fieldArg fields = .ok (nf, F))
    (hnf : 1 ≤ nf) {r : Fin d → ℤ} {X : Fin d → ℤ → ℝ} (hr : ∀ a, 0 ≤ r a)
    (hx : ∀ a i, 0 ≤ i → i ≤ r a → N.lo a ≤ X a i ∧ X a i ≤ N.hi a)
    (hw : ∀ idx, (∀ a, 0 ≤ idx a ∧ idx a ≤ N.n a) → 0 < N.P idx 3) :
    ∃ G, N.derivative J order fields false r X = .ok G ∧
      (order = 1 → N.gradient J fields false r X = .ok G) ∧
      (order = 2 → N.hessian J fields false r X = .ok G) ∧
      ∀ g : Fin d → ℤ, (∀ a, 0 ≤ g a ∧ g a ≤ r a) →
        (∀ a j, 0 ≤ j → j < N.len a → N.U a j ≠ X a (g a)) → ∀ l : List (Fin d), l.length = order → ∀ c,
          G g l c = pdo l (N.ratField F c) (fun a => X a (g a)) := by
  obtain ⟨G, a1, a2, a3, a4⟩ := C27_derivatives J hv hd h1 h3 hf hnf hr hx
  refine ⟨G, a1, a2, a3, fun g hg hne l hl c => ?_⟩
  have hin : N.InDom (fun a => X a (g a)) := fun a => hx a (g a) (hg a).1 (hg a).2
  have hsp := spanAt_ok hv hin
  have hcell : N.Cell (fun a => X a (g a)) (fun a => Set.Ioo (N.U a (N.spanAt (fun a => X a (g a)) a))
      (N.U a (N.spanAt (fun a => X a (g a)) a + 1))) := by
    intro a
    have hl := (hsp a).lo
    have hh := (hsp a).hi
    have h0 := (hv a).one_le
    have hlen := N.len_eq a
    rw [hv.degNat] at hl
    refine ⟨_, hl, hh, ⟨lt_of_le_of_ne (hsp a).left ?_, lt_of_le_of_ne (hsp a).right ?_⟩, Or.inl rfl⟩
    · exact hne a _ (by omega) (by omega)
    · exact (hne a _ (by omega) (by omega)).symm
  rw [a4 g hg _ hcell (C27_denom_pos hv hin hw hcell) l hl c]
  exact pd_open (fun a => isOpen_Ioo) _ l _ (cell_mem hcell)

/-- C27: parameters outside the domain and orders other than 1, 2, 3, 4 are rejected. -/
theorem C27_rejects {K : Type} [Field K] [LinearOrder K] [IsStrictOrderedRing K] (J : Junk K) (N : Nrb K d) (order : ℤ)
    (fields : Option (Nd K)) (mapped : Bool) {r : Fin d → ℤ} {X : Fin d → ℤ → K} (hr : ∀ a, 0 ≤ r a) :
    ((∃ a i, 0 ≤ i ∧ i ≤ r a ∧ (X a i < N.lo a ∨ N.hi a < X a i)) →
      N.derivative J order fields mapped r X = .error .assertion ∧
      N.gradient J fields mapped r X = .error .assertion ∧
      N.hessian J fields mapped r X = .error .assertion) ∧
    ((order < 1 ∨ 4 < order) → (∀ a i, 0 ≤ i → i ≤ r a → N.lo a ≤ X a i ∧ X a i ≤ N.hi a) →
      N.derivative J order fields mapped r X = .error .assertion) := by
  constructor
  · rintro ⟨a, i, h0, h1, h⟩
    have hc : N.callArg r X = .error .assertion := by
      unfold Nrb.callArg
      rw [if_neg (by push Not; exact hr)]
      by_cases hlo : ∀ a ∈ List.finRange d, ∀ x ∈ Nrb.slab (X a) 0 (r a), N.lo a ≤ x
      · rw [pyAssert_ok hlo, pyAssert_err]
        · rfl
        · intro hhi
          have m : X a i ∈ Nrb.slab (X a) 0 (r a) := mem_slab.mpr ⟨i, h0, h1, rfl⟩
          rcases h with h | h
          · exact absurd (hlo a (List.mem_finRange a) _ m) (not_le.mpr h)
          · exact absurd (hhi a (List.mem_finRange a) _ m) (not_le.mpr h)
      · rw [pyAssert_err hlo]
        rfl
    refine ⟨?_, ?_, ?_⟩
    · unfold Nrb.derivative; rw [hc]; rfl
    · unfold Nrb.gradient Nrb.derivCore; rw [hc]; rfl
    · unfold Nrb.hessian Nrb.derivCore; rw [hc]; rfl
  · intro ho hx
    unfold Nrb.derivative
    rw [callArg_ok hr hx, res_ok_bind]
    rcases hf : N.fieldArg fields with e | F
    · have : e = .assertion := by
        unfold Nrb.fieldArg at hf
        rcases fields with _ | F
        · dsimp only at hf
          rcases hN : N.fields with _ | F <;> rw [hN] at hf <;> cases hf
        · dsimp only at hf
          split_ifs at hf
          · cases hf
          · by_cases h1 : ((F.shape.length : ℤ) - 1 = d)
            · rw [pyAssert_ok h1, res_ok_bind] at hf
              by_cases h2 : (F.shape.dropLast = List.ofFn N.shape)
              · rw [pyAssert_ok h2] at hf; cases hf
              · rw [pyAssert_err h2] at hf; cases hf; rfl
            · rw [pyAssert_err h1] at hf; cases hf; rfl
      subst this
      rfl
    · rw [res_ok_bind, pyAssert_err (by omega)]
      rfl

/-! ## C28: fourth derivatives -/

/-- C28, surfaces and volumes: what `derivative(4)` returns.  The second summand is the missing term of
the quotient rule. -/
theorem C28_fourth_formula (J : Junk ℝ) (hv : N.Valid) (hx : N.InDom x) (hd : d = 2 ∨ d = 3)
    {S : Fin d → Set ℝ} (hS : N.Cell x S) (hden : ∀ y, (∀ a, y a ∈ S a) → N.denom y ≠ 0)
    (F : (Fin d → ℤ) → ℕ → ℝ) (c : ℕ) (i j k l : Fin d) :
    N.derivAt J 4 F x [i, j, k, l] c = pd S [i, j, k, l] (N.ratField F c) x +
      pd S [i, j, k] (N.ratField F c) x * pd S [l] N.denom x / N.denom x := by
  have hsum := sumsUpTo J hv hx (by omega) (m := 4) (by omega) le_rfl F c
  have hq : ∀ y, (∀ a, y a ∈ S a) → N.ratField F c y = q0 (N.famA x (fun i => F i c)) (N.famW x) y :=
    fun y hy => ratField_eq hv hx (cell_span hv hx hS hy) F c
  have h0 : ∀ y, (∀ a, y a ∈ S a) → N.famW x [] y ≠ 0 := fun y hy => by
    rw [← denom_eq hv hx (cell_span hv hx hS hy)]; exact hden y hy
  rw [pd_congr hq _ x (cell_mem hS), pd_congr hq _ x (cell_mem hS),
    pd_q4 (famA_dfam _) famW_dfam (cell_unique hS) h0 i j k l x (cell_mem hS),
    pd_q3 (famA_dfam _) famW_dfam (cell_unique hS) h0 i j k x (cell_mem hS),
    pd_denom hv hx hS _ x (cell_mem hS), denom_eq hv hx (cell_span hv hx hS (cell_mem hS))]
  exact sum_rat4 hsum i j k l

/-- C28, surfaces and volumes: the result of `derivative(4)` is the fourth derivative exactly when the
missing term vanishes. -/
theorem C28_fourth_iff (J : Junk ℝ) (hv : N.Valid) (hx : N.InDom x) (hd : d = 2 ∨ d = 3)
    {S : Fin d → Set ℝ} (hS : N.Cell x S) (hden : ∀ y, (∀ a, y a ∈ S a) → N.denom y ≠ 0)
    (F : (Fin d → ℤ) → ℕ → ℝ) (c : ℕ) (i j k l : Fin d) :
    N.derivAt J 4 F x [i, j, k, l] c = pd S [i, j, k, l] (N.ratField F c) x ↔
      pd S [i, j, k] (N.ratField F c) x = 0 ∨ pd S [l] N.denom x = 0 := by
  rw [C28_fourth_formula J hv hx hd hS hden]
  have := hden x (cell_mem hS)
  simp [this]

/-- C28, partial: for equal weights, in two and three dimensions, `derivative(4)` is the fourth
derivative.  The claim fails for varying weights (`C28_fourth_wrong`) and for curves
(`C28_curve_returns_third`). -/
theorem C28_fourth_partial (J : Junk ℝ) (hv : N.Valid) (hd : d = 2 ∨ d = 3)
    {fields : Option (Nd ℝ)} {nf : ℤ} {F : (Fin d → ℤ) → ℕ → ℝ} (hf : N.fieldArg fields = .ok (nf, F))
    (hnf : 1 ≤ nf) {r : Fin d → ℤ} {X : Fin d → ℤ → ℝ} (hr : ∀ a, 0 ≤ r a)
    (hx : ∀ a i, 0 ≤ i → i ≤ r a → N.lo a ≤ X a i ∧ X a i ≤ N.hi a)
    {w : ℝ} (hw0 : 0 < w) (hw : ∀ idx, (∀ a, 0 ≤ idx a ∧ idx a ≤ N.n a) → N.P idx 3 = w) :
    ∃ G, N.derivative J 4 fields false r X = .ok G ∧
      ∀ g : Fin d → ℤ, (∀ a, 0 ≤ g a ∧ g a ≤ r a) → ∀ S, N.Cell (fun a => X a (g a)) S →
        ∀ i j k l c, G g [i, j, k, l] c = pd S [i, j, k, l] (N.ratField F c) (fun a => X a (g a)) := by
  refine ⟨fun g dirs c => N.derivAt J 4 F (fun a => X a (g a)) dirs c, ?_, ?_⟩
  · unfold Nrb.derivative
    rw [callArg_ok hr hx, res_ok_bind, hf, res_ok_bind, pyAssert_ok (by omega), res_ok_bind]
    exact derivCore_ok J hv (by omega) hf hnf hr hx
  · intro g hg S hS i j k l c
    have hin : N.InDom (fun a => X a (g a)) := fun a => hx a (g a) (hg a).1 (hg a).2
    have hden := C27_denom_pos hv hin (fun idx h => by rw [hw idx h]; exact hw0) hS
    refine (C28_fourth_iff J hv hin hd hS hden F c i j k l).mpr (Or.inr ?_)
    rw [pd_denom hv hin hS _ _ (cell_mem hS)]
    exact famW_const hv hin hS hw l []

/-- C28, curves: with equal weights `derivative(4)` returns the third derivative. -/
theorem C28_curve_returns_third {N : Nrb ℝ 1} {x : Fin 1 → ℝ} (J : Junk ℝ) (hv : N.Valid) (hx : N.InDom x)
    {S : Fin 1 → Set ℝ} (hS : N.Cell x S) {w : ℝ} (hw0 : 0 < w)
    (hw : ∀ idx, (∀ a, 0 ≤ idx a ∧ idx a ≤ N.n a) → N.P idx 3 = w) (F : (Fin 1 → ℤ) → ℕ → ℝ) (c : ℕ) :
    N.derivAt J 4 F x [0, 0, 0, 0] c = pd S [0, 0, 0] (N.ratField F c) x := by
  have hden := C27_denom_pos hv hx (fun idx h => by rw [hw idx h]; exact hw0) hS
  have hsum := sumsUpTo J hv hx (by omega) (m := 3) (o := 4) (by omega) (by omega) F c
  have h3 : ∀ loc, N.tensorN J 4 x [0, 0, 0, 0] loc = N.tensorN J 4 x [0, 0, 0] loc := by
    intro loc
    unfold Nrb.tensorN
    refine Finset.prod_congr rfl fun a _ => ?_
    have : tpExp ([0, 0, 0, 0] : List (Fin 1)) a = tpExp [0, 0, 0] a := by
      fin_cases a; decide
    rw [this]
  have hW : ∀ i l, (i :: l : List (Fin 1)).length ≤ 3 →
      ratW N.locs (fun loc => N.P (N.ctl x loc) 3) (N.tensorN J 4 x) (i :: l) = 0 := by
    intro i l hl
    rw [← hsum.hw _ hl]
    exact famW_const hv hx hS hw i l
  have hW4 : ratW N.locs (fun loc => N.P (N.ctl x loc) 3) (N.tensorN J 4 x) [0, 0, 0, 0] = 0 := by
    rw [← hW 0 [0, 0] (by simp)]
    unfold ratW
    simp only [h3]
  rw [← derivAt_eq J hv hx (by omega) hS hden le_rfl F c [0, 0, 0] (by simp)]
  have hsum3 := sumsUpTo J hv hx (by omega) (m := 3) (o := 3) (by omega) le_rfl F c
  have e3 := (sum_rat3 hsum3 0 0 0).trans (sum_rat3 hsum 0 0 0).symm
  unfold Nrb.derivAt interpolate
  simp only [rationalize]
  rw [e3]
  refine Finset.sum_congr rfl fun loc _ => ?_
  unfold rat4 rat3
  rw [h3, hW4, hW 0 [] (by simp), hW 0 [0] (by simp), hW 0 [0, 0] (by simp)]
  ring

end Igakit
