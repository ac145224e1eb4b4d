import Verif.Props.Mapped

/-!
# Derivatives within a box inside a cell of knot spans
-/

namespace Igakit
open Spec
set_option linter.unusedSectionVars false

variable {d : ℕ} {N : Nrb ℝ d} {x : Fin d → ℝ}

/-- a box around `x` inside the knot spans used at `x` -/
structure Nrb.SubCell (N : Nrb ℝ d) (x : Fin d → ℝ) (T : Fin d → Set ℝ) : Prop where
  mem : ∀ a, x a ∈ T a
  uniq : ∀ a, UniqueDiffOn ℝ (T a)
  span : ∀ a, ∀ t ∈ T a, SpanOf (N.n a) (N.degree a).toNat (N.U a) (N.spanAt x a) t

theorem SubCell.inDom (hv : N.Valid) {T : Fin d → Set ℝ} (hT : N.SubCell x T) {y : Fin d → ℝ} (hy : ∀ a, y a ∈ T a) :
    N.InDom y := by
  intro a
  have h := hT.span a _ (hy a)
  have h1 := h.lo
  have h2 := h.hi
  have h4 := hv.degNat a
  have hs := (vk hv a).sorted
  refine ⟨(hs _ _ (by omega) h1 (by omega)).trans ?_ |> fun h => by
    rw [h4] at h; exact h, ?_⟩
  · exact h.left
  · rw [N.hi_eq]; exact h.right.trans (hs _ _ (by omega) (by omega) (by omega))

theorem derivAt_sub (J : Junk ℝ) (hv : N.Valid) (hd : d = 1 ∨ d = 2 ∨ d = 3) {S : Fin d → Set ℝ} (hS : N.SubCell x S)
    (hden : ∀ y, (∀ a, y a ∈ S a) → N.denom y ≠ 0) {m : ℕ} (hm : m ≤ 3) (F : (Fin d → ℤ) → ℕ → ℝ) (c : ℕ)
    (l : List (Fin d)) (hl : l.length ≤ m) :
    N.derivAt J m F x l c = pd S l (N.ratField F c) x := by
  have hx : N.InDom x := SubCell.inDom hv hS hS.mem
  have hsum := sumsUpTo J hv hx hd (m := m) (by omega) le_rfl F c
  have hq : ∀ y, (∀ a, y a ∈ S a) → N.ratField F c y = q0 (N.famA x (fun i => F i c)) (N.famW x) y :=
    fun y hy => ratField_eq hv hx (fun a => hS.span a _ (hy a)) F c
  have h0 : ∀ y, (∀ a, y a ∈ S a) → N.famW x [] y ≠ 0 := fun y hy => by
    rw [← denom_eq hv hx (fun a => hS.span a _ (hy a))]; exact hden y hy
  rw [pd_congr hq l x hS.mem]
  unfold Nrb.derivAt interpolate
  dsimp only
  match l, hl with
  | [], hl => exact sum_rat0 (hsum.mono hl)
  | [i], hl =>
    rw [pd_q1 (famA_dfam _) famW_dfam hS.uniq h0 i x hS.mem]
    exact sum_rat1 (hsum.mono hl) i
  | [i, j], hl =>
    rw [pd_q2 (famA_dfam _) famW_dfam hS.uniq h0 i j x hS.mem]
    exact sum_rat2 (hsum.mono hl) i j
  | [i, j, k], hl =>
    rw [pd_q3 (famA_dfam _) famW_dfam hS.uniq h0 i j k x hS.mem]
    exact sum_rat3 (hsum.mono hl) i j k
  | _ :: _ :: _ :: _ :: _, hl => simp at hl; omega

/-- control values of the coordinates -/
noncomputable def Nrb.geoF (N : Nrb ℝ d) : (Fin d → ℤ) → ℕ → ℝ := fun idx c => N.P idx c / N.P idx 3

/-- the mapped gradient from the derivatives of the coordinates and of the field -/
theorem mappedAt_derivAt (J : Junk ℝ) (F : (Fin d → ℤ) → ℕ → ℝ) (i : Fin d) (c : ℕ) :
    N.mappedAt J F x i c = ∑ j, inverse d (fun i j : Fin d => N.derivAt J 1 N.geoF x [j] i) j i * N.derivAt J 1 F x [j] c := by
  unfold Nrb.mappedAt geometryMap
  dsimp only
  have e : (fun i j : Fin d => ∑ a ∈ N.locs, N.P (N.ctl x a) i / N.P (N.ctl x a) 3 *
      rationalize N.locs (fun loc => N.P (N.ctl x loc) 3) (N.tensorN J 1 x) [j] a) = fun i j : Fin d => N.derivAt J 1 N.geoF x [j] i := by
    funext i j
    unfold Nrb.derivAt interpolate Nrb.geoF
    exact Finset.sum_congr rfl fun a _ => mul_comm _ _
  rw [e]

/-- box in the spans of both objects -/
theorem common_box {N' : Nrb ℝ d} (hv : N.Valid) (hv' : N'.Valid) (hx : N.InDom x) (hx' : N'.InDom x)
    (hs : ∀ a, (x a < N.hi a ∧ x a < N'.hi a) ∨ (x a = N.hi a ∧ x a = N'.hi a)) :
    ∃ T, N.SubCell x T ∧ N'.SubCell x T := by
  have key : ∀ a, ∃ s : Set ℝ, x a ∈ s ∧ UniqueDiffOn ℝ s ∧
      (∀ t ∈ s, SpanOf (N.n a) (N.degree a).toNat (N.U a) (N.spanAt x a) t) ∧
      (∀ t ∈ s, SpanOf (N'.n a) (N'.degree a).toNat (N'.U a) (N'.spanAt x a) t) := by
    intro a
    have h := spanAt_ok hv hx a
    have h' := spanAt_ok hv' hx' a
    rcases hs a with ⟨h1, h2⟩ | ⟨h1, h2⟩
    · have m : N.U a (N.spanAt x a) ≤ x a ∧ x a < N.U a (N.spanAt x a + 1) := by
        rcases h.mem with m | m
        · exact m
        · rw [N.hi_eq] at h1; exact absurd m.2.2 h1.ne
      have m' : N'.U a (N'.spanAt x a) ≤ x a ∧ x a < N'.U a (N'.spanAt x a + 1) := by
        rcases h'.mem with m | m
        · exact m
        · rw [N'.hi_eq] at h2; exact absurd m.2.2 h2.ne
      refine ⟨Set.Ico (x a) (min (N.U a (N.spanAt x a + 1)) (N'.U a (N'.spanAt x a + 1))), ⟨le_rfl, lt_min m.2 m'.2⟩,
        uniqueDiffOn_Ico _ _, fun t ht => ⟨h.lo, h.hi, Or.inl ⟨m.1.trans ht.1, lt_of_lt_of_le ht.2 (min_le_left _ _)⟩⟩,
        fun t ht => ⟨h'.lo, h'.hi, Or.inl ⟨m'.1.trans ht.1, lt_of_lt_of_le ht.2 (min_le_right _ _)⟩⟩⟩
    · have aux : ∀ (M : Nrb ℝ d) (hM : M.Valid), M.InDom x → x a = M.hi a →
          M.U a (M.spanAt x a) < x a ∧ x a = M.U a (M.spanAt x a + 1) := by
        intro M hM hMx e
        have g := spanAt_ok hM hMx a
        rcases g.mem with m | m
        · have g1 := g.lo
          have g2 := g.hi
          have := (vk hM a).sorted (M.spanAt x a + 1) (M.n a + 1) (by omega) (by omega) (by omega)
          rw [M.hi_eq] at e
          exact absurd (lt_of_lt_of_le m.2 this) (by rw [e]; exact lt_irrefl _)
        · exact ⟨m.1, m.2.1⟩
      have m := aux N hv hx h1
      have m' := aux N' hv' hx' h2
      have conv : ∀ (M : Nrb ℝ d) (g : SpanOf (M.n a) (M.degree a).toNat (M.U a) (M.spanAt x a) (x a)),
          x a = M.hi a → M.U a (M.spanAt x a) < x a ∧ x a = M.U a (M.spanAt x a + 1) → ∀ t, M.U a (M.spanAt x a) < t → t ≤ x a →
          SpanOf (M.n a) (M.degree a).toNat (M.U a) (M.spanAt x a) t := by
        intro M g e mm t t1 t2
        refine ⟨g.lo, g.hi, ?_⟩
        rcases t2.eq_or_lt with e' | e'
        · exact Or.inr ⟨t1, e'.trans mm.2, by rw [e', e, M.hi_eq]⟩
        · exact Or.inl ⟨t1.le, by rw [← mm.2]; exact e'⟩
      exact ⟨Set.Ioc (max (N.U a (N.spanAt x a)) (N'.U a (N'.spanAt x a))) (x a), ⟨max_lt m.1 m'.1, le_rfl⟩,
        uniqueDiffOn_Ioc _ _, fun t ht => conv N h h1 m t (lt_of_le_of_lt (le_max_left _ _) ht.1) ht.2,
        fun t ht => conv N' h' h2 m' t (lt_of_le_of_lt (le_max_right _ _) ht.1) ht.2⟩
  choose T hT using key
  exact ⟨T, ⟨fun a => (hT a).1, fun a => (hT a).2.1, fun a => (hT a).2.2.1⟩,
    ⟨fun a => (hT a).1, fun a => (hT a).2.1, fun a => (hT a).2.2.2⟩⟩

/-- first component of the default fields -/
def Nrb.firstComp (N : Nrb ℝ d) : ℕ := if 4 < N.nc then 4 else 0

/-- what the methods return for the default fields -/
theorem deriv_default (J : Junk ℝ) (hv : N.Valid) (hd : d = 1 ∨ d = 2 ∨ d = 3) {order : ℕ} (h1 : 1 ≤ order) (h3 : order ≤ 3)
    (hw : ∀ idx, (∀ a, 0 ≤ idx a ∧ idx a ≤ N.n a) → N.P idx 3 ≠ 0) :
    ∃ F, (∀ c, N.ratField F c = fun y => N.proj y (N.firstComp + c)) ∧
      ∀ {r : Fin d → ℤ} {X : Fin d → ℤ → ℝ}, (∀ a, 0 ≤ r a) →
      (∀ a i, 0 ≤ i → i ≤ r a → N.lo a ≤ X a i ∧ X a i ≤ N.hi a) →
      (N.derivative J order none false r X = .ok fun g l c => N.derivAt J order F (fun a => X a (g a)) l c) ∧
      ∃ G, N.gradient J none true r X = .ok G ∧ ∀ g i c, G g [i] c = N.mappedAt J F (fun a => X a (g a)) i c := by
  have hF : ∃ (nf : ℤ) (F : _), 1 ≤ nf ∧ N.fieldArg none = .ok (nf, F) ∧ ∀ c, N.ratField F c = fun y => N.proj y (N.firstComp + c) := by
    unfold Nrb.firstComp
    by_cases h : 4 < N.nc
    · obtain ⟨F, e1, e2⟩ := (C27_default hw).1 h
      exact ⟨_, F, by omega, e1, by rw [if_pos h]; exact e2⟩
    · obtain ⟨F, e1, e2⟩ := (C27_default hw).2 (by omega)
      exact ⟨_, F, by omega, e1, by rw [if_neg h]; intro c; rw [e2]; simp⟩
  obtain ⟨nf, F, hnf, e1, e2⟩ := hF
  refine ⟨F, e2, fun {r X} hr hx => ⟨?_, ?_⟩⟩
  · unfold Nrb.derivative
    rw [callArg_ok hr hx, res_ok_bind, e1, res_ok_bind, pyAssert_ok (by omega), res_ok_bind]
    exact derivCore_ok J hv hd e1 hnf hr hx
  · refine ⟨fun g dirs c => match dirs with
      | [i] => N.mappedAt J F (fun a => X a (g a)) i c
      | _ => 0, ?_, fun _ _ _ => rfl⟩
    unfold Nrb.gradient Nrb.derivCore
    rw [callArg_ok hr hx, res_ok_bind, e1, res_ok_bind]
    dsimp only
    rw [if_neg (by omega), if_neg]
    · simp
      funext g dirs c
      rcases dirs with _ | ⟨i, _ | _⟩ <;> rfl
    · have : ∀ a, 1 ≤ N.n a ∧ 1 ≤ N.degree a := fun a => by
        have h1 := (hv a).one_le
        have h2 := (hv a).le
        omega
      simp [this, hnf]

theorem geoF_proj (hw : ∀ idx, (∀ a, 0 ≤ idx a ∧ idx a ≤ N.n a) → N.P idx 3 ≠ 0) (c : ℕ) :
    N.ratField N.geoF c = fun y => N.proj y c := by
  funext y
  have := ratField_proj hw 0 c y
  rw [Nat.zero_add] at this
  rw [← this]
  unfold Nrb.geoF
  simp only [Nat.zero_add]

end Igakit
