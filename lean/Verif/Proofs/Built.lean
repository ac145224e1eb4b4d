import Verif.Props.Frame
import Verif.Props.Conform
import Verif.Props.Averages

/-!
# Objects built over an object, point by point
-/

set_option linter.unusedSectionVars false

namespace Igakit
open Spec Transform

section field
variable {K : Type} [Field K] [LinearOrder K] [IsStrictOrderedRing K] {d : ℕ}

theorem Nrb.stack_shape_last (N : Nrb K d) (m l : ℤ) (V : ℤ → K) (F : (Fin d → ℤ) → ℤ → ℕ → K) :
    (N.stack m l V F).shape (Fin.last d) = m := by
  simp [Nrb.stack]

/-- a matrix applied to homogeneous coordinates; further components stay -/
def homT (M : Mat4 K) (e : ℕ → K) : ℕ → K := fun c =>
  if h : c < 4 then M ⟨c, h⟩ 0 * e 0 + M ⟨c, h⟩ 1 * e 1 + M ⟨c, h⟩ 2 * e 2 + M ⟨c, h⟩ 3 * e 3 else e c

theorem transform_homT (N : Nrb K d) (M : Mat4 K) (x : Fin d → K) :
    (N.transform M).eval x = homT M (N.eval x) := by
  funext c
  unfold homT
  by_cases h : c < 4
  · rw [dif_pos h, transform_eval _ _ _ h]
  · rw [dif_neg h]
    exact (C21_transform_homogeneous N M x).2 c (by omega)

/-- `R` has the axes of `N` and one more, and its homogeneous coordinates are a function of those of `N` and
of the new parameter -/
structure Built (N : Nrb K d) (R : Nrb K (d + 1)) (Φ : K → (ℕ → K) → ℕ → K) : Prop where
  ext : N.Extends R
  eval : ∀ x, R.InDom x → R.eval x = Φ (x (Fin.last d)) (N.eval (Fin.init x))

namespace Nrb.Extends
variable {N : Nrb K d} {R : Nrb K (d + 1)}

theorem shape (h : N.Extends R) (a : Fin d) : R.shape a.castSucc = N.shape a := by
  have h1 := h.degree a
  have h2 := h.len a
  unfold Nrb.degree at h1
  omega
theorem n (h : N.Extends R) (a : Fin d) : R.n a.castSucc = N.n a := by unfold Nrb.n; rw [h.shape]
theorem U (h : N.Extends R) (a : Fin d) : R.U a.castSucc = N.U a := funext (h.knots a)
theorem lo (h : N.Extends R) (a : Fin d) : R.lo a.castSucc = N.lo a := by
  unfold Nrb.lo; rw [h.degree, h.U]
theorem hi (h : N.Extends R) (a : Fin d) : R.hi a.castSucc = N.hi a := by
  unfold Nrb.hi; rw [h.degree, h.len, h.U]
theorem knotsEq (h : N.Extends R) (a : Fin d) : R.knots a.castSucc = N.knots a := by
  unfold Nrb.knots; rw [h.len, h.U]
theorem multOf (h : N.Extends R) (a : Fin d) (x : K) : R.multOf a.castSucc x = N.multOf a x := by
  unfold Nrb.multOf; rw [h.len, h.U]
theorem sep (h : N.Extends R) {eps : K} {a : Fin d} {x : K} (hs : N.Sep eps a x) : R.Sep eps a.castSucc x := by
  unfold Nrb.Sep at hs ⊢; rw [h.len, h.U]; exact hs
theorem inner (h : N.Extends R) {a : Fin d} (hm : N.InnerMult a) : R.InnerMult a.castSucc := by
  intro x h1 h2
  rw [h.lo] at h1
  rw [h.hi] at h2
  rw [h.multOf, h.degree]
  exact hm x h1 h2
theorem innerAll (h : N.Extends R) (hm : ∀ a, N.InnerMult a) (hl : R.InnerMult (Fin.last d)) (a : Fin (d + 1)) :
    R.InnerMult a := by
  refine Fin.lastCases hl (fun b => h.inner (hm b)) a
theorem canAdd (h : N.Extends R) {eps : K} {a : Fin d} {V : Multiset K} (hc : N.CanAdd eps a V) :
    R.CanAdd eps a.castSucc V :=
  ⟨fun x hx => by rw [h.lo]; exact hc.lo x hx, fun x hx => by rw [h.hi]; exact hc.hi x hx,
    fun x hx => h.sep (hc.sep x hx), hc.apart, fun x hx => by rw [h.multOf, h.degree]; exact hc.mult x hx⟩
theorem canExtract (h : N.Extends R) {eps : K} {a : Fin d} {u : K} (hc : N.CanExtract eps a u) :
    R.CanExtract eps a.castSucc u :=
  ⟨by rw [h.lo]; exact hc.lo, by rw [h.hi]; exact hc.hi, h.sep hc.sep,
    by rw [h.hi, h.multOf, h.degree]; exact hc.mult, by rw [h.hi, h.multOf, h.degree]; exact hc.right⟩
end Nrb.Extends

/-- refining the object that has been built, or building over the refined object -/
theorem Built.refine {env : Env K} (heps : 0 < env.eps) {N : Nrb K d} (hv : N.Valid)
    (hm : ∀ a, N.InnerMult a) {p q : List (Call K)} (hp : ∀ c ∈ p, c.2.Refines (d + 1))
    (hq : ∀ c ∈ q, c.2.Refines d) (hc : ∀ a, N.CanAdd env.eps a (addedAll a q))
    (hpq : ∀ a : Fin d, addedAll a.castSucc p = addedAll a q) {R R' : Nrb K (d + 1)}
    {Φ Φ' : K → (ℕ → K) → ℕ → K} (hR : Built N R Φ) (hR' : Built (history env N q) R' Φ')
    (hl : R.InnerMult (Fin.last d)) (hcl : R.CanAdd env.eps (Fin.last d) (addedAll (Fin.last d) p))
    (hs : R'.shape (Fin.last d) = R.shape (Fin.last d) + (addedAll (Fin.last d) p).card)
    (hk : R'.knots (Fin.last d) = R.knots (Fin.last d) + addedAll (Fin.last d) p)
    (hΦ : ∀ t, R.lo (Fin.last d) ≤ t → t ≤ R.hi (Fin.last d) → Φ' t = Φ t)
    (hdom : ∀ x, R.InDom x → R'.InDom x) :
    (history env R p).SameData R' := by
  obtain ⟨h1, i1⟩ := added_history heps q hv hm hq hc
  obtain ⟨h2, i2⟩ := added_history heps p hR.ext.valid (hR.ext.innerAll hm hl) hp
    (fun a => Fin.lastCases hcl (fun b => by rw [hpq]; exact hR.ext.canAdd (hc b)) a)
  refine sameData_of_map h2.valid i2 (sameKnots_of h2.valid hR'.ext.valid ?_ fun a => ?_) ?_ fun y hy => ?_
  · funext a
    rw [h2.shape]
    refine Fin.lastCases hs (fun b => ?_) a
    rw [hR'.ext.shape, hR.ext.shape, h1.shape, hpq]
  · rw [h2.knots]
    refine Fin.lastCases hk (fun b => ?_) a
    rw [hR'.ext.knotsEq, hR.ext.knotsEq, h1.knots, hpq]
  · rw [h2.map.nc, hR.ext.nc, hR'.ext.nc]
  · have hy' : R.InDom y := fun a => by rw [← h2.map.lo, ← h2.map.hi]; exact hy a
    rw [h2.map.eval y hy', hR.eval y hy', hR'.eval y (hdom y hy'),
      h1.map.eval _ (hR.ext.dom y hy'), hΦ _ (hy' _).1 (hy' _).2]

theorem init_insertNth_castSucc {α : Type*} (a : Fin (d + 1)) (u : α) (y : Fin (d + 1) → α) :
    Fin.init (a.castSucc.insertNth u y : Fin (d + 2) → α) = a.insertNth u (Fin.init y) := by
  funext b
  by_cases h : b = a
  · subst h
    rw [Fin.insertNth_apply_same]
    show (b.castSucc.insertNth u y : Fin (d + 2) → α) b.castSucc = u
    rw [Fin.insertNth_apply_same]
  · obtain ⟨c, rfl⟩ := Fin.exists_succAbove_eq h
    rw [Fin.insertNth_apply_succAbove]
    show (a.castSucc.insertNth u y : Fin (d + 2) → α) (a.succAbove c).castSucc = y c.castSucc
    rw [← Fin.castSucc_succAbove_castSucc, Fin.insertNth_apply_succAbove]

theorem succAbove_castSucc_last (a : Fin (d + 1)) : a.castSucc.succAbove (Fin.last d) = Fin.last (d + 1) := by
  rw [Fin.succAbove_castSucc_of_le _ _ (Fin.le_last a), Fin.succ_last]

/-- a section of the object that has been built, or building over the section -/
theorem Built.extract {eps : K} (heps : 0 < eps) (je : ℤ → (Fin d → ℤ) → ℕ → K)
    (jf : ℤ → (Fin (d + 1) → ℤ) → ℕ → K) {N : Nrb K (d + 1)} (hv : N.Valid) (hm : ∀ a, N.InnerMult a)
    {a : Fin (d + 1)} {u : K} (hu : N.CanExtract eps a u) {R : Nrb K (d + 2)}
    {Φ : K → (ℕ → K) → ℕ → K} (hR : Built N R Φ) (hl : R.InnerMult (Fin.last (d + 1))) :
    ∃ X Y, N.extract eps je ((a : ℕ) : ℤ) u = .ok X ∧ X.Valid ∧ N.IsSection a u X ∧
      R.extract eps jf ((a : ℕ) : ℤ) u = .ok Y ∧
      ∀ R' Φ', Built X R' Φ' → R'.shape (Fin.last d) = R.shape (Fin.last (d + 1)) →
        R'.len (Fin.last d) = R.len (Fin.last (d + 1)) → R'.U (Fin.last d) = R.U (Fin.last (d + 1)) →
        (∀ t, R.lo (Fin.last (d + 1)) ≤ t → t ≤ R.hi (Fin.last (d + 1)) → Φ' t = Φ t) → Y.SameData R' := by
  obtain ⟨X, X1, X2, X3⟩ := extract_section heps je hv hu
  obtain ⟨Y, Y1, Y2, Y3⟩ := extract_section heps jf hR.ext.valid (hR.ext.canExtract hu)
  refine ⟨X, Y, X1, X2, X3, Y1, ?_⟩
  intro R' Φ' hR' es el eU hΦ
  have hcast : ∀ b : Fin d, a.castSucc.succAbove b.castSucc = (a.succAbove b).castSucc := fun b =>
    Fin.castSucc_succAbove_castSucc
  have e1 : ∀ b, R'.shape b = Y.shape b := by
    intro b
    rw [Y3.shape]
    refine Fin.lastCases ?_ (fun c => ?_) b
    · rw [es, succAbove_castSucc_last]
    · rw [hR'.ext.shape, X3.shape, hcast, hR.ext.shape]
  have e2 : ∀ b, R'.len b = Y.len b := by
    intro b
    rw [Y3.len]
    refine Fin.lastCases ?_ (fun c => ?_) b
    · rw [el, succAbove_castSucc_last]
    · rw [hR'.ext.len, X3.len, hcast, hR.ext.len]
  have e3 : ∀ b, R'.U b = Y.U b := by
    intro b
    rw [Y3.U]
    refine Fin.lastCases ?_ (fun c => ?_) b
    · rw [eU, succAbove_castSucc_last]
    · rw [hR'.ext.U, X3.U, hcast, hR.ext.U]
  have eD : ∀ b, R'.degree b = Y.degree b := fun b => by unfold Nrb.degree; rw [e1, e2]
  refine sameData_of_map Y2 (fun b => Y3.inner (hR.ext.innerAll hm hl _)) ⟨funext e1, funext e2, ?_⟩ ?_ ?_
  · intro b j _ _
    rw [e3]
  · rw [hR'.ext.nc, Y3.nc, hR.ext.nc]
  · intro y hy
    have hy' : R'.InDom y := by
      intro b
      have := hy b
      unfold Nrb.lo Nrb.hi at this ⊢
      rwa [eD, e2, e3]
    have hz : R.InDom (a.castSucc.insertNth u y) :=
      (Y3.inDom ⟨(hR.ext.canExtract hu).lo, (hR.ext.canExtract hu).hi⟩).1 hy
    have hlast : (a.castSucc.insertNth u y : Fin (d + 2) → K) (Fin.last (d + 1)) = y (Fin.last d) := by
      conv_lhs => rw [← succAbove_castSucc_last a]
      rw [Fin.insertNth_apply_succAbove]
    have hb := hz (Fin.last (d + 1))
    rw [hlast] at hb
    rw [Y3.eval, hR.eval _ hz, hR'.eval _ hy', X3.eval, init_insertNth_castSucc, hlast, hΦ _ hb.1 hb.2]

/-! ## Positive weights under refinement -/

/-- all weights are positive -/
def Nrb.WeightsPos (N : Nrb K d) : Prop := ∀ idx, N.InNet idx → 0 < N.P idx 3

theorem Nrb.WeightsPos.ne {N : Nrb K d} (h : N.WeightsPos) : N.WeightsNe := by
  intro idx hi
  refine (h idx fun a => ?_).ne'
  have := hi a
  unfold Nrb.n at this
  omega

theorem averages_pos {d' : ℕ} {N : Nrb K d} {N' : Nrb K d'} (h : N.Averages N') (hw : N.WeightsPos) :
    N'.WeightsPos := fun _ hi => (C83_points h convex_univ hw (fun _ _ => Set.mem_univ _) hi).1

theorem tame_of_canAdd {eps : K} {N : Nrb K d} {g : Geo K} (hr : g.Refines d)
    (hc : ∀ a, N.CanAdd eps a (g.added a)) : g.Tame eps N := by
  cases g with
  | insert axis v t =>
    cases t with
    | none => exact hr.elim
    | some t =>
      intro a ha
      have hc := hc a
      change N.CanAdd eps a (if normAxis d axis = .ok a then Multiset.replicate t.toNat v else 0) at hc
      rw [if_pos ha] at hc
      have hmem : v ∈ Multiset.replicate t.toNat v := by
        rw [Multiset.mem_replicate]
        have := hr.1
        exact ⟨by omega, rfl⟩
      exact ⟨(hc.lo v hmem).ne', (hc.hi v hmem).ne, hc.sep v hmem⟩
  | refine axis l =>
    cases l with
    | fresh l =>
      intro a ha
      have hc := hc a
      change N.CanAdd eps a (if normAxis d axis = .ok a then (l : Multiset K) else 0) at hc
      rw [if_pos ha] at hc
      exact ⟨fun x hx => ⟨(hc.lo x hx).ne', (hc.hi x hx).ne, hc.sep x hx⟩, fun x hx y hy => hc.apart x hx y hy⟩
    | block _ _ _ => exact hr.elim
  | _ => exact hr.elim

theorem canAdd_left {eps : K} {N : Nrb K d} {a : Fin d} {V W : Multiset K} (h : N.CanAdd eps a (V + W)) :
    N.CanAdd eps a V :=
  ⟨fun x hx => h.lo x (Multiset.mem_add.2 (Or.inl hx)), fun x hx => h.hi x (Multiset.mem_add.2 (Or.inl hx)),
    fun x hx => h.sep x (Multiset.mem_add.2 (Or.inl hx)),
    fun x hx y hy => h.apart x (Multiset.mem_add.2 (Or.inl hx)) y (Multiset.mem_add.2 (Or.inl hy)),
    fun x hx => by
      have := h.mult x (Multiset.mem_add.2 (Or.inl hx))
      rw [Multiset.count_add] at this
      push_cast at this ⊢
      omega⟩

theorem tameAll_of_canAdd {env : Env K} (heps : 0 < env.eps) : ∀ (p : List (Call K)) {N : Nrb K d}, N.Valid →
    (∀ a, N.InnerMult a) → (∀ c ∈ p, c.2.Refines d) → (∀ a, N.CanAdd env.eps a (addedAll a p)) →
    TameAll env N p
  | [], _, _, _, _, _ => trivial
  | c :: p, N, hv, hm, hr, hc => by
    have hcons : ∀ a : Fin d, addedAll a (c :: p) = c.2.added a + addedAll a p := fun a => by
      unfold addedAll
      rw [List.map_cons, List.sum_cons]
    simp only [hcons] at hc
    obtain ⟨N', h1, h2⟩ := refines_ok heps c.1 hv hm (hr c (by simp)) hc
    refine ⟨tame_of_canAdd (hr c (by simp)) fun a => canAdd_left (hc a), ?_⟩
    have he : c.after env N = N' := by
      unfold Call.after
      rw [h1]
    rw [he]
    exact tameAll_of_canAdd heps p h2.valid (fun a => inner_after (hc a) (hm a) h2.map (h2.knots a))
      (fun c h => hr c (by simp [h])) (fun a => canAdd_after (hc a) h2.map (h2.knots a))

theorem refine_pos {env : Env K} (heps : 0 < env.eps) {N : Nrb K d} (hv : N.Valid) (hm : ∀ a, N.InnerMult a)
    {q : List (Call K)} (hq : ∀ c ∈ q, c.2.Refines d) (hc : ∀ a, N.CanAdd env.eps a (addedAll a q))
    (hw : N.WeightsPos) : (history env N q).WeightsPos := by
  refine averages_pos (C83_history_same heps hv hm q (tameAll_of_canAdd heps q hv hm hq hc) ?_ ?_) hw
  · intro c h
    have := hq c h
    revert this
    cases c.2 <;> simp [Geo.Refines, Geo.Adds]
  · intro c h M e
    have := hq c h
    rw [e] at this
    exact this

/-! ## Extrusion and sweep -/

theorem extrude_built (h1 : d ≤ 2) {N : Nrb K d} (hv : N.Valid) {displ : ArrArg K} {axis : Option ℤ}
    {t : Fin 3 → K} (ht : IsDispl displ axis t) :
    ∃ R : Nrb K (d + 1), Cad.extrude N displ axis = .ok R ∧ R.shape (Fin.last d) = 2 ∧
      R.len (Fin.last d) = 4 ∧ R.U (Fin.last d) = uk ∧
      Built N R (fun s e => (1 - s) • e + s • homT (transMat t) e) := by
  have hT : Transform.translate 1 displ axis = .ok (transMat t) := by
    unfold Transform.translate
    rw [transVec_ok ht, res_ok_bind, compose, mul_one]
    rfl
  refine ⟨N.stack 2 4 uk (fun idx j c => if j = 0 then N.P idx c else (N.transform (transMat t)).P idx c),
    ?_, by rw [Nrb.stack_shape_last], by rw [Nrb.stack_len_last], by rw [Nrb.stack_U_last],
    stack_extends (m := 2) (l := 4) (V := uk) hv _ (by exact uk_valid), ?_⟩
  · unfold Cad.extrude
    rw [pyAssert_ok h1, res_ok_bind, hT, res_ok_bind]
    exact ctor_netWith N h1 (valid_len hv) (fun a => (hv a).one_le) rfl (fun _ => rfl) (by norm_num)
      (by norm_num) _
  · intro x hx
    obtain ⟨_, hx0, hx1⟩ := stack_inDom hx
    rw [stack_uk_eval N N.P (N.transform (transMat t)).P (x := x) hx0 hx1, ← transform_homT]
    rfl

/-- the homogeneous coordinates of a sweep, from those of the section and of the trajectory -/
def sweepHom (g e : ℕ → K) : ℕ → K := fun c =>
  if c < 3 then e c * g 3 + e 3 * g c else if c = 3 then e 3 * g 3 else 0

theorem sweep_built (h1 : 1 ≤ d) (h2 : d ≤ 2) {S : Nrb K d} {T : Nrb K 1} (hS : S.Valid) (hT : T.Valid)
    (hwS : S.WeightsNe) (hwT : T.WeightsNe) :
    ∃ R : Nrb K (d + 1), Cad.sweep S T = .ok R ∧ R.shape (Fin.last d) = T.shape 0 ∧
      R.len (Fin.last d) = T.len 0 ∧ R.U (Fin.last d) = T.U 0 ∧
      Built S R (fun s e => sweepHom (T.eval ![s]) e) := by
  have hn : T.shape 0 - 1 = T.n 0 := rfl
  have hdg : T.len 0 - T.shape 0 - 1 = T.degree 0 := by unfold Nrb.degree; ring
  set F : (Fin d → ℤ) → ℤ → ℕ → K := fun idx j c =>
    if c < 3 then (S.P idx c / S.weights idx + T.P ![j] c / T.weights ![j]) * (S.weights idx * T.weights ![j])
    else if c = 3 then S.weights idx * T.weights ![j] else 0 with hF
  refine ⟨S.stack (T.shape 0) (T.len 0) (T.U 0) F, ?_, by rw [Nrb.stack_shape_last], by rw [Nrb.stack_len_last],
    by rw [Nrb.stack_U_last], stack_extends (m := T.shape 0) (l := T.len 0) (V := T.U 0) hS F ?_, ?_⟩
  · unfold Cad.sweep
    rw [pyAssert_ok ⟨h1, h2⟩, res_ok_bind]
    refine ctor_netPair S h2 (valid_len hS) (fun a => (hS a).one_le) (l := T.len 0) (V := T.U 0) rfl (fun _ => rfl)
      (valid_len hT 0) ?_ _ (fun idx j => S.weights idx * T.weights ![j]) rfl (fun _ => rfl)
    rw [hdg]; exact (hT 0).one_le
  · rw [hn, hdg]; exact hT 0
  · intro x hx
    have hj : ∀ j, 0 ≤ j → j ≤ T.shape 0 - 1 → T.weights ![j] ≠ 0 := by
      intro j a b
      apply hwT
      intro a'
      fin_cases a'
      exact ⟨a, b⟩
    have z : tensor S.n (fun a => (S.degree a).toNat) S.U (fun _ => (0 : K)) (Fin.init x) = 0 := by
      unfold tensor; simp
    funext c
    unfold sweepHom
    by_cases hc : c < 3
    · rw [if_pos hc]
      have kc := stack_bilin (N := S) (m := T.shape 0) (l := T.len 0) (V := T.U 0) (F := F) (c := c)
        (A := fun idx => S.P idx c) (A' := fun idx => S.P idx 3) (B := fun j => T.P ![j] 3)
        (B' := fun j => T.P ![j] c)
        (fun idx j hi h0 h1 => by
          simp only [hF]
          rw [if_pos hc]
          have w1 : S.P idx 3 ≠ 0 := hwS idx hi
          have w2 : T.P ![j] 3 ≠ 0 := hj j h0 h1
          unfold Nrb.weights
          field_simp) x
      rw [hn, hdg, tensor_comp, tensor_comp, curve_comp, curve_comp] at kc
      exact kc
    · rw [if_neg hc]
      by_cases h3 : c = 3
      · subst h3
        rw [if_pos rfl]
        have k3 := stack_bilin (N := S) (m := T.shape 0) (l := T.len 0) (V := T.U 0) (F := F) (c := 3)
          (A := fun idx => S.P idx 3) (A' := fun _ => 0) (B := fun j => T.P ![j] 3) (B' := fun _ => 0)
          (fun idx j _ _ _ => by simp [hF, Nrb.weights]) x
        rw [hn, hdg, tensor_comp, curve_comp, z, zero_mul, add_zero] at k3
        exact k3
      · rw [if_neg h3]
        have k := stack_bilin (N := S) (m := T.shape 0) (l := T.len 0) (V := T.U 0) (F := F) (c := c)
          (A := fun _ => 0) (A' := fun _ => 0) (B := fun _ => 0) (B' := fun _ => 0)
          (fun idx j _ _ _ => by simp [hF, hc, h3]) x
        rw [z, zero_mul, add_zero] at k
        exact k

end field

/-! ## Revolution -/

/-- the homogeneous coordinates of an object turned by an arc -/
noncomputable def turnHom (g e : ℕ → ℝ) : ℕ → ℝ := fun c =>
  if c = 0 then e 0 * g 0 - e 1 * g 1 else if c = 1 then e 1 * g 0 + e 0 * g 1
  else if c = 2 then e 2 * g 3 else e 3 * g 3

theorem revolve_built {d : ℕ} {junk : ℤ → Fin 4 → ℝ} (h1 : d ≤ 2) {N : Nrb ℝ d} (hv : N.Valid)
    {point : ArrArg ℝ} {p : Fin 3 → ℝ} (hp : IsDispl point none p) {axis : AxisArg} {v : Fin 3 → ℝ}
    (hax : IsAxis axis v) (hz : v 2 ≠ -1) {angle : AngleArg} {arc : Nrb ℝ 1}
    (harc : Cad.circle junk 1 none angle = .ok arc) (hva : arc.Valid) :
    ∃ R : Nrb ℝ (d + 1), Cad.revolve junk N point axis angle = .ok R ∧ R.shape (Fin.last d) = arc.shape 0 ∧
      R.len (Fin.last d) = arc.len 0 ∧ R.U (Fin.last d) = arc.U 0 ∧
      Built N R (fun s e => homT (transMat p * embed3 (frameRot v).transpose)
        (turnHom (arc.eval ![s]) (homT (embed3 (frameRot v) * transMat (-p)) e))) := by
  have hu := hax.unit
  have hpl : point.toList.length ≤ 3 := by
    cases hp with
    | vec l h => exact h
    | first x => simp [ArrArg.toList]
  set T := embed3 (frameRot v) * transMat (-p) with hT
  set N' := N.transform T with hN'
  have hv' : N'.Valid := hv
  have hn : arc.shape 0 - 1 = arc.n 0 := rfl
  have hdg : arc.len 0 - arc.shape 0 - 1 = arc.degree 0 := by unfold Nrb.degree; ring
  set F : (Fin d → ℤ) → ℤ → ℕ → ℝ := fun idx j c =>
    Cad.revPoint (N'.P idx 0) (N'.P idx 1) (N'.P idx 2) (N'.P idx 3) (arc.P ![j]) c with hF
  have hS : Nrb.ctor (N'.knotsWith (arc.knotNd 0)) (.arr (N'.netWith (arc.shape 0) 4 F)) none none =
      .ok (N'.stack (arc.shape 0) (arc.len 0) (arc.U 0) F) :=
    ctor_netWith N' h1 (valid_len hv') (fun a => (hv' a).one_le) rfl (fun _ => rfl) (valid_len hva 0)
      (by rw [hdg]; exact (hva 0).one_le) F
  set S := N'.stack (arc.shape 0) (arc.len 0) (arc.U 0) F with hSd
  have hE : N'.Extends S := stack_extends hv' F (by rw [hn, hdg]; exact hva 0)
  refine ⟨S.transform (transMat p * embed3 (frameRot v).transpose), ?_, ?_, ?_, ?_, ?_, ?_⟩
  · unfold Cad.revolve
    rw [pyAssert_ok h1, res_ok_bind, pyAssert_ok hpl, res_ok_bind, revAxis_ok hax, res_ok_bind,
      revFrame_ok hp hu hz, res_ok_bind]
    dsimp only
    rw [harc, res_ok_bind, hS, res_ok_bind, frame_inverse p hu hz]
    rfl
  · show S.shape (Fin.last d) = _
    rw [Nrb.stack_shape_last]
  · show S.len (Fin.last d) = _
    rw [Nrb.stack_len_last]
  · show S.U (Fin.last d) = _
    rw [Nrb.stack_U_last]
  · exact ⟨hE.valid, hE.nc, hE.degree, hE.len, hE.knots, hE.dom⟩
  · intro x hx
    rw [transform_homT, ← transform_homT N T]
    congr 1
    funext c
    have k : ∀ (c : ℕ) (i i' j j' : ℕ) (s s' : ℝ),
        (∀ idx j0, F idx j0 c = (s * N'.P idx i) * arc.P ![j0] j + (s' * N'.P idx i') * arc.P ![j0] j') →
        S.eval x c = s * N'.eval (Fin.init x) i * arc.eval ![x (Fin.last d)] j +
          s' * N'.eval (Fin.init x) i' * arc.eval ![x (Fin.last d)] j' := by
      intro c i i' j j' s s' h
      have := stack_bilin (N := N') (m := arc.shape 0) (l := arc.len 0) (V := arc.U 0) (F := F) (c := c)
        (A := fun idx => s * N'.P idx i) (A' := fun idx => s' * N'.P idx i') (B := fun j0 => arc.P ![j0] j)
        (B' := fun j0 => arc.P ![j0] j') (fun idx j0 _ _ _ => h idx j0) x
      rw [hn, hdg, curve_comp, curve_comp] at this
      have hs : ∀ (s : ℝ) (i : ℕ), tensor N'.n (fun a => (N'.degree a).toNat) N'.U (fun idx => s * N'.P idx i)
          (Fin.init x) = s * N'.eval (Fin.init x) i := by
        intro s i
        rw [← tensor_comp]
        unfold tensor
        rw [Finset.mul_sum]
        exact Finset.sum_congr rfl fun idx _ => by simp only [smul_eq_mul]; ring
      rw [hs, hs] at this
      exact this
    unfold turnHom
    by_cases c0 : c = 0
    · subst c0
      rw [if_pos rfl, k 0 0 1 0 1 1 (-1) (fun idx j0 => by
        obtain ⟨c0, c1⟩ := hypot_arg (N'.P idx 0) (N'.P idx 1)
        simp only [hF, Cad.revPoint]
        rw [c0, c1, if_pos trivial]; ring)]
      ring
    rw [if_neg c0]
    by_cases c1 : c = 1
    · subst c1
      rw [if_pos rfl, k 1 1 0 0 1 1 1 (fun idx j0 => by
        obtain ⟨c0, c1⟩ := hypot_arg (N'.P idx 0) (N'.P idx 1)
        simp only [hF, Cad.revPoint]
        rw [c0, c1, if_neg (by norm_num), if_pos trivial]; ring)]
      ring
    rw [if_neg c1]
    by_cases c2 : c = 2
    · subst c2
      rw [if_pos rfl, k 2 2 0 3 0 1 0 (fun idx j0 => by
        simp only [hF, Cad.revPoint]
        rw [if_neg (by norm_num), if_neg (by norm_num), if_pos trivial]; ring)]
      ring
    rw [if_neg c2, k c 3 0 3 0 1 0 (fun idx j0 => by
        simp only [hF, Cad.revPoint]
        rw [if_neg c0, if_neg c1, if_neg c2]; ring)]
    ring

end Igakit
