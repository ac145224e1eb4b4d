import Verif.Model.Compat
import Verif.Spec.Compat
import Verif.Props.Param
import Verif.Props.Elevate
import Verif.Props.NrbAxis
import Verif.Props.Slice
import Verif.Props.Spans
import Verif.Props.Greville
import Mathlib.Order.Bounds.Basic

/-! # Lemmas for `cad.compat` -/

set_option linter.unusedSectionVars false

namespace Igakit
open Spec

variable {K : Type} [Field K] [LinearOrder K] {d m : ℕ}

/-! ## one axis of an object -/

/-- the data of one axis -/
@[ext] structure Ax (K : Type) where
  shape : ℤ
  len : ℤ
  U : ℤ → K

namespace Ax
def n (A : Ax K) : ℤ := A.shape - 1
def degree (A : Ax K) : ℤ := (A.len - 1) - (A.shape - 1) - 1
def lo (A : Ax K) : K := A.U A.degree
def hi (A : Ax K) : K := A.U (A.n + 1)
def Valid (A : Ax K) : Prop := ValidKnots A.n A.degree A.U
def mult (A : Ax K) (x : K) : ℕ := Spec.mult A.U 0 (A.len - 1) x
end Ax

/-- the data of axis `a` -/
def Nrb.axis (N : Nrb K d) (a : Fin d) : Ax K := ⟨N.shape a, N.len a, N.U a⟩

theorem axis_n (N : Nrb K d) (a : Fin d) : (N.axis a).n = N.n a := rfl
theorem axis_degree (N : Nrb K d) (a : Fin d) : (N.axis a).degree = N.degree a := rfl
theorem axis_lo (N : Nrb K d) (a : Fin d) : (N.axis a).lo = N.lo a := rfl
theorem axis_hi (N : Nrb K d) (a : Fin d) : (N.axis a).hi = N.hi a := (N.hi_eq a).symm
theorem axis_U (N : Nrb K d) (a : Fin d) : (N.axis a).U = N.U a := rfl
theorem axis_mult (N : Nrb K d) (a : Fin d) (x : K) : (N.axis a).mult x = N.multOf a x := rfl

theorem Ax.len_eq (A : Ax K) : A.len = A.n + A.degree + 2 := by unfold Ax.n Ax.degree; ring

theorem Ax.mult_eq (A : Ax K) (x : K) : A.mult x = Spec.mult A.U 0 (A.n + A.degree + 1) x := by
  unfold Ax.mult; rw [A.len_eq]; congr 1; ring

theorem Nrb.multOf_eq (N : Nrb K d) (a : Fin d) (x : K) :
    N.multOf a x = Spec.mult (N.U a) 0 (N.n a + N.degree a + 1) x := (N.axis a).mult_eq x

/-- going through a list of distinct axes with a step that changes only its own axis -/
theorem fold_axes {step : Nrb K d → Fin d → Res (Nrb K d)} {Pre : Fin d → Ax K → Prop}
    {Post : Fin d → Ax K → Ax K → Prop} {R : Nrb K d → Nrb K d → Prop} (hR : ∀ N, N.Valid → R N N)
    (hT : ∀ N N' N'', N.Valid → N'.Valid → N''.Valid → R N N' → R N' N'' → R N N'')
    (hstep : ∀ N a, N.Valid → Pre a (N.axis a) → ∃ N', step N a = .ok N' ∧ N'.Valid ∧ R N N' ∧
      (∀ b, b ≠ a → N'.axis b = N.axis b) ∧ Post a (N.axis a) (N'.axis a)) :
    ∀ (A : List (Fin d)), A.Nodup → ∀ N, N.Valid → (∀ a ∈ A, Pre a (N.axis a)) →
      ∃ N', A.foldlM step N = .ok N' ∧ N'.Valid ∧ R N N' ∧ (∀ b, b ∉ A → N'.axis b = N.axis b) ∧
        ∀ a ∈ A, Post a (N.axis a) (N'.axis a)
  | [], _, N, hv, _ => ⟨N, rfl, hv, hR N hv, fun _ _ => rfl, fun _ h => by cases h⟩
  | a :: A, hnd, N, hv, hpre => by
    obtain ⟨N1, e1, v1, r1, o1, p1⟩ := hstep N a hv (hpre a List.mem_cons_self)
    rw [List.nodup_cons] at hnd
    have hne : ∀ b ∈ A, b ≠ a := fun b hb h => hnd.1 (h ▸ hb)
    obtain ⟨N2, e2, v2, r2, o2, p2⟩ := fold_axes hR hT hstep A hnd.2 N1 v1 (fun b hb => by
      rw [o1 b (hne b hb)]; exact hpre b (List.mem_cons_of_mem _ hb))
    refine ⟨N2, ?_, v2, hT N N1 N2 hv v1 v2 r1 r2, ?_, ?_⟩
    · rw [List.foldlM_cons, e1]; exact e2
    · intro b hb
      rw [List.mem_cons, not_or] at hb
      rw [o2 b hb.2, o1 b hb.1]
    · intro b hb
      rcases List.mem_cons.mp hb with h | h
      · subst h; rw [o2 b hnd.1]; exact p1
      · have := p2 b h
        rwa [o1 b (hne b h)] at this

/-! ## minima and maxima -/

theorem foldl_min_spec {α : Type} [LinearOrder α] (l : List α) (x : α) :
    (l.foldl min x = x ∨ l.foldl min x ∈ l) ∧ l.foldl min x ≤ x ∧ ∀ y ∈ l, l.foldl min x ≤ y := by
  induction l generalizing x with
  | nil => simp
  | cons z l ih =>
    obtain ⟨h1, h2, h3⟩ := ih (min x z)
    rw [List.foldl_cons]
    refine ⟨?_, h2.trans (min_le_left _ _), ?_⟩
    · rcases h1 with h | h
      · rcases min_choice x z with e | e
        · left; rw [h, e]
        · right; rw [h, e]; exact List.mem_cons_self
      · right; exact List.mem_cons_of_mem _ h
    · intro y hy
      rcases List.mem_cons.mp hy with e | e
      · subst e; exact h2.trans (min_le_right _ _)
      · exact h3 y e

theorem foldl_max_spec {α : Type} [LinearOrder α] (l : List α) (x : α) :
    (l.foldl max x = x ∨ l.foldl max x ∈ l) ∧ x ≤ l.foldl max x ∧ ∀ y ∈ l, y ≤ l.foldl max x :=
  foldl_min_spec (α := αᵒᵈ) l x

theorem ofFn_min {α : Type} [LinearOrder α] (x0 : α) (f : Fin m → α) (hm : 0 < m) :
    IsLeast (Set.range f) ((List.ofFn f).tail.foldl min ((List.ofFn f).headD x0)) := by
  obtain ⟨m, rfl⟩ : ∃ k, m = k + 1 := ⟨m - 1, by omega⟩
  rw [List.ofFn_succ, List.tail_cons, List.headD_cons]
  obtain ⟨h1, h2, h3⟩ := foldl_min_spec (List.ofFn fun i : Fin m => f i.succ) (f 0)
  refine ⟨?_, ?_⟩
  · rcases h1 with h | h
    · exact ⟨0, h.symm⟩
    · obtain ⟨i, hi⟩ := List.mem_ofFn.mp h
      exact ⟨i.succ, hi⟩
  · rintro _ ⟨i, rfl⟩
    refine Fin.cases h2 (fun j => ?_) i
    exact h3 _ (List.mem_ofFn.mpr ⟨j, rfl⟩)

theorem ofFn_max {α : Type} [LinearOrder α] (x0 : α) (f : Fin m → α) (hm : 0 < m) :
    IsGreatest (Set.range f) ((List.ofFn f).tail.foldl max ((List.ofFn f).headD x0)) :=
  ofFn_min (α := αᵒᵈ) x0 f hm

section ord
variable [IsStrictOrderedRing K]

/-! ## the affine map between two intervals -/

theorem affMap_left {a b : K} (h : a < b) (c e : K) : affMap a b c e a = c := by
  have : b - a ≠ 0 := (sub_pos.mpr h).ne'
  unfold affMap; field_simp; ring

theorem affMap_right {a b : K} (h : a < b) (c e : K) : affMap a b c e b = e := by
  have : b - a ≠ 0 := (sub_pos.mpr h).ne'
  unfold affMap; field_simp; ring

theorem affMap_id {a b : K} (h : a < b) (u : K) : affMap a b a b u = u := by
  have : b - a ≠ 0 := (sub_pos.mpr h).ne'
  unfold affMap; field_simp; ring

theorem affMap_eq {a b : K} (h : a < b) (c e u : K) : affMap a b c e u = (u - a) * ((e - c) / (b - a)) + c := by
  have : b - a ≠ 0 := (sub_pos.mpr h).ne'
  unfold affMap; field_simp; ring

theorem affMap_comp {a b c e : K} (h : a < b) (h' : c < e) (f g u : K) :
    affMap c e f g (affMap a b c e u) = affMap a b f g u := by
  have : b - a ≠ 0 := (sub_pos.mpr h).ne'
  have : e - c ≠ 0 := (sub_pos.mpr h').ne'
  unfold affMap; field_simp; ring

theorem affMap_inv {a b c e : K} (h : a < b) (h' : c < e) (u : K) :
    affMap c e a b (affMap a b c e u) = u := by
  rw [affMap_comp h h', affMap_id h]

theorem affMap_sub {a b : K} (h : a < b) (c e u v : K) :
    affMap a b c e u - affMap a b c e v = (u - v) * ((e - c) / (b - a)) := by
  rw [affMap_eq h, affMap_eq h]; ring

theorem affMap_lt {a b c e : K} (h : a < b) (h' : c < e) {u v : K} :
    affMap a b c e u < affMap a b c e v ↔ u < v := by
  have hs : 0 < (e - c) / (b - a) := div_pos (sub_pos.mpr h') (sub_pos.mpr h)
  rw [← sub_pos, affMap_sub h, mul_pos_iff_of_pos_right hs, sub_pos]

theorem affMap_le {a b c e : K} (h : a < b) (h' : c < e) {u v : K} :
    affMap a b c e u ≤ affMap a b c e v ↔ u ≤ v := by
  rw [← not_lt, ← not_lt, affMap_lt h h']

theorem affMap_inj {a b c e : K} (h : a < b) (h' : c < e) {u v : K} :
    affMap a b c e u = affMap a b c e v ↔ u = v := by
  rw [le_antisymm_iff, le_antisymm_iff, affMap_le h h', affMap_le h h']

theorem affMap_mem {a b c e : K} (h : a < b) (h' : c < e) {u : K} (h1 : a ≤ u) (h2 : u ≤ b) :
    c ≤ affMap a b c e u ∧ affMap a b c e u ≤ e := by
  have h1' := (affMap_le h h').mpr h1
  have h2' := (affMap_le h h').mpr h2
  rw [affMap_left h] at h1'
  rw [affMap_right h] at h2'
  exact ⟨h1', h2'⟩

theorem Nrb.lo_lt_hi {N : Nrb K d} (hv : N.Valid) (a : Fin d) : N.lo a < N.hi a := by
  obtain ⟨p, hp, hk, _⟩ := deg_nat hv a
  rw [N.hi_eq, N.lo_eq, hp]
  exact lt_of_lt_of_le hk.first (hk.sorted _ _ (by have := hk.one_le; omega)
    (by have := hk.le; omega) (by omega))

/-! ## the relation between an object and its affine reparametrisations -/

theorem Nrb.AffineOf.refl {N : Nrb K d} (hv : N.Valid) : N.AffineOf N := by
  refine ⟨rfl, fun z _ => ?_⟩
  congr 1
  funext b
  rw [affMap_id (Nrb.lo_lt_hi hv b)]

theorem Nrb.AffineOf.trans {N N' N'' : Nrb K d} (_hv : N.Valid) (hv' : N'.Valid) (hv'' : N''.Valid)
    (h : N.AffineOf N') (h' : N'.AffineOf N'') : N.AffineOf N'' := by
  refine ⟨h'.nc.trans h.nc, fun z hz => ?_⟩
  rw [h'.eval z hz, h.eval _ (fun b => affMap_mem (Nrb.lo_lt_hi hv'' b) (Nrb.lo_lt_hi hv' b) (hz b).1 (hz b).2)]
  congr 1
  funext b
  rw [affMap_comp (Nrb.lo_lt_hi hv'' b) (Nrb.lo_lt_hi hv' b)]

theorem Nrb.AffineOf.of_same {N N' : Nrb K d} (hv : N.Valid) (hnc : N'.nc = N.nc) (hlo : ∀ b, N'.lo b = N.lo b)
    (hhi : ∀ b, N'.hi b = N.hi b) (h : ∀ x, N.InDom x → N'.eval x = N.eval x) : N.AffineOf N' := by
  refine ⟨hnc, fun z hz => ?_⟩
  rw [h z (fun b => by rw [← hlo, ← hhi]; exact hz b)]
  congr 1
  funext b
  rw [hlo, hhi, affMap_id (Nrb.lo_lt_hi hv b)]

/-! ## `SameBounds` -/

/-- an axis stretched to the interval `[c, e]` -/
def Ax.stretch (A : Ax K) (c e : K) : Ax K := ⟨A.shape, A.len, fun j => affMap A.lo A.hi c e (A.U j)⟩

theorem remap_step {c e : K} (hce : c < e) (N : Nrb K d) (a : Fin d) (hv : N.Valid) :
    ∃ N', N.remap (a : ℤ) (some c) (some e) = .ok N' ∧ N'.Valid ∧ N.AffineOf N' ∧
      (∀ b, b ≠ a → N'.axis b = N.axis b) ∧ N'.axis a = (N.axis a).stretch c e := by
  obtain ⟨N', h1, h2, h3, h4, h5, _, h7, h8, h9, h10⟩ := C19_remap hv (normAxis_self a)
    (start := some c) (stop := some e) rfl rfl hce
  have hlt := Nrb.lo_lt_hi hv a
  have hoth : ∀ b, b ≠ a → N'.axis b = N.axis b := by
    intro b hb
    unfold Nrb.axis; rw [h4, h5, h9 b hb]
  dsimp only [Option.getD] at h7 h8 h10
  refine ⟨N', h1, h2, ⟨h3, fun z _ => ?_⟩, hoth, ?_⟩
  · rw [← h10]
    congr 1
    funext b
    by_cases hb : b = a
    · subst hb
      rw [Function.update_self, h7, h8, affMap_inv hce hlt]
    · rw [Function.update_of_ne hb]
      have e1 : N'.lo b = N.lo b := by rw [← axis_lo, hoth b hb, axis_lo]
      have e2 : N'.hi b = N.hi b := by rw [← axis_hi, hoth b hb, axis_hi]
      rw [e1, e2, affMap_id (Nrb.lo_lt_hi hv b)]
  · have hU : N'.U a = fun j => affMap (N.lo a) (N.hi a) c e (N.U a j) := by
      unfold Nrb.remap at h1
      rw [normAxis_self, res_ok_bind] at h1
      dsimp only [Option.getD] at h1
      split_ifs at h1 with hs
      · rw [res_pure] at h1
        have := Except.ok.inj h1
        subst this
        funext j
        rw [← hs.1, ← hs.2, affMap_id hlt]
      · rw [pyAssert_ok hce, res_ok_bind, res_pure] at h1
        have := Except.ok.inj h1
        subst this
        funext j
        show Function.update N.U a _ a j = _
        rw [Function.update_self, affMap_eq hlt]
    unfold Nrb.axis Ax.stretch
    rw [h4, h5, hU]
    ext
    · rfl
    · rfl
    · show _ = affMap (N.axis a).lo (N.axis a).hi c e _
      rw [axis_lo, axis_hi]


theorem stretch_lo {A : Ax K} (h : A.lo < A.hi) (c e : K) : (A.stretch c e).lo = c := affMap_left h c e
theorem stretch_hi {A : Ax K} (h : A.lo < A.hi) (c e : K) : (A.stretch c e).hi = e := affMap_right h c e

theorem stretch_mult {A : Ax K} (h : A.lo < A.hi) {c e : K} (hce : c < e) (x : K) :
    (A.stretch c e).mult (affMap A.lo A.hi c e x) = A.mult x := by
  unfold Ax.mult Spec.mult Ax.stretch
  congr 1
  ext i
  simp only [Finset.mem_filter, affMap_inj h hce]

theorem stretch_mult' {A : Ax K} (h : A.lo < A.hi) {c e : K} (hce : c < e) (y : K) :
    (A.stretch c e).mult y = A.mult (affMap c e A.lo A.hi y) := by
  rw [← stretch_mult h hce, affMap_inv hce h]

/-! ## `SameDegree` -/

/-- what `elevate` by `t` asks of an axis -/
structure Ax.Elev (A : Ax K) (eps : K) (t : ℕ) : Prop where
  left : ClampedL A.degree A.U
  right : ClampedR A.n A.degree A.U
  mult : MultLe A.n A.degree A.U
  gaps : Gaps eps A.n A.degree A.U
  jump : 1 ≤ t → A.degree ≤ 9 ∨ NoJump A.n A.degree t A.U

/-- what `elevate` by `t` does to an axis -/
structure Ax.Raised (A A' : Ax K) (t : ℕ) : Prop where
  valid : A'.Valid
  degree : A'.degree = A.degree + t
  lo : A'.lo = A.lo
  hi : A'.hi = A.hi
  left : ClampedL A'.degree A'.U
  right : ClampedR A'.n A'.degree A'.U
  mult : ∀ x, A'.mult x = if A.mult x = 0 then 0 else A.mult x + t

theorem axis_ext {N N' : Nrb K d} {b : Fin d} (hs : N'.shape b = N.shape b) (hd : N'.degree b = N.degree b)
    (hU : N'.U b = N.U b) : N'.axis b = N.axis b := by
  unfold Nrb.axis
  have : N'.len b = N.len b := by unfold Nrb.degree at hd; omega
  rw [hs, hU, this]

theorem elevate_step {eps : K} (heps : 0 ≤ eps) (M : Mem K d) (t : ℕ) (N : Nrb K (d + 1)) (a : Fin (d + 1))
    (hv : N.Valid) (hE : (N.axis a).Elev eps t) :
    ∃ N', N.elevate eps M.k M.e M.b (a : ℤ) (some t) = .ok N' ∧ N'.Valid ∧ N.AffineOf N' ∧
      (∀ b, b ≠ a → N'.axis b = N.axis b) ∧ (N.axis a).Raised (N'.axis a) t := by
  rcases Nat.eq_zero_or_pos t with ht | ht
  · subst ht
    refine ⟨N, (C16_elevate_trivial eps M.k M.e M.b N _).2.1, hv, .refl hv, fun _ _ => rfl, hv a, ?_, rfl, rfl,
      hE.left, hE.right, fun x => ?_⟩
    · simp
    · split_ifs with h
      · exact h
      · rfl
  obtain ⟨N', h1, h2, h3, h4, h5⟩ := C16_elevate_partial heps M.k M.e M.b hv (normAxis_self a)
    ⟨hE.left, hE.right, hE.mult, hE.gaps⟩ t (hE.jump ht)
  have hdeg := h3.degree a
  rw [if_pos rfl] at hdeg
  refine ⟨N', h1, h2, .of_same hv h3.nc h3.lo h3.hi h3.eval, ?_, h2 a, hdeg, ?_, ?_, h4, h5, ?_⟩
  · intro b hb
    have hd := h3.degree b
    rw [if_neg hb, add_zero] at hd
    exact axis_ext (h3.others b hb).2 hd (h3.others b hb).1
  · rw [axis_lo, axis_lo]; exact h3.lo a
  · rw [axis_hi, axis_hi]; exact h3.hi a
  · intro x
    have := h3.knots x
    unfold Nrb.knots at this
    rw [count_knotMS, count_knotMS] at this
    rw [axis_mult, axis_mult]
    unfold Nrb.multOf
    rw [this]
    have hm : x ∈ knotMS (N.U a) (N.len a - 1) ↔ mult (N.U a) 0 (N.len a - 1) x ≠ 0 := by
      rw [← count_knotMS, Multiset.count_ne_zero]
    split_ifs with c1 c2 c2
    · exact absurd c2 (hm.mp c1)
    · rfl
    · rfl
    · exact absurd (hm.mpr c2) c1

/-! ## `MergeKnots` -/

/-- what `refine` asks of an axis -/
structure Ax.Refinable (A : Ax K) (eps : K) (l : List K) : Prop where
  lo : ∀ x ∈ l, A.lo < x
  hi : ∀ x ∈ l, x < A.hi
  sep : ∀ x ∈ l, SepFrom eps x A.U 0 (A.len - 1)
  sep' : ∀ x ∈ l, ∀ y ∈ l, x = y ∨ eps ≤ |x - y|
  mult : ∀ x, ((l.count x + Spec.mult A.U 1 (A.len - 2) x : ℕ) : ℤ) ≤ A.degree

/-- what `refine` does to an axis -/
structure Ax.Refined (A A' : Ax K) (l : List K) : Prop where
  valid : A'.Valid
  degree : A'.degree = A.degree
  lo : A'.lo = A.lo
  hi : A'.hi = A.hi
  mult : ∀ x, A'.mult x = A.mult x + l.count x

theorem refine_step {eps : K} (heps : 0 < eps) (M : Mem K d) (l : List K) (N : Nrb K (d + 1)) (a : Fin (d + 1))
    (hv : N.Valid) (hE : (N.axis a).Refinable eps l) :
    ∃ N', N.refine eps M.k M.e (a : ℤ) l = .ok N' ∧ N'.Valid ∧ N.AffineOf N' ∧
      (∀ b, b ≠ a → N'.axis b = N.axis b) ∧ (N.axis a).Refined (N'.axis a) l := by
  obtain ⟨N', h1, h2, h3, h4, h5, h6⟩ := C09_refine heps M.k M.e hv (normAxis_self a) hE.lo
    (fun x hx => by rw [← axis_hi]; exact hE.hi x hx) hE.sep hE.sep' hE.mult
  refine ⟨N', h1, h2, .of_same hv h3.nc h3.lo h3.hi h3.eval, ?_, h2 a, h3.degree a, h3.lo a, ?_, ?_⟩
  · intro b hb
    exact axis_ext (by rw [h4, Function.update_of_ne hb]) (h3.degree b) (h6 b hb)
  · rw [axis_hi, axis_hi]; exact h3.hi a
  · intro x
    have := congrArg (Multiset.count x) h5
    unfold Nrb.knots at this
    rw [Multiset.count_add, count_knotMS, count_knotMS, Multiset.coe_count] at this
    exact this

end ord

theorem count_flatMap_replicate {u : List K} (hu : u.Nodup) (f : K → ℕ) (y : K) :
    (u.flatMap (fun x => List.replicate (f x) x)).count y = if y ∈ u then f y else 0 := by
  induction u with
  | nil => simp
  | cons x u ih =>
    rw [List.nodup_cons] at hu
    rw [List.flatMap_cons, List.count_append, ih hu.2, List.count_replicate]
    by_cases h : x = y
    · subst h
      simp [hu.1]
    · have h' : y ≠ x := fun e => h e.symm
      simp [h, h']

theorem multIn_not_mem {bs : List (K × ℤ)} {x : K} (h : x ∉ bs.map Prod.fst) : Cad.multIn bs x = 0 := by
  unfold Cad.multIn
  rw [List.find?_eq_none.mpr]
  · rfl
  · intro q hq hc
    rw [decide_eq_true_eq] at hc
    exact h (List.mem_map.mpr ⟨q, hq, hc⟩)

theorem multIn_zip {l : List K} (f : K → ℤ) (x : K) :
    Cad.multIn (l.zip (l.map f)) x = if x ∈ l then f x else 0 := by
  induction l with
  | nil => simp [Cad.multIn]
  | cons y l ih =>
    rw [List.map_cons, List.zip_cons_cons]
    unfold Cad.multIn at ih ⊢
    rw [List.find?_cons]
    by_cases h : y = x
    · subst h; simp
    · have h' : x ≠ y := fun e => h e.symm
      simp [h, h', ih]

/-- the number of copies of a value to insert: what is missing to the largest multiplicity -/
theorem mergeVals_count [IsStrictOrderedRing K] (bs : Fin m → List (K × ℤ)) (i : Fin m) (x : K) :
    ((Cad.mergeVals bs i).count x : ℤ) =
      max 0 ((List.ofFn (fun j => Cad.multIn (bs j) x)).foldl max 0 - Cad.multIn (bs i) x) := by
  unfold Cad.mergeVals
  dsimp only
  rw [count_flatMap_replicate ((npUnique_lt _).imp (fun h => h.ne))]
  split_ifs with h
  · omega
  · have h0 : ∀ j, Cad.multIn (bs j) x = 0 := by
      intro j
      apply multIn_not_mem
      intro hc
      apply h
      rw [mem_npUnique, List.mem_flatten]
      exact ⟨_, List.mem_ofFn.mpr ⟨j, rfl⟩, hc⟩
    have hs : (List.ofFn (fun j => Cad.multIn (bs j) x)).foldl max 0 = 0 := by
      rcases (foldl_max_spec (List.ofFn (fun j => Cad.multIn (bs j) x)) 0).1 with e | e
      · exact e
      · obtain ⟨j, hj⟩ := List.mem_ofFn.mp e
        rw [← hj]; exact h0 j
    rw [hs, h0]
    simp

theorem inner_mem {l : List K} (hl : l.Pairwise (· < ·)) {a b : K} (hab : a < b) (ha : a ∈ l) (hb : b ∈ l)
    (h1 : ∀ y ∈ l, a ≤ y) (h2 : ∀ y ∈ l, y ≤ b) (x : K) : x ∈ Cad.inner l ↔ x ∈ l ∧ a < x ∧ x < b := by
  cases l with
  | nil => simp at ha
  | cons y l =>
    have hy : y = a := by
      rcases List.mem_cons.mp ha with e | e
      · exact e.symm
      · exact le_antisymm ((List.pairwise_cons.mp hl).1 a e).le (h1 y List.mem_cons_self)
    subst hy
    have hb' : b ∈ l := by
      rcases List.mem_cons.mp hb with e | e
      · exact absurd e.symm hab.ne
      · exact e
    have hlt := (List.pairwise_cons.mp hl).1
    have hl' := (List.pairwise_cons.mp hl).2
    unfold Cad.inner
    rw [List.tail_cons]
    have hne : l ≠ [] := List.ne_nil_of_mem hb'
    have hlast : l.getLast hne = b := by
      refine le_antisymm (h2 _ (List.mem_cons_of_mem _ (List.getLast_mem hne))) ?_
      rw [← List.dropLast_append_getLast hne] at hl' hb'
      rcases List.mem_append.mp hb' with e | e
      · exact ((List.pairwise_append.mp hl').2.2 b e _ (by simp)).le
      · rw [List.mem_singleton] at e; rw [← e]
    have hsplit := List.dropLast_append_getLast hne
    rw [hlast] at hsplit
    have hl2 := hl'
    rw [← hsplit] at hl2
    constructor
    · intro hx
      refine ⟨List.mem_cons_of_mem _ (List.mem_of_mem_dropLast hx), hlt x (List.mem_of_mem_dropLast hx), ?_⟩
      exact (List.pairwise_append.mp hl2).2.2 x hx b (by simp)
    · rintro ⟨hx, hx1, hx2⟩
      rcases List.mem_cons.mp hx with e | e
      · exact absurd e hx1.ne'
      · rw [← hsplit] at e
        rcases List.mem_append.mp e with e | e
        · exact e
        · rw [List.mem_singleton] at e; exact absurd e hx2.ne

theorem inner_map {α β : Type} (f : α → β) (l : List α) : Cad.inner (l.map f) = (Cad.inner l).map f := by
  unfold Cad.inner
  rw [List.map_dropLast, List.map_tail]

/-- a knot strictly inside the domain has its index inside `p..n+1` -/
theorem mult_pos_iff {n p : ℤ} {U : ℤ → K} (hv : ValidKnots n p U) {x : K} (h1 : U p < x) (h2 : x < U (n + 1)) :
    0 < mult U 0 (n + p + 1) x ↔ ∃ k, p ≤ k ∧ k ≤ n + 1 ∧ U k = x := by
  have := hv.one_le
  have := hv.le
  unfold mult
  rw [Finset.card_pos]
  constructor
  · rintro ⟨k, hk⟩
    simp only [Finset.mem_filter, Finset.mem_Icc] at hk
    refine ⟨k, ?_, ?_, hk.2⟩
    · by_contra hc
      have := hv.sorted k p hk.1.1 (by omega) (by omega)
      rw [hk.2] at this; exact absurd h1 (not_lt.mpr this)
    · by_contra hc
      have := hv.sorted (n + 1) k (by omega) (by omega) hk.1.2
      rw [hk.2] at this; exact absurd h2 (not_lt.mpr this)
  · rintro ⟨k, a, b, c⟩
    exact ⟨k, by simp only [Finset.mem_filter, Finset.mem_Icc]; exact ⟨by omega, c⟩⟩

theorem innerBreaks_ok [IsStrictOrderedRing K] {eps : K} (heps : 0 < eps) {N : Fin m → Nrb K d} {a : Fin d} (hv : ∀ i, (N i).Valid)
    (hs : ∀ i, (N i).SepBoth eps a) :
    ∃ bs, Cad.innerBreaks eps N a = .ok bs ∧
      ∀ i x, Cad.multIn (bs i) x = if (N i).lo a < x ∧ x < (N i).hi a then ((N i).multOf a x : ℤ) else 0 := by
  have h : ∀ i, ∃ l, (N i).breakMults eps (a : ℤ) = .ok (l, l.map (breakMult (N i) a)) ∧
      l.Pairwise (· < ·) ∧ ∀ x, x ∈ l ↔ ∃ k, (N i).degree a ≤ k ∧ k ≤ (N i).n a + 1 ∧ (N i).U a k = x := by
    intro i
    obtain ⟨l, e1, e2⟩ := C32_breaks_mults heps (hv i) (normAxis_self a) (hs i).1 (hs i).2
    obtain ⟨l', f1, f2, f3⟩ := C32_breaks (N i) (normAxis_self a)
    rw [e1] at f1
    have := Except.ok.inj f1
    subst this
    exact ⟨l, e2, f2, f3⟩
  choose l h1 h2 h3 using h
  refine ⟨fun i => (Cad.inner (l i)).zip ((Cad.inner (l i)).map (breakMult (N i) a)), ?_, ?_⟩
  · unfold Cad.innerBreaks
    apply seqFin_ok
    intro i
    rw [h1, res_ok_bind, res_pure, inner_map]
  · intro i x
    have hk := hv i a
    have hp1 := hk.one_le
    have hle := hk.le
    have hlt := Nrb.lo_lt_hi (hv i) a
    have hin := inner_mem (h2 i) hlt ((h3 i _).mpr ⟨(N i).degree a, le_rfl, by omega, rfl⟩)
      ((h3 i _).mpr ⟨(N i).n a + 1, by omega, le_rfl, ((N i).hi_eq a).symm⟩) ?_ ?_ x
    · rw [multIn_zip]
      by_cases hx : (N i).lo a < x ∧ x < (N i).hi a
      · rw [if_pos hx]
        have hb : breakMult (N i) a x = (N i).multOf a x := by unfold breakMult; rw [if_pos hx]
        by_cases hm : x ∈ l i
        · rw [if_pos (hin.mpr ⟨hm, hx⟩), hb]
        · rw [if_neg (fun h => hm (hin.mp h).1)]
          have := mt (mult_pos_iff hk (by rw [← (N i).lo_eq]; exact hx.1) (by rw [← (N i).hi_eq]; exact hx.2)).mp
            (fun h => hm ((h3 i x).mpr h))
          rw [← Nrb.multOf_eq] at this
          have h0 : (N i).multOf a x = 0 := by omega
          rw [h0]; rfl
      · rw [if_neg hx, if_neg (fun h => hx (hin.mp h).2)]
    · intro y hy
      obtain ⟨k, a1, a2, rfl⟩ := (h3 i y).mp hy
      exact hk.sorted _ _ (by omega) a1 (by omega)
    · intro y hy
      obtain ⟨k, a1, a2, rfl⟩ := (h3 i y).mp hy
      rw [(N i).hi_eq]
      exact hk.sorted _ _ (by omega) a2 (by omega)

end Igakit
