import Verif.Props.Data

/-! # C58: sections commute with each other and with refinement -/

set_option linter.unusedSectionVars false

namespace Igakit
open Spec

variable {K : Type} [Field K] [LinearOrder K] [IsStrictOrderedRing K] {d : ℕ}

/-- `extract(axis, u)` gives the section at `u` (C11) -/
structure Nrb.CanExtract (N : Nrb K d) (eps : K) (a : Fin d) (u : K) : Prop where
  lo : N.lo a ≤ u
  hi : u ≤ N.hi a
  sep : N.Sep eps a u
  mult : u < N.hi a → (N.multOf a u : ℤ) ≤ N.degree a + 1
  right : u = N.hi a → N.multOf a u = 1 ∨ N.degree a ≤ N.multOf a u

theorem extract_section {eps : K} (heps : 0 < eps) (je : ℤ → (Fin d → ℤ) → ℕ → K) {N : Nrb K (d + 1)} (hv : N.Valid)
    {a : Fin (d + 1)} {u : K} (h : N.CanExtract eps a u) :
    ∃ N', N.extract eps je ((a : ℕ) : ℤ) u = .ok N' ∧ N'.Valid ∧ N.IsSection a u N' :=
  C11_extract heps je hv (normAxis_self a) h.lo h.hi h.sep h.mult h.right

namespace Nrb.IsSection
variable {N : Nrb K (d + 1)} {a : Fin (d + 1)} {u : K} {N' : Nrb K d}

theorem degree (h : N.IsSection a u N') (b : Fin d) : N'.degree b = N.degree (a.succAbove b) := by
  unfold Nrb.degree; rw [h.shape, h.len]
theorem n (h : N.IsSection a u N') (b : Fin d) : N'.n b = N.n (a.succAbove b) := by
  unfold Nrb.n; rw [h.shape]
theorem lo (h : N.IsSection a u N') (b : Fin d) : N'.lo b = N.lo (a.succAbove b) := by
  rw [Nrb.lo_eq, Nrb.lo_eq, h.U, h.degree]
theorem hi (h : N.IsSection a u N') (b : Fin d) : N'.hi b = N.hi (a.succAbove b) := by
  rw [Nrb.hi_eq, Nrb.hi_eq, h.U, h.n]
theorem knots (h : N.IsSection a u N') (b : Fin d) : N'.knots b = N.knots (a.succAbove b) := by
  unfold Nrb.knots; rw [h.U, h.len]
theorem multOf (h : N.IsSection a u N') (b : Fin d) (x : K) : N'.multOf b x = N.multOf (a.succAbove b) x := by
  unfold Nrb.multOf; rw [h.U, h.len]
theorem sep (h : N.IsSection a u N') {eps : K} {b : Fin d} {x : K} (hs : N.Sep eps (a.succAbove b) x) : N'.Sep eps b x := by
  unfold Nrb.Sep at hs ⊢; rw [h.U, h.len]; exact hs
theorem inner (h : N.IsSection a u N') {b : Fin d} (hm : N.InnerMult (a.succAbove b)) : N'.InnerMult b := by
  intro x h1 h2
  rw [h.multOf, h.degree]
  exact hm x (by rw [← h.lo]; exact h1) (by rw [← h.hi]; exact h2)
theorem canExtract (h : N.IsSection a u N') {eps : K} {b : Fin d} {v : K} (hc : N.CanExtract eps (a.succAbove b) v) :
    N'.CanExtract eps b v :=
  ⟨by rw [h.lo]; exact hc.lo, by rw [h.hi]; exact hc.hi, h.sep hc.sep, by rw [h.hi, h.multOf, h.degree]; exact hc.mult,
    by rw [h.hi, h.multOf, h.degree]; exact hc.right⟩
theorem inDom (h : N.IsSection a u N') {y : Fin d → K} (hu : N.lo a ≤ u ∧ u ≤ N.hi a) :
    N'.InDom y ↔ N.InDom (a.insertNth u y) := by
  constructor
  · intro hy b
    rcases eq_or_ne b a with rfl | hb
    · rw [Fin.insertNth_apply_same]; exact hu
    · obtain ⟨c, rfl⟩ := Fin.exists_succAbove_eq hb
      rw [Fin.insertNth_apply_succAbove, ← h.lo, ← h.hi]
      exact hy c
  · intro hy b
    have := hy (a.succAbove b)
    rw [Fin.insertNth_apply_succAbove, ← h.lo, ← h.hi] at this
    exact this
theorem canAdd (h : N.IsSection a u N') {eps : K} {b : Fin d} {V : Multiset K} (hc : N.CanAdd eps (a.succAbove b) V) :
    N'.CanAdd eps b V :=
  ⟨fun x hx => by rw [h.lo]; exact hc.lo x hx, fun x hx => by rw [h.hi]; exact hc.hi x hx, fun x hx => h.sep (hc.sep x hx),
    hc.apart, fun x hx => by rw [h.multOf, h.degree]; exact hc.mult x hx⟩
end Nrb.IsSection

/-! ## two sections -/

theorem succAbove_swap {a b : Fin (d + 2)} {a' b' : Fin (d + 1)} (hb : a.succAbove b' = b) (ha : b.succAbove a' = a)
    (c : Fin d) : a.succAbove (b'.succAbove c) = b.succAbove (a'.succAbove c) := by
  subst hb
  simp only [Fin.succAbove, Fin.lt_def, Fin.ext_iff, Fin.val_castSucc] at ha ⊢
  split_ifs at ha ⊢ <;> simp at * <;> omega

theorem insertNth_swap {α : Type*} {a b : Fin (d + 2)} {a' b' : Fin (d + 1)} (hb : a.succAbove b' = b) (ha : b.succAbove a' = a)
    (u v : α) (y : Fin d → α) :
    (a.insertNth u (b'.insertNth v y : Fin (d + 1) → α) : Fin (d + 2) → α) = b.insertNth v (a'.insertNth u y : Fin (d + 1) → α) := by
  funext c
  by_cases hca : c = a
  · subst hca
    rw [Fin.insertNth_apply_same, ← ha, Fin.insertNth_apply_succAbove, Fin.insertNth_apply_same]
  · obtain ⟨e, rfl⟩ := Fin.exists_succAbove_eq hca
    rw [Fin.insertNth_apply_succAbove]
    by_cases heb : e = b'
    · subst heb
      rw [Fin.insertNth_apply_same, hb, Fin.insertNth_apply_same]
    · obtain ⟨f, rfl⟩ := Fin.exists_succAbove_eq heb
      rw [Fin.insertNth_apply_succAbove, succAbove_swap hb ha, Fin.insertNth_apply_succAbove, Fin.insertNth_apply_succAbove]

/-- C58: fixing two parameters gives the same object in either order -/
theorem C58_sections {eps : K} (heps : 0 < eps) (je je' : ℤ → (Fin (d + 1) → ℤ) → ℕ → K) (jf jf' : ℤ → (Fin d → ℤ) → ℕ → K)
    {N : Nrb K (d + 2)} (hv : N.Valid) (hm : ∀ a, N.InnerMult a) {a b : Fin (d + 2)} {a' b' : Fin (d + 1)}
    (hb : a.succAbove b' = b) (ha : b.succAbove a' = a) {u v : K} (hu : N.CanExtract eps a u) (hw : N.CanExtract eps b v) :
    ∃ A B X Y, N.extract eps je ((a : ℕ) : ℤ) u = .ok A ∧ A.extract eps jf ((b' : ℕ) : ℤ) v = .ok X ∧
      N.extract eps je' ((b : ℕ) : ℤ) v = .ok B ∧ B.extract eps jf' ((a' : ℕ) : ℤ) u = .ok Y ∧ X.SameData Y := by
  obtain ⟨A, A1, A2, A3⟩ := extract_section heps je hv hu
  obtain ⟨B, B1, B2, B3⟩ := extract_section heps je' hv hw
  obtain ⟨X, X1, X2, X3⟩ := extract_section heps jf A2 (A3.canExtract (b := b') (v := v) (by rw [hb]; exact hw))
  obtain ⟨Y, Y1, Y2, Y3⟩ := extract_section heps jf' B2 (B3.canExtract (b := a') (v := u) (by rw [ha]; exact hu))
  have hidx := succAbove_swap hb ha
  refine ⟨A, B, X, Y, A1, X1, B1, Y1, sameData_of_map X2 (fun c => X3.inner (A3.inner (hm _))) ⟨?_, ?_, ?_⟩ ?_ ?_⟩
  · funext c; rw [X3.shape, A3.shape, Y3.shape, B3.shape, hidx]
  · funext c; rw [X3.len, A3.len, Y3.len, B3.len, hidx]
  · intro c j _ _; rw [X3.U, A3.U, Y3.U, B3.U, hidx]
  · rw [X3.nc, A3.nc, Y3.nc, B3.nc]
  · intro y _
    rw [X3.eval, A3.eval, Y3.eval, B3.eval, insertNth_swap hb ha]

/-! ## refinement -/

theorem canExtract_after {N N' : Nrb K d} {eps : K} {a : Fin d} {V : Fin d → Multiset K} {u : K} (h : N.Added N' V)
    (hc : N.CanAdd eps a (V a)) (hu : N.CanExtract eps a u) (hap : ∀ x ∈ V a, x = u ∨ eps ≤ |x - u|) : N'.CanExtract eps a u := by
  have hmul : N'.multOf a u = N.multOf a u + (V a).count u := by
    rw [multOf_eq_count, multOf_eq_count, h.knots, Multiset.count_add]
  refine ⟨by rw [h.map.lo]; exact hu.lo, by rw [h.map.hi]; exact hu.hi, ?_, ?_, ?_⟩
  · rw [sep_iff]
    intro y hy
    rw [h.knots, Multiset.mem_add] at hy
    rcases hy with hy | hy
    · exact sep_iff.1 hu.sep y hy
    · rw [abs_sub_comm]; exact hap y hy
  · rw [h.map.hi, h.map.degree, hmul]
    intro hlt
    by_cases hx : u ∈ V a
    · have := hc.mult u hx
      omega
    · rw [Multiset.count_eq_zero.2 hx]
      exact hu.mult hlt
  · rw [h.map.hi, h.map.degree, hmul]
    intro he
    have : u ∉ V a := fun hx => absurd (hc.hi u hx) (by rw [he]; exact lt_irrefl _)
    rw [Multiset.count_eq_zero.2 this]
    exact hu.right he

/-- C58: the section of a refined object is the refined section.  The object is refined by any `insert` and `refine` calls `p`,
its section by any calls `q` that add the same knots to the remaining axes. -/
theorem C58_refine {env : Env K} (heps : 0 < env.eps) (je je' : ℤ → (Fin d → ℤ) → ℕ → K) {N : Nrb K (d + 1)} (hv : N.Valid)
    (hm : ∀ a, N.InnerMult a) {a : Fin (d + 1)} {u : K} (hu : N.CanExtract env.eps a u) {p q : List (Call K)}
    (hp : ∀ c ∈ p, c.2.Refines (d + 1)) (hq : ∀ c ∈ q, c.2.Refines d) (hc : ∀ b, N.CanAdd env.eps b (addedAll b p))
    (hap : ∀ x ∈ addedAll a p, x = u ∨ env.eps ≤ |x - u|)
    (hpq : ∀ b : Fin d, addedAll b q = addedAll (a.succAbove b) p) :
    ∃ X Y, N.extract env.eps je ((a : ℕ) : ℤ) u = .ok X ∧ (history env N p).extract env.eps je' ((a : ℕ) : ℤ) u = .ok Y ∧
      (history env X q).SameData Y := by
  obtain ⟨h1, i1⟩ := added_history heps p hv hm hp hc
  obtain ⟨X, X1, X2, X3⟩ := extract_section heps je hv hu
  obtain ⟨Y, Y1, Y2, Y3⟩ := extract_section heps je' h1.valid (canExtract_after h1 (hc a) hu hap)
  obtain ⟨h2, i2⟩ := added_history heps q X2 (fun b => X3.inner (hm _)) hq (fun b => X3.canAdd (by rw [hpq]; exact hc _))
  refine ⟨X, Y, X1, Y1, sameData_of_map h2.valid i2 (sameKnots_of h2.valid Y2 ?_ fun b => ?_) ?_ fun y hy => ?_⟩
  · funext b; rw [Y3.shape, h1.shape, h2.shape, X3.shape, hpq]
  · rw [Y3.knots, h1.knots, h2.knots, X3.knots, hpq]
  · rw [Y3.nc, h1.map.nc, h2.map.nc, X3.nc]
  · have hy' : X.InDom y := fun b => by rw [← h2.map.lo, ← h2.map.hi]; exact hy b
    rw [Y3.eval, h2.map.eval y hy', X3.eval, h1.map.eval _ ((X3.inDom ⟨hu.lo, hu.hi⟩).1 hy')]

theorem elevated_inner {N N' : Nrb K d} {a : Fin d} {t : ℕ} (hv : N.Valid) (h : N.Elevated N' a t) (hm : ∀ b, N.InnerMult b)
    (b : Fin d) : N'.InnerMult b := by
  intro x h1 h2
  rw [h.lo] at h1
  rw [h.hi] at h2
  have := hm b x h1 h2
  rw [h.degree]
  by_cases hb : b = a
  · subst hb
    rw [if_pos rfl, multOf_eq_count, h.knots]
    rw [multOf_eq_count] at this
    split
    · push_cast; omega
    · push_cast; omega
  · rw [if_neg hb, add_zero]
    have hl : N'.len b = N.len b := len_of_degree (by rw [h.degree, if_neg hb, add_zero]) (h.others b hb).2
    unfold Nrb.multOf at this ⊢
    rw [hl, (h.others b hb).1]
    exact this

/-- C58: the section of an object elevated along another axis is the elevated section -/
theorem C58_elevate {eps : K} (heps : 0 < eps) (jk jk' : ℤ → K) (je : ℤ → (Fin (d + 1) → ℤ) → ℕ → K)
    (jf : ℤ → (Fin d → ℤ) → ℕ → K) (jg jg' : ℤ → (Fin (d + 1) → ℤ) → ℕ → K) (jb jb' : ℤ → ℤ → K) {N : Nrb K (d + 2)}
    (hv : N.Valid) (hm : ∀ a, N.InnerMult a) {a b : Fin (d + 2)} {b' : Fin (d + 1)} (hb : a.succAbove b' = b) {u : K}
    (hu : N.CanExtract eps a u) (hE : N.Elevatable eps b) (t : ℕ)
    (hj : N.degree b ≤ 9 ∨ NoJump (N.n b) (N.degree b) t (N.U b)) :
    ∃ N' X X' Y, N.elevate eps jk je jb ((b : ℕ) : ℤ) (some t) = .ok N' ∧ N'.extract eps jg ((a : ℕ) : ℤ) u = .ok Y ∧
      N.extract eps jg' ((a : ℕ) : ℤ) u = .ok X ∧ X.elevate eps jk' jf jb' ((b' : ℕ) : ℤ) (some t) = .ok X' ∧
      X'.SameData Y := by
  subst hb
  obtain ⟨N', e1, e2, e3, -, -⟩ := C16_elevate_partial heps.le jk je jb hv (normAxis_self (a.succAbove b')) hE t hj
  obtain ⟨X, X1, X2, X3⟩ := extract_section heps jg' hv hu
  have hab : a ≠ a.succAbove b' := (Fin.succAbove_ne a b').symm
  have hUa := e3.others a hab
  have hla : N'.len a = N.len a := len_of_degree (by rw [e3.degree, if_neg hab, add_zero]) hUa.2
  have hda : N'.degree a = N.degree a := by rw [e3.degree, if_neg hab, add_zero]
  have hma : ∀ x, N'.multOf a x = N.multOf a x := fun x => by unfold Nrb.multOf; rw [hla, hUa.1]
  have hu' : N'.CanExtract eps a u := by
    refine ⟨by rw [e3.lo]; exact hu.lo, by rw [e3.hi]; exact hu.hi, ?_, ?_, ?_⟩
    · have := hu.sep
      unfold Nrb.Sep at this ⊢
      rw [hla, hUa.1]
      exact this
    · rw [e3.hi, hma, hda]; exact hu.mult
    · rw [e3.hi, hma, hda]; exact hu.right
  obtain ⟨Y, Y1, Y2, Y3⟩ := extract_section heps jg e2 hu'
  have hEX : X.Elevatable eps b' := by
    obtain ⟨q1, q2, q3, q4⟩ := hE
    refine ⟨?_, ?_, ?_, ?_⟩
    · rw [X3.degree, X3.U]; exact q1
    · rw [X3.degree, X3.U, X3.n]; exact q2
    · rw [X3.degree, X3.U, X3.n]; exact q3
    · rw [X3.degree, X3.U, X3.n]; exact q4
  obtain ⟨X', f1, f2, f3, -, -⟩ := C16_elevate_partial heps.le jk' jf jb' X2 (normAxis_self b') hEX t
    (by rw [X3.degree, X3.U, X3.n]; exact hj)
  have hk : ∀ c, Y.knots c = X'.knots c := by
    intro c
    rw [Y3.knots]
    by_cases hc : c = b'
    · subst hc
      ext x
      rw [e3.knots, f3.knots, X3.knots]
    · have hc' : a.succAbove c ≠ a.succAbove b' := fun h => hc (Fin.succAbove_right_injective h)
      have l1 : N'.len (a.succAbove c) = N.len (a.succAbove c) :=
        len_of_degree (by rw [e3.degree, if_neg hc', add_zero]) (e3.others _ hc').2
      have l2 : X'.len c = X.len c := len_of_degree (by rw [f3.degree, if_neg hc, add_zero]) (f3.others _ hc).2
      unfold Nrb.knots
      rw [(e3.others _ hc').1, (f3.others _ hc).1, l1, l2, X3.U, X3.len]
  have hl : ∀ c, Y.len c = X'.len c := fun c => (knots_unique f2 Y2 (hk c)).1
  have hs : Y.shape = X'.shape := by
    funext c
    have h1 := f3.degree c
    have h2 := Y3.degree c
    have h3 := e3.degree (a.succAbove c)
    have h4 := X3.degree c
    have h5 := hl c
    simp only [Fin.succAbove_right_inj] at h3
    unfold Nrb.degree at h1 h2 h3 h4
    omega
  refine ⟨N', X, X', Y, e1, Y1, X1, f1, sameData_of_map f2 (fun c => elevated_inner X2 f3 (fun c => X3.inner (hm _)) c)
    (sameKnots_of f2 Y2 hs hk) ?_ fun y hy => ?_⟩
  · rw [Y3.nc, e3.nc, f3.nc, X3.nc]
  · have hy' : X.InDom y := fun c => by rw [← f3.lo, ← f3.hi]; exact hy c
    rw [Y3.eval, f3.eval y hy', X3.eval, e3.eval _ ((X3.inDom ⟨hu.lo, hu.hi⟩).1 hy')]

/-- C58: two objects that have a common face still have one after both are refined, if the same knots are added along the
face.  (The refinement across the face is free.) -/
theorem C58_conform {env : Env K} (heps : 0 < env.eps) (je je' jf jf' : ℤ → (Fin d → ℤ) → ℕ → K) {N M : Nrb K (d + 1)}
    (hv : N.Valid) (hv' : M.Valid) (hm : ∀ a, N.InnerMult a) (hm' : ∀ a, M.InnerMult a) {a b : Fin (d + 1)} {u v : K}
    (hu : N.CanExtract env.eps a u) (hw : M.CanExtract env.eps b v) {p q : List (Call K)}
    (hp : ∀ c ∈ p, c.2.Refines (d + 1)) (hq : ∀ c ∈ q, c.2.Refines (d + 1))
    (hc : ∀ c, N.CanAdd env.eps c (addedAll c p)) (hc' : ∀ c, M.CanAdd env.eps c (addedAll c q))
    (hap : ∀ x ∈ addedAll a p, x = u ∨ env.eps ≤ |x - u|) (haq : ∀ x ∈ addedAll b q, x = v ∨ env.eps ≤ |x - v|)
    (hpq : ∀ c : Fin d, addedAll (a.succAbove c) p = addedAll (b.succAbove c) q)
    {X X' : Nrb K d} (hX : N.extract env.eps je ((a : ℕ) : ℤ) u = .ok X) (hX' : M.extract env.eps je' ((b : ℕ) : ℤ) v = .ok X')
    (hface : X.SameData X') :
    ∃ Y Y', (history env N p).extract env.eps jf ((a : ℕ) : ℤ) u = .ok Y ∧
      (history env M q).extract env.eps jf' ((b : ℕ) : ℤ) v = .ok Y' ∧ Y.SameData Y' := by
  obtain ⟨h1, i1⟩ := added_history heps p hv hm hp hc
  obtain ⟨h2, i2⟩ := added_history heps q hv' hm' hq hc'
  obtain ⟨Y, Y1, Y2, Y3⟩ := extract_section heps jf h1.valid (canExtract_after h1 (hc a) hu hap)
  obtain ⟨Y', Y1', Y2', Y3'⟩ := extract_section heps jf' h2.valid (canExtract_after h2 (hc' b) hw haq)
  obtain ⟨Z, Z1, Z2, Z3⟩ := extract_section heps je hv hu
  obtain ⟨Z', Z1', Z2', Z3'⟩ := extract_section heps je' hv' hw
  obtain rfl := Except.ok.inj (Z1.symm.trans hX)
  obtain rfl := Except.ok.inj (Z1'.symm.trans hX')
  refine ⟨Y, Y', Y1, Y1', sameData_of_map Y2 (fun c => Y3.inner (i1 _)) (sameKnots_of Y2 Y2' ?_ fun c => ?_) ?_ fun y hy => ?_⟩
  · funext c
    have := congrFun hface.shape c
    rw [Z3.shape, Z3'.shape] at this
    rw [Y3.shape, Y3'.shape, h1.shape, h2.shape, hpq, this]
  · have := hface.knotMS c
    rw [Z3.knots, Z3'.knots] at this
    rw [Y3.knots, Y3'.knots, h1.knots, h2.knots, hpq, this]
  · have := hface.nc
    rw [Z3.nc, Z3'.nc] at this
    rw [Y3.nc, Y3'.nc, h1.map.nc, h2.map.nc, this]
  · have hz : Z.InDom y := fun c => by
      have := hy c
      rw [Y3.lo, Y3.hi, h1.map.lo, h1.map.hi, ← Z3.lo, ← Z3.hi] at this
      exact this
    have hz' : Z'.InDom y := (hface.inDom Z2).2 hz
    rw [Y3.eval, Y3'.eval, h1.map.eval _ ((Z3.inDom ⟨hu.lo, hu.hi⟩).1 hz), h2.map.eval _ ((Z3'.inDom ⟨hw.lo, hw.hi⟩).1 hz'),
      ← Z3.eval, ← Z3'.eval, hface.eval Z2]

end Igakit
