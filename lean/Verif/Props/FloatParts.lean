import Verif.Proofs.FloatTrack
import Verif.Props.FloatRefine
import Verif.Props.Param

/-!
# Property C91: sections, boundaries, parts and clamping in floating point, and any history of them

Knots are copied exactly.  Extracting at a knot of multiplicity `s`, slicing and clamping combine control points as often as knots
are missing for full multiplicity; a clamped boundary is copied without any error.  The errors of a history over objects of
different dimensions add up.
-/

set_option linter.unusedSectionVars false

namespace Igakit
open Spec

variable {K : Type} [Field K] [LinearOrder K] [IsStrictOrderedRing K] {d : ℕ}

/-! ## one call -/

theorem eval_dist {N : Nrb K d} (hv : N.Valid) {x : Fin d → K} (hx : N.InDom x) {P' : (Fin d → ℤ) → ℕ → K} {c : ℕ} {e : K}
    (h : ∀ idx, (∀ a, 0 ≤ idx a ∧ idx a ≤ N.n a) → |P' idx c - N.P idx c| ≤ e) :
    |({ N with P := P' } : Nrb K d).eval x c - N.eval x c| ≤ e := by
  rw [Nrb.eval_apply, Nrb.eval_apply]
  show |(∑ idx ∈ Fintype.piFinset (fun a => Finset.Icc 0 (N.n a)), N.wt x idx * P' idx c) -
    ∑ idx ∈ Fintype.piFinset (fun a => Finset.Icc 0 (N.n a)), N.wt x idx * N.P idx c| ≤ e
  rw [← Finset.sum_sub_distrib]
  calc _ ≤ ∑ idx ∈ Fintype.piFinset (fun a => Finset.Icc 0 (N.n a)), N.wt x idx * e := by
        refine (Finset.abs_sum_le_sum_abs _ _).trans (Finset.sum_le_sum fun idx hi => ?_)
        have hi : ∀ a, 0 ≤ idx a ∧ idx a ≤ N.n a := fun a => Finset.mem_Icc.mp (Fintype.mem_piFinset.mp hi a)
        have hb := Nrb.wt_nonneg hv hx hi
        rw [← mul_sub, abs_mul, abs_of_nonneg hb]
        exact mul_le_mul_of_nonneg_left (h idx hi) hb
    _ = e := by rw [← Finset.sum_mul, Nrb.wt_sum hv hx, one_mul]

/-- a section whose control points are those of the exact one up to rounding -/
theorem near_section {δ : K} (h0 : 0 ≤ δ) (hδ : δ < 1) {k : ℕ} {N : Nrb K (d + 1)} (hv : N.Valid) {a : Fin (d + 1)} {u : K}
    (h1 : N.lo a ≤ u) (h2 : u ≤ N.hi a) {Cw : (Fin d → ℤ) × ℕ → Fp K}
    (h : Tracks δ k (N.n a) 0 (fun i (c : (Fin d → ℤ) × ℕ) => N.row a i c.1 c.2) (fun _ => Cw)
      (fun _ => curve (N.n a) (N.degree a).toNat (N.U a) (fun i (c : (Fin d → ℤ) × ℕ) => N.row a i c.1 c.2) u)) :
    ∃ N' : Nrb K d, FNrb.Is
      { shape := a.removeNth N.shape, nc := N.nc, len := a.removeNth N.len, U := a.removeNth N.U,
        P := fun idx c => Cw (idx, c) } N' ∧ N.NearOn δ k (a.insertNth (α := fun _ => K) u) N' := by
  set S : Nrb K d :=
      { shape := a.removeNth N.shape, nc := N.nc, len := a.removeNth N.len, U := a.removeNth N.U,
        P := curve (N.n a) (N.degree a).toNat (N.U a) (N.row a) u } with hS
  have hsec : N.IsSection a u S := isSection_of
  have hSv := isSection_valid hv hsec
  have hPS : ∀ idx c, S.P idx c =
      curve (N.n a) (N.degree a).toNat (N.U a) (fun i (c : (Fin d → ℤ) × ℕ) => N.row a i c.1 c.2) u (idx, c) := by
    intro idx c
    show curve (N.n a) (N.degree a).toNat (N.U a) (N.row a) u idx c = _
    unfold curve
    rw [Finset.sum_apply, Finset.sum_apply, Finset.sum_apply]
    rfl
  have hrow : ∀ {c : ℕ} {R : K → Prop}, (∀ idx, (∀ b, 0 ≤ idx b ∧ idx b < N.shape b) → R (N.P idx c)) →
      ∀ idx : Fin d → ℤ, (∀ b, 0 ≤ idx b ∧ idx b < a.removeNth N.shape b) → ∀ i, 0 ≤ i → i ≤ N.n a → R (N.row a i idx c) := by
    intro c R hR idx hi i i0 i1
    refine hR _ (fun b => ?_)
    rcases Fin.eq_self_or_eq_succAbove a b with rfl | ⟨j, rfl⟩
    · rw [Fin.insertNth_apply_same]
      unfold Nrb.n at i1
      omega
    · rw [Fin.insertNth_apply_succAbove]; exact hi j
  have hsum : ∀ c, ∀ idx : Fin d → ℤ, ∀ i, 0 ≤ i → i ≤ N.n a → |N.row a i idx c| ≤ ∑ i ∈ Finset.Icc 0 (N.n a), |N.row a i idx c| :=
    fun c idx i i0 i1 => Finset.single_le_sum (f := fun i => |N.row a i idx c|) (fun _ _ => abs_nonneg _) (Finset.mem_Icc.mpr ⟨i0, i1⟩)
  refine ⟨{ S with P := fun idx c => (Cw (idx, c)).getD 0 }, ⟨rfl, rfl, rfl, rfl, fun idx hi c => ?_⟩, hSv, rfl, fun x hx b => ?_, fun c A hA idx hi => ?_,
    fun c A hA x hx => ?_, fun c l u' hl hb idx hi => ?_⟩
  · obtain ⟨y, q1, -, -⟩ := h.err (idx, c) _ (hsum c idx) 0 le_rfl le_rfl
    dsimp only at q1 ⊢
    rw [q1]
    rfl
  · rcases Fin.eq_self_or_eq_succAbove a b with rfl | ⟨j, rfl⟩
    · rw [Fin.insertNth_apply_same]; exact ⟨h1, h2⟩
    · rw [Fin.insertNth_apply_succAbove]; exact hx j
  · obtain ⟨y, q1, q2, q3⟩ := h.err (idx, c) A (hrow (R := fun y => |y| ≤ A) hA idx hi) 0 le_rfl le_rfl
    dsimp only at q1 ⊢
    rw [q1, Option.getD_some]
    calc |y| = |(y - curve (N.n a) (N.degree a).toNat (N.U a) (fun i (c : (Fin d → ℤ) × ℕ) => N.row a i c.1 c.2) u (idx, c)) +
          curve (N.n a) (N.degree a).toNat (N.U a) (fun i (c : (Fin d → ℤ) × ℕ) => N.row a i c.1 c.2) u (idx, c)| := by ring_nf
      _ ≤ _ := abs_add_le _ _
      _ ≤ (growth δ ^ (8 * k) - 1) * A + A := add_le_add q2 q3
      _ = _ := by ring
  · rw [← hsec.eval x]
    refine eval_dist (N := S) hSv hx (fun idx hi => ?_)
    obtain ⟨y, q1, q2, q3⟩ := h.err (idx, c) A (hrow (R := fun y => |y| ≤ A) hA idx (fun b => by
      have := hi b
      have e : S.n b = a.removeNth N.shape b - 1 := rfl
      omega)) 0 le_rfl le_rfl
    rw [q1, Option.getD_some, hPS]
    exact q2
  · obtain ⟨y, q1, q2, q3⟩ := h.box (idx, c) l u' hl (hrow (R := fun y => l ≤ y ∧ y ≤ u') hb idx hi) 0 le_rfl le_rfl
    have hg : 0 < growth δ ^ (3 * k) := by linarith [Fp.growth_pow h0 hδ (3 * k)]
    dsimp only at q1 ⊢
    rw [q1, Option.getD_some]
    refine ⟨?_, q3⟩
    rw [div_le_iff₀ hg, mul_comm]
    exact q2

/-- C91: `nrb.extract(axis, u)` in floating point is the section at `u`; the number of combinations is the number of knots missing at `u` -/
theorem C91_extract {δ : K} {rd : K → K} (h0 : 0 ≤ δ) (hδ : δ < 1) (hrd : RelErr δ rd) (hmono : Monotone rd)
    (hone : rd 1 = 1) {eps : K} (heps : 0 < eps) (hE : ∀ x, eps ≤ |x| → eps ≤ |rd x|)
    (je : ℤ → (Fin d → ℤ) × ℕ → Fp K) {N : Nrb K (d + 1)} (hv : N.Valid) {axis : ℤ} {a : Fin (d + 1)}
    (ha : normAxis (d + 1) axis = .ok a) {u : K} (h1 : N.lo a ≤ u) (h2 : u ≤ N.hi a)
    (hsep : N.Sep eps a u) (hm : u < N.hi a → (N.multOf a u : ℤ) ≤ N.degree a + 1)
    (hend : u = N.hi a → N.multOf a u = 1 ∨ N.degree a ≤ N.multOf a u) :
    ∃ F N', N.extractF rd eps je axis u = .ok F ∧ F.Is N' ∧
      N.NearOn δ ((N.degree a).toNat - N.multOf a u) (a.insertNth (α := fun _ => K) u) N' ∧
      (∀ b, N'.shape b = N.shape (a.succAbove b)) ∧ (∀ b, N'.len b = N.len (a.succAbove b)) ∧
      ∀ b, N'.U b = N.U (a.succAbove b) := by
  obtain ⟨p, hp, hk, e⟩ := deg_nat hv a
  have hpn : (N.degree a).toNat = p := by omega
  have hle := hk.le
  have hp1 := hk.one_le
  have hz := rd_zero hrd
  unfold Nrb.Sep at hsep
  unfold Nrb.multOf at hm hend ⊢
  rw [e] at hsep hm hend ⊢
  rw [hp] at hm hend
  have h1' : N.U a p ≤ u := by rw [← hp]; exact h1
  have h2' : u ≤ N.U a (N.n a + 1) := by rw [← N.hi_eq]; exact h2
  have hx : BSp.Extract eps (fun _ => (0 : (Fin d → ℤ) × ℕ → K)) (N.n a) p (N.U a) (fun i c => N.row a i c.1 c.2) u =
      .ok (curve (N.n a) p (N.U a) (fun i (c : (Fin d → ℤ) × ℕ) => N.row a i c.1 c.2) u) := by
    rcases h2.eq_or_lt with h | h
    · have := hend h
      rw [N.hi_eq] at h
      subst h
      exact C11_Extract_right heps _ hk _ hsep (by omega)
    · have := hm h
      rw [N.hi_eq] at h
      exact C11_Extract heps _ hk _ h1' h hsep (by omega)
  unfold BSp.Extract at hx
  rw [if_pos (by omega)] at hx
  injection hx with hx
  unfold Nrb.extractF
  rw [ha, res_ok_bind, pyAssert_ok h1, res_ok_bind, pyAssert_ok h2, res_ok_bind]
  unfold Fp.Extract
  rw [if_pos (by omega), res_ok_bind, hp]
  rw [Int.toNat_natCast]
  have htr : Tracks δ (p - mult (N.U a) 0 (N.n a + p + 1) u) (N.n a) 0 (fun i (c : (Fin d → ℤ) × ℕ) => N.row a i c.1 c.2)
      (fun _ => Fp.curvePntByCornerCut rd eps je (N.n a) p (N.U a) (fun i c => N.row a i c.1 c.2) u)
      (fun _ => curve (N.n a) p (N.U a) (fun i (c : (Fin d → ℤ) × ℕ) => N.row a i c.1 c.2) u) := by
    rw [← hx]
    refine tracks_of h0 hδ hrd hmono hone (by omega) (fun Rel r1 r2 c hP i _ _ => ?_)
    refine Fp.cornerCut_rel r1 (fun m u a b xF x yF y ha hb hx hy => r2 m u a b xF x yF y ha hb.le (ha.trans_lt hb) hx hy)
      c heps hz hE je _ hk hP h1' h2' hsep (fun h => ?_) (fun h => ?_)
    · have := hm (by rw [N.hi_eq]; exact h)
      omega
    · have := hend (by rw [N.hi_eq]; exact h)
      omega
  rw [← hpn] at htr
  obtain ⟨N', g1, g2⟩ := near_section h0 hδ hv h1 h2 htr
  rw [hpn] at g1 g2
  exact ⟨_, N', rfl, g1, g2, fun b => congrFun g1.shape.symm b, fun b => congrFun g1.len.symm b, fun b => congrFun g1.U.symm b⟩

/-- C91: `nrb.boundary(axis, side)` in floating point -/
theorem C91_boundary {δ : K} {rd : K → K} (h0 : 0 ≤ δ) (hδ : δ < 1) (hrd : RelErr δ rd) (hmono : Monotone rd)
    (hone : rd 1 = 1) {eps : K} (heps : 0 < eps) (hE : ∀ x, eps ≤ |x| → eps ≤ |rd x|)
    (je : ℤ → (Fin d → ℤ) × ℕ → Fp K) {N : Nrb K (d + 1)} (hv : N.Valid) {axis : ℤ} {a : Fin (d + 1)}
    (ha : normAxis (d + 1) axis = .ok a) {side : ℤ} (hs : side = 0 ∨ side = 1)
    (hsep : N.SepBoth eps a) (hm : (N.multOf a (N.lo a) : ℤ) ≤ N.degree a + 1)
    (hend : N.multOf a (N.hi a) = 1 ∨ N.degree a ≤ N.multOf a (N.hi a)) {u : K} (hu : u = if side = 0 then N.lo a else N.hi a) :
    ∃ F N', N.boundaryF rd eps je axis side = .ok F ∧ F.Is N' ∧
      N.NearOn δ ((N.degree a).toNat - N.multOf a u) (a.insertNth (α := fun _ => K) u) N' ∧
      (∀ b, N'.shape b = N.shape (a.succAbove b)) ∧ (∀ b, N'.len b = N.len (a.succAbove b)) ∧
      ∀ b, N'.U b = N.U (a.succAbove b) := by
  obtain ⟨p, hp, hk, e⟩ := deg_nat hv a
  have hle := hk.le
  have hlt : N.lo a < N.hi a := by
    rw [N.lo_eq, N.hi_eq, hp]
    exact lt_of_le_of_lt (hk.sorted p (N.n a) (by omega) (by omega) (by omega)) hk.last
  unfold Nrb.boundaryF
  rw [pyAssert_ok hs, res_ok_bind, ha, res_ok_bind, ← hu]
  apply C91_extract h0 hδ hrd hmono hone heps hE je hv (normAxis_self a) <;> rw [hu]
  · split_ifs; exacts [le_rfl, hlt.le]
  · split_ifs; exacts [hlt.le, le_rfl]
  · split_ifs; exacts [hsep.1, hsep.2]
  · split_ifs; exacts [fun _ => hm, fun h => absurd h (lt_irrefl _)]
  · split_ifs; exacts [fun h => absurd h hlt.ne, fun _ => hend]

/-- number of knots missing for full multiplicity at the selected ends of axis `a` -/
def Nrb.missing (N : Nrb K d) (a : Fin d) (side : Option ℤ) : ℕ :=
  (if side = some 1 then 0 else (N.degree a).toNat - N.multOf a (N.lo a)) +
  (if side = some 0 then 0 else (N.degree a).toNat - N.multOf a (N.hi a))

/-- C91: `nrb.clamp(axis, side)` in floating point -/
theorem C91_clamp {δ : K} {rd : K → K} (h0 : 0 ≤ δ) (hδ : δ < 1) (hrd : RelErr δ rd) (hmono : Monotone rd)
    (hone : rd 1 = 1) {eps : K} (heps : 0 < eps) (hE : ∀ x, eps ≤ |x| → eps ≤ |rd x|)
    (je : ℤ → (Fin d → ℤ) × ℕ → Fp K) {N : Nrb K (d + 1)} (hv : N.Valid) {axis : ℤ} {a : Fin (d + 1)}
    (ha : normAxis (d + 1) axis = .ok a) {side : Option ℤ}
    (hside : side = none ∨ side = some 0 ∨ side = some 1) (hsep : N.SepBoth eps a) :
    ∃ F N', N.clampF rd eps je axis side = .ok F ∧ F.Is N' ∧ N.NearMap δ (N.missing a side) N' ∧ N'.shape = N.shape ∧
      (selects side 0 → ∀ j, 0 ≤ j → j ≤ N.degree a → N'.U a j = N.lo a) ∧
      (selects side 1 → ∀ j, N.shape a ≤ j → j < N.len a → N'.U a j = N.hi a) ∧
      (∀ j, (¬ selects side 0 ∨ N.degree a ≤ j) → (¬ selects side 1 ∨ j ≤ N.shape a) → N'.U a j = N.U a j) ∧
      ∀ b, b ≠ a → N'.U b = N.U b := by
  obtain ⟨p, hp, hk, e⟩ := deg_nat hv a
  obtain ⟨l, r, hf, hl, hr⟩ := sideFlags_ok hside
  have hz := rd_zero hrd
  have hpn : (N.degree a).toNat = p := by omega
  have hse := sepEnds_of hp e hsep
  obtain ⟨V, Q, g1, g2, g3, g4, g5, g6⟩ := C13_Clamp heps (fun _ => (0 : (Fin d → ℤ) × ℕ → K)) hk hse
    (fun i (c : (Fin d → ℤ) × ℕ) => N.row a i c.1 c.2) l r
  have hle := hk.le
  have hp1 := hk.one_le
  have es : N.shape a - 1 = N.n a := rfl
  have e1 : V p = N.U a p := g5 p (Or.inr le_rfl) (Or.inr (by omega))
  have e2 : V (N.n a + 1) = N.U a (N.n a + 1) := g5 _ (Or.inr (by omega)) (Or.inr (by omega))
  unfold BSp.Clamp at g1
  rw [if_pos (by omega)] at g1
  injection g1 with g1
  have hV : (Fp.clampKnot rd eps je (N.n a) p (N.U a) (fun i c => N.row a i c.1 c.2) l r).1 = V := by
    rw [(Fp.clampKnot_rel (rd := rd) (Rel := fun _ _ _ => True) (fun _ _ _ _ => trivial)
      (fun _ _ _ _ _ _ _ _ _ _ _ _ => trivial) ((fun _ => 0, 0) : (Fin d → ℤ) × ℕ) heps hz hE je (fun _ => 0) hk
      (fun _ _ _ => trivial) hse l r).1, g1]
  have hcost : Fp.clampCost (N.n a) p (N.U a) l r = N.missing a side := by
    unfold Fp.clampCost Nrb.missing Nrb.multOf
    rw [e, hpn, N.hi_eq, N.lo_eq, hp]
    rcases hside with rfl | rfl | rfl <;> cases hf <;> simp
  have htr : Tracks δ (N.missing a side) (N.n a) (N.n a) (fun i (c : (Fin d → ℤ) × ℕ) => N.row a i c.1 c.2)
      (Fp.clampKnot rd eps je (N.n a) p (N.U a) (fun i c => N.row a i c.1 c.2) l r).2 Q := by
    rw [← hcost, show Q = (clampKnot eps (fun _ => (0 : (Fin d → ℤ) × ℕ → K)) (N.n a) p (N.U a)
      (fun i (c : (Fin d → ℤ) × ℕ) => N.row a i c.1 c.2) l r).2 by rw [g1]]
    exact tracks_of h0 hδ hrd hmono hone (by omega) (fun Rel r1 r2 c hP =>
      (Fp.clampKnot_rel r1 (fun m u a b xF x yF y ha hb hx hy => r2 m u a b xF x yF y ha hb.le (ha.trans_lt hb) hx hy)
        c heps hz hE je _ hk hP hse l r).2)
  have hnear := htr.near h0 hδ g2 (U := N.U a) (by rw [e1, e2]; exact g6)
  unfold Nrb.clampF
  rw [ha, res_ok_bind, hf, res_ok_bind]
  unfold Fp.Clamp
  dsimp only
  rw [if_pos (by omega), res_ok_bind, hp, hV]
  have key := Nrb.near_setAxis h0 hδ hv a (s := N.shape a) (l := N.len a) hp (by unfold Nrb.degree; ring) (by rw [es]; exact g2)
    (by rw [e1, N.lo_eq, hp]) (by rw [N.hi_eq, ← e2]; congr 1; unfold Nrb.n; ring) (by rw [es]; exact hnear)
  refine ⟨_, _, rfl, key.1, key.2, by simp, ?_, ?_, ?_, fun b hb => Nrb.setAxis_U_ne _ _ _ _ _ _ hb⟩
  · intro h j j1 j2
    rw [Nrb.setAxis_U_self, g3 (hl.mpr h) j j1 (by omega), e1, N.lo_eq, hp]
  · intro h j j1 j2
    rw [Nrb.setAxis_U_self, g4 (hr.mpr h) j (by omega) (by omega), e2, N.hi_eq]
  · intro j j1 j2
    rw [Nrb.setAxis_U_self]
    refine g5 j ?_ ?_
    · rcases j1 with j1 | j1
      · left; simpa using fun h => j1 (hl.mp h)
      · right; omega
    · rcases j2 with j2 | j2
      · left; simpa using fun h => j2 (hr.mp h)
      · right; omega

/-- number of knots missing at the ends of the part -/
def Nrb.missingAt (N : Nrb K d) (a : Fin d) (u0 u1 : K) : ℕ :=
  ((N.degree a).toNat - N.multOf a u0) + ((N.degree a).toNat - N.multOf a u1)

/-- C91: `nrb.slice(axis, u0, u1)` in floating point -/
theorem C91_slice {δ : K} {rd : K → K} (h0 : 0 ≤ δ) (hδ : δ < 1) (hrd : RelErr δ rd) (hmono : Monotone rd)
    (hone : rd 1 = 1) {eps : K} (heps : 0 < eps) (hE : ∀ x, eps ≤ |x| → eps ≤ |rd x|) (jk : ℤ → K)
    (je : ℤ → (Fin d → ℤ) × ℕ → Fp K) {N : Nrb K (d + 1)} (hv : N.Valid) {axis : ℤ} {a : Fin (d + 1)}
    (ha : normAxis (d + 1) axis = .ok a) {start stop : Option K} {u0 u1 : K}
    (hst : u0 = start.getD (N.lo a)) (hsp : u1 = stop.getD (N.hi a))
    (hlo : N.lo a ≤ u0) (hhi : u1 ≤ N.hi a) (h01 : u0 < u1) (h01' : eps ≤ u1 - u0)
    (hs0 : N.Sep eps a u0) (hs1 : N.Sep eps a u1) (hm : N.MultOK a) :
    ∃ F N', N.sliceF rd eps jk je axis start stop = .ok F ∧ F.Is N' ∧
      N.NearOn δ (N.missingAt a u0 u1) id N' ∧ (∀ b, N'.degree b = N.degree b) ∧ N'.lo a = u0 ∧ N'.hi a = u1 ∧
      ClampedL (N'.degree a) (N'.U a) ∧ ClampedR (N'.n a) (N'.degree a) (N'.U a) ∧
      (∀ y, u0 < y → y < u1 → N'.multOf a y = N.multOf a y) ∧
      ∀ b, b ≠ a → N'.shape b = N.shape b ∧ N'.U b = N.U b ∧ N'.lo b = N.lo b ∧ N'.hi b = N.hi b := by
  obtain ⟨p, hp, hk, e⟩ := deg_nat hv a
  have hp1 := hk.one_le
  have hle := hk.le
  have hz := rd_zero hrd
  have hpn : (N.degree a).toNat = p := by omega
  have hm' : ∀ x, (mult (N.U a) 1 (N.n a + p) x : ℤ) ≤ p := by
    intro x
    have := hm x
    rw [show N.len a - 2 = N.n a + p by omega, hp] at this
    exact this
  have hmm : ∀ x, mult (N.U a) 0 (N.n a + p + 1) x ≤ p + 1 := by
    intro x
    have a1 := hm' x
    have a2 := (mult_le_succ hk x).2
    omega
  have hfm : ∀ u, N.lo a ≤ u → u ≤ N.hi a → N.Sep eps a u →
      Fp.FindMult rd eps p (N.len a - 1) (N.U a) u = .ok (mult (N.U a) 0 (N.n a + p + 1) u : ℤ) := by
    intro u a1 a2 a3
    rw [N.lo_eq, hp] at a1
    unfold Nrb.Sep at a3
    rw [N.hi_eq] at a2
    rw [e] at a3 ⊢
    rw [← C02_FindMult heps hk a1 a2 a3 (hmm u)]
    unfold Fp.FindMult BSp.FindMult
    rw [if_pos (by omega), if_pos (by omega), if_neg (by norm_num)]
    have hspan := findSpan_range (n := N.n a + p + 1 - (p + 1)) (U := N.U a) u (by omega : (0 : ℤ) ≤ (p : ℤ)) (by omega)
    rw [Fp.findMult_eq hz hE (fun j a b => a3 j (by omega) (by omega))]
  have hmi : N.missingAt a u0 u1 = (p - mult (N.U a) 0 (N.n a + p + 1) u0) + (p - mult (N.U a) 0 (N.n a + p + 1) u1) := by
    unfold Nrb.missingAt Nrb.multOf
    rw [hpn, e]
  set s0 := mult (N.U a) 0 (N.n a + p + 1) u0 with hs0d
  set s1 := mult (N.U a) 0 (N.n a + p + 1) u1 with hs1d
  set L := List.replicate (max 0 ((p : ℤ) - s0)).toNat u0 ++ List.replicate (max 0 ((p : ℤ) - s1)).toNat u1
    with hL
  have hLl : L.length = N.missingAt a u0 u1 := by
    rw [hmi, hL, List.length_append, List.length_replicate, List.length_replicate]
    omega
  have hmem : ∀ x ∈ L, x = u0 ∨ x = u1 := by
    intro x hx
    rw [hL, List.mem_append, List.mem_replicate, List.mem_replicate] at hx
    rcases hx with hx | hx
    · exact Or.inl hx.2
    · exact Or.inr hx.2
  have hcount : ∀ x, L.count x = (if x = u0 then (max 0 ((p : ℤ) - s0)).toNat else 0) +
      (if x = u1 then (max 0 ((p : ℤ) - s1)).toNat else 0) := by
    intro x
    rw [hL, List.count_append, List.count_replicate, List.count_replicate]
    simp only [beq_iff_eq, @eq_comm _ x]
  obtain ⟨T, CF, C, g1, g2, g3, g4, g5⟩ := refineF_refn h0 hδ hrd hmono hone heps hE jk je hv (normAxis_self a) (values := L)
    (by intro x hx; rcases hmem x hx with rfl | rfl; exacts [hlo, hlo.trans h01.le])
    (by intro x hx; rcases hmem x hx with rfl | rfl; exacts [h01.le.trans hhi, hhi])
    (by intro x hx; rcases hmem x hx with rfl | rfl; exacts [hs0, hs1])
    (by
      intro x hx y hy
      rcases hmem x hx with rfl | rfl <;> rcases hmem y hy with rfl | rfl
      · exact Or.inl rfl
      · right; rw [abs_sub_comm, abs_of_pos (sub_pos.mpr h01)]; exact h01'
      · right; rw [abs_of_pos (sub_pos.mpr h01)]; exact h01'
      · exact Or.inl rfl)
    (by
      intro x
      rw [hcount, show N.len a - 2 = N.n a + p by omega, hp]
      have b1 := hm' x
      have b2 := (mult_le_succ hk x).1
      by_cases hx0 : x = u0
      · subst hx0
        rw [if_pos rfl, if_neg h01.ne]; omega
      · rw [if_neg hx0]
        by_cases hx1 : x = u1
        · subst hx1
          rw [if_pos rfl]; omega
        · rw [if_neg hx1]; omega)
  rw [hpn] at g2
  have hcT : ∀ x, mult T 0 (N.n a + L.length + p + 1) x = mult (N.U a) 0 (N.n a + p + 1) x + L.count x := by
    intro x
    rw [← count_knotMS, g2.ms, Multiset.count_add, count_knotMS, Multiset.coe_count]
  have hlen : N.len a + L.length = N.n a + L.length + p + 1 + 1 := by omega
  have hT0 : T p = N.U a p := by rw [← hp]; exact g3
  have hT1 : T (N.n a + L.length + 1) = N.U a (N.n a + 1) := by rw [g4, N.hi_eq]
  have hu0' : N.U a p ≤ u0 := by rw [← hp]; exact hlo
  have hu1' : u1 ≤ N.U a (N.n a + 1) := by rw [← N.hi_eq]; exact hhi
  obtain ⟨q1, q2, q3, q4, q5, q6⟩ := slice_core hk g2 hT0 hT1
    (by omega) h01 hu0' hu1'
    (by rw [hcT, hcount, if_pos rfl, if_neg h01.ne]; omega)
    (by rw [hcT, hcount, if_pos rfl, if_neg h01.ne']; omega)
    (by
      intro hlt
      rw [mult_inner hk (lt_of_le_of_lt (by rw [← hp]; exact hlo) h01) hlt]
      have := hm' u1; omega)
    (i0 := Nrb.searchR T (N.n a + L.length + p + 1 + 1) u0 - 1)
    (i1 := Nrb.searchL T (N.n a + L.length + p + 1 + 1) u1) rfl rfl rfl
  have hin : ∀ y, u0 < y → y < u1 → mult (Nrb.sliceKnots p (Nrb.searchR T (N.n a + L.length + p + 1 + 1) u0 - 1)
      (Nrb.searchL T (N.n a + L.length + p + 1 + 1) u1) T) 0
      (p + (Nrb.searchL T (N.n a + L.length + p + 1 + 1) u1 + 1 -
          (Nrb.searchR T (N.n a + L.length + p + 1 + 1) u0 - 1)) + p - 1) y = mult (N.U a) 0 (N.n a + p + 1) y := by
    intro y y0 y1
    rw [slice_inner g2.sorted (p := p) y0 y1, hcT, hcount, if_neg y0.ne', if_neg y1.ne]
    · rfl
    · omega
    · exact ⟨p, by omega, by omega, by rw [hT0]; exact hu0'⟩
    · exact ⟨N.n a + L.length + 1, by omega, by omega, by rw [hT1]; exact hu1'⟩
  have c1 : (p : ℤ) ≤ Nrb.searchR T (N.n a + L.length + p + 1 + 1) u0 - 1 := by
    have := ((run_of_value g2.sorted u0).2.1 p (by omega) (by omega)).mp (by rw [hT0]; exact hu0')
    omega
  have c2 : Nrb.searchL T (N.n a + L.length + p + 1 + 1) u1 ≤ N.n a + L.length + 1 := by
    by_contra hc
    have := ((run_of_value g2.sorted u1).1 (N.n a + L.length + 1) (by omega) (by omega)).mpr (by omega)
    rw [hT1] at this
    exact absurd this (not_lt.mpr hu1')
  have hF : N.sliceF rd eps jk je axis start stop = .ok (N.setAxisF a
      (Nrb.searchL T (N.n a + L.length + p + 1 + 1) u1 - (Nrb.searchR T (N.n a + L.length + p + 1 + 1) u0 - 1 - p))
      (p + (Nrb.searchL T (N.n a + L.length + p + 1 + 1) u1 + 1 - (Nrb.searchR T (N.n a + L.length + p + 1 + 1) u0 - 1)) + p)
      (Nrb.sliceKnots p (Nrb.searchR T (N.n a + L.length + p + 1 + 1) u0 - 1) (Nrb.searchL T (N.n a + L.length + p + 1 + 1) u1) T)
      (fun i => CF (i + (Nrb.searchR T (N.n a + L.length + p + 1 + 1) u0 - 1 - p)))) := by
    unfold Nrb.sliceF
    rw [ha, res_ok_bind]
    dsimp only
    rw [← hst, ← hsp, pyAssert_ok hlo, res_ok_bind, pyAssert_ok hhi, res_ok_bind, pyAssert_ok h01,
      res_ok_bind, hp, hfm u0 hlo (h01.le.trans hhi) hs0, res_ok_bind, hfm u1 (hlo.trans h01.le) hhi hs1,
      res_ok_bind, g1, res_ok_bind]
    unfold Nrb.setAxisF FNrb.window
    simp only [Function.update_self, Function.update_idem, hlen]
    congr 2
    funext idx c
    rw [Fin.removeNth_update]
  generalize Nrb.searchL T (N.n a + L.length + p + 1 + 1) u1 = i1 at *
  generalize Nrb.searchR T (N.n a + L.length + p + 1 + 1) u0 - 1 = i0 at *
  have hdeg : p + (i1 + 1 - i0) + p - (i1 - (i0 - p)) - 1 = (p : ℤ) := by ring
  have htr := g5.window (m := i1 - (i0 - p) - 1) (off := i0 - p) (by omega) (by omega)
  rw [hLl] at htr
  have hnear := htr.near h0 hδ q1 (U := N.U a) (by rw [q4, q5]; exact q6)
  have key := Nrb.near_part h0 hδ hv a (s := i1 - (i0 - p)) (l := p + (i1 + 1 - i0) + p) hp (by rw [hdeg, hp]) q1
    (by rw [q4]; exact hlo) (by rw [show i1 - (i0 - p) = i1 - (i0 - p) - 1 + 1 by ring, q5]; exact hhi) hnear
  refine ⟨_, _, hF, key.1, key.2, ?_, ?_, ?_, ?_, ?_, ?_, ?_⟩
  · intro b
    by_cases hb : b = a
    · subst hb; rw [Nrb.setAxis_degree_self, hdeg, hp]
    · rw [Nrb.setAxis_degree_ne _ _ _ _ _ _ hb]
  · rw [Nrb.lo_eq, Nrb.setAxis_degree_self, hdeg, Nrb.setAxis_U_self]; exact q4
  · rw [Nrb.hi_eq, Nrb.setAxis_n_self, Nrb.setAxis_U_self]; exact q5
  · rw [Nrb.setAxis_degree_self, hdeg, Nrb.setAxis_U_self]; exact q2
  · rw [Nrb.setAxis_degree_self, hdeg, Nrb.setAxis_U_self, Nrb.setAxis_n_self]; exact q3
  · intro y y0 y1
    unfold Nrb.multOf
    rw [Nrb.setAxis_U_self, Nrb.setAxis_len, Function.update_self, e]
    exact hin y y0 y1
  · intro b hb
    refine ⟨?_, ?_, ?_, ?_⟩
    · simp [hb]
    · rw [Nrb.setAxis_U_ne _ _ _ _ _ _ hb]
    · rw [Nrb.setAxis_lo_ne _ _ _ _ _ _ hb]
    · rw [Nrb.setAxis_hi_ne _ _ _ _ _ _ hb]

/-- without combinations there is no error -/
theorem near_exact {e : ℕ} {δ : K} {N : Nrb K d} {φ : (Fin e → K) → Fin d → K} {N' : Nrb K e} (h : N.NearOn δ 0 φ N')
    {x : Fin e → K} (hx : N'.InDom x) : N'.eval x = N.eval (φ x) := by
  funext c
  have := h.dist c (∑ idx ∈ Fintype.piFinset (fun a => Finset.Ico 0 (N.shape a)), |N.P idx c|) (fun idx hi =>
    Finset.single_le_sum (f := fun idx => |N.P idx c|) (fun _ _ => abs_nonneg _)
      (Fintype.mem_piFinset.mpr fun a => Finset.mem_Ico.mpr (hi a))) x hx
  rw [mul_zero, pow_zero, sub_self, zero_mul] at this
  linarith [abs_eq_zero.mp (le_antisymm this (abs_nonneg _))]

/-- C91: the boundary of a clamped axis is exact, whatever the precision of the machine -/
theorem C91_boundary_exact {δ : K} {rd : K → K} (h0 : 0 ≤ δ) (hδ : δ < 1) (hrd : RelErr δ rd) (hmono : Monotone rd)
    (hone : rd 1 = 1) {eps : K} (heps : 0 < eps) (hE : ∀ x, eps ≤ |x| → eps ≤ |rd x|)
    (je : ℤ → (Fin d → ℤ) × ℕ → Fp K) {N : Nrb K (d + 1)} (hv : N.Valid) {axis : ℤ} {a : Fin (d + 1)}
    (ha : normAxis (d + 1) axis = .ok a) {side : ℤ} (hs : side = 0 ∨ side = 1)
    (hsep : N.SepBoth eps a) (hm : (N.multOf a (N.lo a) : ℤ) ≤ N.degree a + 1)
    (hl : N.degree a ≤ N.multOf a (N.lo a)) (hr : N.degree a ≤ N.multOf a (N.hi a)) :
    ∃ F N', N.boundaryF rd eps je axis side = .ok F ∧ F.Is N' ∧ N'.Valid ∧ N'.nc = N.nc ∧
      (∀ b, N'.shape b = N.shape (a.succAbove b)) ∧ (∀ b, N'.len b = N.len (a.succAbove b)) ∧
      (∀ b, N'.U b = N.U (a.succAbove b)) ∧
      ∀ x, N'.InDom x → N'.eval x = N.eval (a.insertNth (α := fun _ => K) (if side = 0 then N.lo a else N.hi a) x) := by
  obtain ⟨F, N', e1, e2, e3, e4, e5, e6⟩ := C91_boundary h0 hδ hrd hmono hone heps hE je hv ha hs hsep hm (.inr hr) rfl
  have hk : (N.degree a).toNat - N.multOf a (if side = 0 then N.lo a else N.hi a) = 0 := by
    split_ifs <;> omega
  rw [hk] at e3
  exact ⟨F, N', e1, e2, e3.valid, e3.nc, e4, e5, e6, fun x hx => near_exact e3 hx⟩

/-! ## histories -/

/-- `swap` only moves control points and knots -/
theorem near_swap {δ : K} {N N' : Nrb K d} (hv : N.Valid) {axis1 axis2 : ℤ} {a b : Fin d} (ha : normAxis d axis1 = .ok a)
    (hb : normAxis d axis2 = .ok b) (h : N.swap axis1 axis2 = .ok N') : N.NearOn δ 0 (fun x => x ∘ Equiv.swap a b) N' := by
  obtain ⟨M, e1, e2⟩ := C20_swap N ha hb
  rw [h] at e1
  injection e1 with e1
  subst e1
  have hP : ∀ idx, N'.P idx = N.P (idx ∘ Equiv.swap a b) := by
    unfold Nrb.swap at h
    rw [ha, res_ok_bind, hb, res_ok_bind] at h
    injection h with h
    subst h
    exact fun _ => rfl
  have hsw : ∀ {α : Type} (f : Fin d → α), (f ∘ Equiv.swap a b) ∘ Equiv.swap a b = f := by
    intro α f; funext i; simp
  have hin : ∀ idx : Fin d → ℤ, (∀ i, 0 ≤ idx i ∧ idx i < N'.shape i) →
      ∀ i, 0 ≤ (idx ∘ Equiv.swap a b) i ∧ (idx ∘ Equiv.swap a b) i < N.shape i := by
    intro idx hi i
    have := hi (Equiv.swap a b i)
    rwa [e2.shape, Equiv.swap_apply_self] at this
  have hdeg : ∀ i, N'.degree i = N.degree (Equiv.swap a b i) := fun i => by unfold Nrb.degree; rw [e2.shape, e2.len]
  refine ⟨e2.valid hv, e2.nc, fun x hx i => ?_, fun c A hA idx hi => ?_, fun c A hA x hx => ?_, fun c l u hl hb idx hi => ?_⟩
  · have := hx (Equiv.swap a b i)
    rw [Nrb.lo_eq, Nrb.hi_eq, e2.U, hdeg] at this
    rw [Nrb.lo_eq, Nrb.hi_eq]
    have hn : N'.n (Equiv.swap a b i) = N.n i := by unfold Nrb.n; rw [e2.shape, Equiv.swap_apply_self]
    rwa [hn, Equiv.swap_apply_self] at this
  · rw [hP]
    simpa using hA _ (hin idx hi)
  · have := e2.eval (x ∘ Equiv.swap a b)
    rw [hsw] at this
    rw [this]
    simp
  · rw [hP]
    simpa using hb _ (hin idx hi)

/-- objects that are the same machine object agree as far as they are defined -/
theorem nearOn_congr {e : ℕ} {δ : K} {k : ℕ} {N : Nrb K d} {φ : (Fin e → K) → Fin d → K} {N' L : Nrb K e} {F : FNrb K e}
    (h : N.NearOn δ k φ N') (h1 : F.Is N') (h2 : F.Is L) : N.NearOn δ k φ L := by
  have es : L.shape = N'.shape := by rw [← h2.shape, h1.shape]
  have el : L.len = N'.len := by rw [← h2.len, h1.len]
  have eU : L.U = N'.U := by rw [← h2.U, h1.U]
  have eP : ∀ idx, (∀ a, 0 ≤ idx a ∧ idx a < N'.shape a) → L.P idx = N'.P idx := by
    intro idx hi
    funext c
    have q1 := h1.P idx hi c
    have q2 := h2.P idx (by rw [es]; exact hi) c
    rw [q1] at q2
    injection q2 with q2
    exact q2.symm
  have en : L.n = N'.n := by funext a; unfold Nrb.n; rw [es]
  have ed : L.degree = N'.degree := by funext a; unfold Nrb.degree; rw [es, el]
  have hdom : ∀ x, L.InDom x → N'.InDom x := by
    intro x hx a
    have := hx a
    unfold Nrb.lo Nrb.hi at this ⊢
    rwa [eU, ed, el] at this
  refine ⟨fun a => ?_, ?_, fun x hx => h.dom x (hdom x hx), fun c A hA idx hi => ?_, fun c A hA x hx => ?_,
    fun c l u hl hb idx hi => ?_⟩
  · rw [en, ed, eU]; exact h.valid a
  · rw [← h2.nc, h1.nc]; exact h.nc
  · rw [es] at hi
    rw [eP idx hi]
    exact h.size c A hA idx hi
  · have : L.eval x = N'.eval x := by
      unfold Nrb.eval tensor
      rw [en, ed, eU]
      refine Finset.sum_congr rfl fun idx hi => ?_
      rw [eP idx (fun a => by
        have := Finset.mem_Icc.mp (Fintype.mem_piFinset.mp hi a)
        unfold Nrb.n at this
        omega)]
    rw [this]
    exact h.dist c A hA x (hdom x hx)
  · rw [es] at hi
    rw [eP idx hi]
    exact h.box c l u hl hb idx hi

/-- the object after a sequence of calls in floating point, over objects of varying dimension; `φ` sends the parameters of the result
to those of the original, and `k` counts the combinations of control points.  The initial contents of the arrays may differ from
call to call. -/
inductive MachineHist (rd : K → K) (eps : K) (N : Nrb K d) : ℕ → (e : ℕ) → ((Fin e → K) → Fin d → K) → Nrb K e → Prop
  | nil : MachineHist rd eps N 0 d id N
  | insert {k e : ℕ} {φ} {M L : Nrb K (e + 1)} (h : MachineHist rd eps N k (e + 1) φ M) (jk : ℤ → K)
      (je : ℤ → (Fin e → ℤ) × ℕ → Fp K) {axis : ℤ}
      {a : Fin (e + 1)} (ha : normAxis (e + 1) axis = .ok a) {u : K} (h1 : M.lo a < u) (h2 : u < M.hi a) (hsep : M.Sep eps a u)
      {t : ℕ} (ht : ((t + M.multOf a u : ℕ) : ℤ) ≤ M.degree a) {F : FNrb K (e + 1)}
      (hF : M.insertF rd eps jk je axis u (some t) = .ok F) (hL : F.Is L) : MachineHist rd eps N (k + t) (e + 1) φ L
  | refine {k e : ℕ} {φ} {M L : Nrb K (e + 1)} (h : MachineHist rd eps N k (e + 1) φ M) (jk : ℤ → K)
      (je : ℤ → (Fin e → ℤ) × ℕ → Fp K) {axis : ℤ}
      {a : Fin (e + 1)} (ha : normAxis (e + 1) axis = .ok a) {values : List K}
      (hlo : ∀ x ∈ values, M.lo a < x) (hhi : ∀ x ∈ values, x < M.hi a)
      (hs : ∀ x ∈ values, M.Sep eps a x) (hss : ∀ x ∈ values, ∀ y ∈ values, x = y ∨ eps ≤ |x - y|)
      (hm : ∀ x, ((values.count x + mult (M.U a) 1 (M.len a - 2) x : ℕ) : ℤ) ≤ M.degree a) {F : FNrb K (e + 1)}
      (hF : M.refineF rd eps jk je axis values = .ok F) (hL : F.Is L) : MachineHist rd eps N (k + values.length) (e + 1) φ L
  | slice {k e : ℕ} {φ} {M L : Nrb K (e + 1)} (h : MachineHist rd eps N k (e + 1) φ M) (jk : ℤ → K)
      (je : ℤ → (Fin e → ℤ) × ℕ → Fp K) {axis : ℤ}
      {a : Fin (e + 1)} (ha : normAxis (e + 1) axis = .ok a) {start stop : Option K} {u0 u1 : K}
      (hst : u0 = start.getD (M.lo a)) (hsp : u1 = stop.getD (M.hi a))
      (hlo : M.lo a ≤ u0) (hhi : u1 ≤ M.hi a) (h01 : u0 < u1) (h01' : eps ≤ u1 - u0)
      (hs0 : M.Sep eps a u0) (hs1 : M.Sep eps a u1) (hm : M.MultOK a) {F : FNrb K (e + 1)}
      (hF : M.sliceF rd eps jk je axis start stop = .ok F) (hL : F.Is L) : MachineHist rd eps N (k + M.missingAt a u0 u1) (e + 1) φ L
  | clamp {k e : ℕ} {φ} {M L : Nrb K (e + 1)} (h : MachineHist rd eps N k (e + 1) φ M)
      (je : ℤ → (Fin e → ℤ) × ℕ → Fp K) {axis : ℤ} {a : Fin (e + 1)} (ha : normAxis (e + 1) axis = .ok a) {side : Option ℤ}
      (hside : side = none ∨ side = some 0 ∨ side = some 1) (hsep : M.SepBoth eps a) {F : FNrb K (e + 1)}
      (hF : M.clampF rd eps je axis side = .ok F) (hL : F.Is L) : MachineHist rd eps N (k + M.missing a side) (e + 1) φ L
  | extract {k e : ℕ} {φ} {M : Nrb K (e + 1)} {L : Nrb K e} (h : MachineHist rd eps N k (e + 1) φ M)
      (je : ℤ → (Fin e → ℤ) × ℕ → Fp K) {axis : ℤ} {a : Fin (e + 1)} (ha : normAxis (e + 1) axis = .ok a) {u : K}
      (h1 : M.lo a ≤ u) (h2 : u ≤ M.hi a) (hsep : M.Sep eps a u) (hm : u < M.hi a → (M.multOf a u : ℤ) ≤ M.degree a + 1)
      (hend : u = M.hi a → M.multOf a u = 1 ∨ M.degree a ≤ M.multOf a u) {F : FNrb K e}
      (hF : M.extractF rd eps je axis u = .ok F) (hL : F.Is L) :
      MachineHist rd eps N (k + ((M.degree a).toNat - M.multOf a u)) e (fun x => φ (a.insertNth (α := fun _ => K) u x)) L
  | boundary {k e : ℕ} {φ} {M : Nrb K (e + 1)} {L : Nrb K e} (h : MachineHist rd eps N k (e + 1) φ M)
      (je : ℤ → (Fin e → ℤ) × ℕ → Fp K) {axis : ℤ} {a : Fin (e + 1)} (ha : normAxis (e + 1) axis = .ok a) {side : ℤ}
      (hs : side = 0 ∨ side = 1) (hsep : M.SepBoth eps a) (hm : (M.multOf a (M.lo a) : ℤ) ≤ M.degree a + 1)
      (hend : M.multOf a (M.hi a) = 1 ∨ M.degree a ≤ M.multOf a (M.hi a)) {u : K} (hu : u = if side = 0 then M.lo a else M.hi a)
      {F : FNrb K e} (hF : M.boundaryF rd eps je axis side = .ok F) (hL : F.Is L) :
      MachineHist rd eps N (k + ((M.degree a).toNat - M.multOf a u)) e (fun x => φ (a.insertNth (α := fun _ => K) u x)) L
  | swap {k e : ℕ} {φ} {M L : Nrb K e} (h : MachineHist rd eps N k e φ M) {axis1 axis2 : ℤ} {a b : Fin e}
      (ha : normAxis e axis1 = .ok a) (hb : normAxis e axis2 = .ok b) (hL : M.swap axis1 axis2 = .ok L) :
      MachineHist rd eps N k e (fun x => φ (x ∘ Equiv.swap a b)) L

/-- C91: any history of insertions, refinements, parts, clamping, sections, boundaries and exchanges of axes: the errors add up -/
theorem C91_history {δ : K} {rd : K → K} (h0 : 0 ≤ δ) (hδ : δ < 1) (hrd : RelErr δ rd) (hmono : Monotone rd)
    (hone : rd 1 = 1) {eps : K} (heps : 0 < eps) (hE : ∀ x, eps ≤ |x| → eps ≤ |rd x|) {N : Nrb K d} (hv : N.Valid) {k e : ℕ}
    {φ : (Fin e → K) → Fin d → K} {N' : Nrb K e} (h : MachineHist rd eps N k e φ N') : N.NearOn δ k φ N' := by
  induction h with
  | nil => exact (Nrb.NearMap.refl δ hv).on
  | insert h jk je ha h1 h2 hsep ht hF hL ih =>
    obtain ⟨F', M', e1, e2, e3, -⟩ := C90_insert h0 hδ hrd hmono hone heps hE jk je ih.valid ha h1 h2 hsep ht
    rw [hF] at e1
    injection e1 with e1
    subst e1
    exact ih.trans h0 hδ (nearOn_congr e3.on e2 hL)
  | refine h jk je ha hlo hhi hs hss hm hF hL ih =>
    obtain ⟨F', M', e1, e2, e3, -⟩ := C90_refine h0 hδ hrd hmono hone heps hE jk je ih.valid ha hlo hhi hs hss hm
    rw [hF] at e1
    injection e1 with e1
    subst e1
    exact ih.trans h0 hδ (nearOn_congr e3.on e2 hL)
  | slice h jk je ha hst hsp hlo hhi h01 h01' hs0 hs1 hm hF hL ih =>
    obtain ⟨F', M', e1, e2, e3, -⟩ := C91_slice h0 hδ hrd hmono hone heps hE jk je ih.valid ha hst hsp hlo hhi h01 h01' hs0 hs1 hm
    rw [hF] at e1
    injection e1 with e1
    subst e1
    exact ih.trans h0 hδ (nearOn_congr e3 e2 hL)
  | clamp h je ha hside hsep hF hL ih =>
    obtain ⟨F', M', e1, e2, e3, -⟩ := C91_clamp h0 hδ hrd hmono hone heps hE je ih.valid ha hside hsep
    rw [hF] at e1
    injection e1 with e1
    subst e1
    exact ih.trans h0 hδ (nearOn_congr e3.on e2 hL)
  | extract h je ha h1 h2 hsep hm hend hF hL ih =>
    obtain ⟨F', M', e1, e2, e3, -⟩ := C91_extract h0 hδ hrd hmono hone heps hE je ih.valid ha h1 h2 hsep hm hend
    rw [hF] at e1
    injection e1 with e1
    subst e1
    exact ih.trans h0 hδ (nearOn_congr e3 e2 hL)
  | boundary h je ha hs hsep hm hend hu hF hL ih =>
    obtain ⟨F', M', e1, e2, e3, -⟩ := C91_boundary h0 hδ hrd hmono hone heps hE je ih.valid ha hs hsep hm hend hu
    rw [hF] at e1
    injection e1 with e1
    subst e1
    exact ih.trans h0 hδ (nearOn_congr e3 e2 hL)
  | swap h ha hb hL ih => exact ih.trans h0 hδ (near_swap ih.valid ha hb hL)

/-- C91: the points, for weights between `l > 0` and `h` and control points of size at most `B` -/
theorem C91_points {δ : K} {rd : K → K} (h0 : 0 ≤ δ) (hδ : δ < 1) (hrd : RelErr δ rd) (hmono : Monotone rd)
    (hone : rd 1 = 1) {eps : K} (heps : 0 < eps) (hE : ∀ x, eps ≤ |x| → eps ≤ |rd x|) {N : Nrb K d} (hv : N.Valid) {k e : ℕ}
    {φ : (Fin e → K) → Fin d → K} {N' : Nrb K e} (h : MachineHist rd eps N k e φ N') {l u B : K} (hl : 0 < l)
    (hw : ∀ idx, (∀ a, 0 ≤ idx a ∧ idx a < N.shape a) → l ≤ N.P idx 3 ∧ N.P idx 3 ≤ u) {c : ℕ}
    (hB : ∀ idx, (∀ a, 0 ≤ idx a ∧ idx a < N.shape a) → |N.P idx c / N.P idx 3| ≤ B) {x : Fin e → K} (hx : N'.InDom x) :
    N.InDom (φ x) ∧ |N'.proj x c - N.proj (φ x) c| ≤ 2 * (growth δ ^ (8 * k) - 1) * growth δ ^ (3 * k) * (u / l) * B := by
  have H := C91_history h0 hδ hrd hmono hone heps hE hv h
  have hx' := H.dom x hx
  refine ⟨hx', ?_⟩
  have hnet : ∀ {g : ℕ} {M : Nrb K g} {idx : Fin g → ℤ}, (∀ a, 0 ≤ idx a ∧ idx a ≤ M.n a) →
      ∀ a, 0 ≤ idx a ∧ idx a < M.shape a := by
    intro g M idx hi a
    have := hi a
    unfold Nrb.n at this
    omega
  have hz : ∀ a, 0 ≤ (0 : Fin d → ℤ) a ∧ (0 : Fin d → ℤ) a < N.shape a := by
    intro a
    have := (hv a).one_le
    have := (hv a).le
    unfold Nrb.n at this
    simp only [Pi.zero_apply]
    omega
  have hB0 : 0 ≤ B := (abs_nonneg _).trans (hB 0 hz)
  have hu : 0 ≤ u := hl.le.trans ((hw 0 hz).1.trans (hw 0 hz).2)
  have hPc : ∀ idx, (∀ a, 0 ≤ idx a ∧ idx a < N.shape a) → |N.P idx c| ≤ B * N.P idx 3 := by
    intro idx hi
    have hwp := hl.trans_le (hw idx hi).1
    have := hB idx hi
    rwa [abs_div, abs_of_pos hwp, div_le_iff₀ hwp] at this
  have hg : 0 < growth δ ^ (3 * k) := by linarith [Fp.growth_pow h0 hδ (3 * k)]
  have hg8 := Fp.growth_pow h0 hδ (8 * k)
  have d1 := H.dist c (B * u) (fun idx hi => (hPc idx hi).trans (mul_le_mul_of_nonneg_left (hw idx hi).2 hB0)) x hx
  have d2 := H.dist 3 u (fun idx hi => by
    rw [abs_of_pos (hl.trans_le (hw idx hi).1)]
    exact (hw idx hi).2) x hx
  have b1 := Nrb.eval_ge hv hx' (c := 3) (fun idx hi => (hw idx (hnet hi)).1)
  have b2 := Nrb.eval_ge H.valid hx (c := 3) (fun idx hi => (H.box 3 l u hl hw idx (hnet hi)).1)
  have hq : |N.eval (φ x) c| ≤ B * N.eval (φ x) 3 := by
    rw [Nrb.eval_apply, Nrb.eval_apply, Finset.mul_sum]
    refine (Finset.abs_sum_le_sum_abs _ _).trans (Finset.sum_le_sum fun idx hi => ?_)
    have hi : ∀ a, 0 ≤ idx a ∧ idx a ≤ N.n a := fun a => Finset.mem_Icc.mp (Fintype.mem_piFinset.mp hi a)
    have hb := Nrb.wt_nonneg hv hx' hi
    rw [abs_mul, abs_of_nonneg hb, mul_left_comm]
    exact mul_le_mul_of_nonneg_left (hPc idx (hnet hi)) hb
  exact quot_dist hl hu hg (by linarith) hB0 b1 b2 d1 d2 hq

/-- C91: the whole computation: a history of calls and then an evaluation, all in floating point -/
theorem C91_call {δ : K} {rd : K → K} (h0 : 0 ≤ δ) (hδ : δ < 1) (hrd : RelErr δ rd) (hmono : Monotone rd)
    (hone : rd 1 = 1) {eps : K} (heps : 0 < eps) (hE : ∀ x, eps ≤ |x| → eps ≤ |rd x|) {N : Nrb K d} (hv : N.Valid) {k e : ℕ}
    (he : e ≤ 3) {φ : (Fin e → K) → Fin d → K} {N' : Nrb K e} (h : MachineHist rd eps N k e φ N') {l u B : K} (hl : 0 < l)
    (hw : ∀ idx, (∀ a, 0 ≤ idx a ∧ idx a < N.shape a) → l ≤ N.P idx 3 ∧ N.P idx 3 ≤ u) {c : ℕ}
    (hB : ∀ idx, (∀ a, 0 ≤ idx a ∧ idx a < N.shape a) → |N.P idx c / N.P idx 3| ≤ B)
    (jk : ℤ → Fp K) (je : ℤ → ℕ → Fp K) {r : Fin e → ℤ} {X : Fin e → ℤ → K} (hn : ∀ a, 0 ≤ r a)
    (hx : ∀ a i, 0 ≤ i → i ≤ r a → N'.lo a ≤ X a i ∧ X a i ≤ N'.hi a) {m : ℕ}
    (hm : m = 6 * (∑ a, (N'.degree a).toNat) + e + ∏ a, ((N'.degree a).toNat + 1)) :
    ∃ C, N'.callF rd jk je r X = .ok C ∧ ∀ i : Fin e → ℤ, (∀ a, 0 ≤ i a ∧ i a ≤ r a) →
      ∃ y, (C i).1 c = some y ∧ |y - N.proj (φ (fun a => X a (i a))) c| ≤
        (growth δ ^ (2 * m + 1) - 1) * (growth δ ^ (11 * k) * (u / l) * B) +
        2 * (growth δ ^ (8 * k) - 1) * growth δ ^ (3 * k) * (u / l) * B := by
  have H := C91_history h0 hδ hrd hmono hone heps hE hv h
  have hg : 0 < growth δ ^ (3 * k) := by linarith [Fp.growth_pow h0 hδ (3 * k)]
  have hbox := H.box 3 l u hl hw
  have hz : ∀ a, 0 ≤ (0 : Fin d → ℤ) a ∧ (0 : Fin d → ℤ) a < N.shape a := by
    intro a
    have := (hv a).one_le
    have := (hv a).le
    unfold Nrb.n at this
    simp only [Pi.zero_apply]
    omega
  have hB0 : 0 ≤ B := (abs_nonneg _).trans (hB 0 hz)
  have hu : 0 ≤ u := hl.le.trans ((hw 0 hz).1.trans (hw 0 hz).2)
  have hPc : ∀ idx, (∀ a, 0 ≤ idx a ∧ idx a < N.shape a) → |N.P idx c| ≤ B * u := by
    intro idx hi
    have hwp := hl.trans_le (hw idx hi).1
    have := hB idx hi
    rw [abs_div, abs_of_pos hwp, div_le_iff₀ hwp] at this
    exact this.trans (mul_le_mul_of_nonneg_left (hw idx hi).2 hB0)
  have hsz := H.size c (B * u) hPc
  have hpos : ∀ idx, (∀ a, 0 ≤ idx a ∧ idx a < N'.shape a) → 0 < N'.P idx 3 :=
    fun idx hi => (div_pos hl hg).trans_le (hbox idx hi).1
  obtain ⟨C, e1, e2⟩ := C72_call h0 hδ hrd jk je (N := N') he H.valid (r := r) (X := X) hn hx hpos (m := m) hm
  refine ⟨C, e1, fun i hi => ?_⟩
  obtain ⟨y, q1, q2⟩ := (e2 i hi c (growth δ ^ (11 * k) * (u / l) * B)).1 (fun idx hi => by
    have hp := hpos idx hi
    rw [abs_div, abs_of_pos hp, div_le_iff₀ hp]
    refine (hsz idx hi).trans ?_
    have hb := (hbox idx hi).1
    rw [div_le_iff₀ hg] at hb
    have hg11 : growth δ ^ (11 * k) = growth δ ^ (8 * k) * growth δ ^ (3 * k) := by rw [← pow_add]; congr 1; ring
    have hg8 : 0 < growth δ ^ (8 * k) := by linarith [Fp.growth_pow h0 hδ (8 * k)]
    rw [hg11]
    calc growth δ ^ (8 * k) * (B * u) = growth δ ^ (8 * k) * (u / l) * B * l := by field_simp
      _ ≤ growth δ ^ (8 * k) * (u / l) * B * (N'.P idx 3 * growth δ ^ (3 * k)) :=
        mul_le_mul_of_nonneg_left hb (by positivity)
      _ = _ := by ring)
  refine ⟨y, q1, ?_⟩
  have q3 := (C91_points h0 hδ hrd hmono hone heps hE hv h hl hw hB (x := fun a => X a (i a))
    (fun a => hx a (i a) (hi a).1 (hi a).2)).2
  calc |y - N.proj (φ (fun a => X a (i a))) c| = |(y - N'.proj (fun a => X a (i a)) c) +
        (N'.proj (fun a => X a (i a)) c - N.proj (φ (fun a => X a (i a))) c)| := by ring_nf
    _ ≤ _ := abs_add_le _ _
    _ ≤ _ := add_le_add q2 q3

/-! ## examples: `Ex.S` in doubles -/

/-- both ends of the unclamped axis -/
example (je : ℤ → (Fin 1 → ℤ) × ℕ → Fp ℚ) := C91_clamp (δ := (2 : ℚ) ^ (-((53 : ℕ) : ℤ))) (by positivity) (by norm_num)
  (Ex.fl_relErr 53) (Ex.fl_mono (by norm_num)) (Ex.fl_one (by norm_num)) (eps := 1 / 2 ^ 52) (by norm_num) fl53_apart je
  Ex.S_valid (axis := -1) (a := 1) rfl (side := none) (.inl rfl)
  ⟨Ex.sepFrom_of_list (l := [-2, -1, 0, 1, 2, 3]) (m := 5) (by decide) (by decide +kernel),
    Ex.sepFrom_of_list (l := [-2, -1, 0, 1, 2, 3]) (m := 5) (by decide) (by decide +kernel)⟩

/-- one combination on each side -/
example : Ex.S.missing 1 none = 2 := by decide +kernel

/-- a boundary of the clamped axis, exactly -/
example (je : ℤ → (Fin 1 → ℤ) × ℕ → Fp ℚ) := C91_boundary_exact (δ := (2 : ℚ) ^ (-((53 : ℕ) : ℤ))) (by positivity) (by norm_num)
  (Ex.fl_relErr 53) (Ex.fl_mono (by norm_num)) (Ex.fl_one (by norm_num)) (eps := 1 / 2 ^ 52) (by norm_num) fl53_apart je
  Ex.S_valid (axis := 0) (a := 0) rfl (side := 1) (.inr rfl)
  ⟨Ex.sepFrom_of_list (l := [0, 0, 0, 1, 2, 2, 3, 3, 3]) (m := 8) (by decide) (by decide +kernel),
    Ex.sepFrom_of_list (l := [0, 0, 0, 1, 2, 2, 3, 3, 3]) (m := 8) (by decide) (by decide +kernel)⟩
  (by decide +kernel) (by decide +kernel) (by decide +kernel)

/-- the boundary of the unclamped axis takes one combination -/
example (je : ℤ → (Fin 1 → ℤ) × ℕ → Fp ℚ) := C91_boundary (δ := (2 : ℚ) ^ (-((53 : ℕ) : ℤ))) (by positivity) (by norm_num)
  (Ex.fl_relErr 53) (Ex.fl_mono (by norm_num)) (Ex.fl_one (by norm_num)) (eps := 1 / 2 ^ 52) (by norm_num) fl53_apart je
  Ex.S_valid (axis := 1) (a := 1) rfl (side := 1) (.inr rfl)
  ⟨Ex.sepFrom_of_list (l := [-2, -1, 0, 1, 2, 3]) (m := 5) (by decide) (by decide +kernel),
    Ex.sepFrom_of_list (l := [-2, -1, 0, 1, 2, 3]) (m := 5) (by decide) (by decide +kernel)⟩
  (by decide +kernel) (by decide +kernel) (u := 1) (by decide +kernel)

/-- the part over `[1/2, 2]` of the first axis, the axes exchanged, and the section at `1/3` of the second axis (now the first) -/
theorem exHist (jk : ℤ → ℚ) (je : ℤ → (Fin 1 → ℤ) × ℕ → Fp ℚ) :
    ∃ φ, ∃ N' : Nrb ℚ 1, MachineHist (Ex.fl 53) (1 / 2 ^ 52) Ex.S 4 1 φ N' ∧ (∀ x, φ x = ![x 0, 1 / 3]) ∧ N'.lo 0 = 1 / 2 ∧
      N'.hi 0 = 2 ∧ N'.degree 0 = 2 := by
  have h0 : (0 : ℚ) ≤ (2 : ℚ) ^ (-((53 : ℕ) : ℤ)) := by positivity
  have hδ : (2 : ℚ) ^ (-((53 : ℕ) : ℤ)) < 1 := by norm_num
  have hs0 : Ex.S.Sep (1 / 2 ^ 52) 0 (1 / 2) :=
    Ex.sepFrom_of_list (l := [0, 0, 0, 1, 2, 2, 3, 3, 3]) (m := 8) (by decide) (by decide +kernel)
  have hs1 : Ex.S.Sep (1 / 2 ^ 52) 0 2 :=
    Ex.sepFrom_of_list (l := [0, 0, 0, 1, 2, 2, 3, 3, 3]) (m := 8) (by decide) (by decide +kernel)
  have hmo : Ex.S.MultOK 0 := multOK_of_list (by decide +kernel) (by decide +kernel)
  have c1 : Ex.S.lo 0 ≤ 1 / 2 := by decide +kernel
  have c2 : (2 : ℚ) ≤ Ex.S.hi 0 := by decide +kernel
  obtain ⟨F, M, e1, e2, e3, e4, e5, e6, -, -, -, e7⟩ := C91_slice h0 hδ (Ex.fl_relErr 53) (Ex.fl_mono (by norm_num))
    (Ex.fl_one (by norm_num)) (eps := 1 / 2 ^ 52) (by norm_num) fl53_apart jk je Ex.S_valid (axis := 0) (a := 0) rfl
    (start := some (1 / 2)) (stop := some 2) rfl rfl c1 c2 (by norm_num) (by norm_num) hs0 hs1 hmo
  obtain ⟨M', s1, s2⟩ := C20_swap M (axis1 := 0) (axis2 := -1) (a := 0) (b := 1) rfl rfl
  have hsw := near_swap (δ := (2 : ℚ) ^ (-((53 : ℕ) : ℤ))) e3.valid (axis1 := 0) (axis2 := -1) (a := 0) (b := 1) rfl rfl s1
  have hU : M'.U 0 = Ex.W := (s2.U 0).trans ((e7 1 (by decide)).2.1)
  have hd : ∀ i, M'.degree i = M.degree (Equiv.swap 0 1 i) := fun i => by unfold Nrb.degree; rw [s2.shape, s2.len]
  have hd0 : M'.degree 0 = 2 := (hd 0).trans ((e4 1).trans rfl)
  have hd1 : M'.degree 1 = 2 := (hd 1).trans ((e4 0).trans rfl)
  have hsh : M'.shape 0 = 3 := (s2.shape 0).trans ((e7 1 (by decide)).1.trans rfl)
  have hlen : M'.len 0 = 6 := by
    have : M'.degree 0 = (M'.len 0 - 1) - (M'.shape 0 - 1) - 1 := rfl
    omega
  have hn : ∀ i, M'.n i = M.n (Equiv.swap 0 1 i) := fun i => by unfold Nrb.n; rw [s2.shape]
  have hlo : ∀ i, M'.lo i = M.lo (Equiv.swap 0 1 i) := fun i => by rw [Nrb.lo_eq, Nrb.lo_eq, hd, s2.U]
  have hhi : ∀ i, M'.hi i = M.hi (Equiv.swap 0 1 i) := fun i => by rw [Nrb.hi_eq, Nrb.hi_eq, hn, s2.U]
  have hlo0 : M'.lo 0 = 0 := (hlo 0).trans ((e7 1 (by decide)).2.2.1.trans rfl)
  have hhi0 : M'.hi 0 = 1 := (hhi 0).trans ((e7 1 (by decide)).2.2.2.trans rfl)
  have hmu : M'.multOf 0 (1 / 3) = 0 := by
    unfold Nrb.multOf
    rw [hU, hlen]
    decide +kernel
  have ks : M'.Sep (1 / 2 ^ 52) 0 (1 / 3) := by
    unfold Nrb.Sep
    rw [hU, hlen]
    exact Ex.sepFrom_of_list (l := [-2, -1, 0, 1, 2, 3]) (by decide) (by decide +kernel)
  have k1 : M'.lo 0 ≤ 1 / 3 := by rw [hlo0]; norm_num
  have k2 : 1 / 3 ≤ M'.hi 0 := by rw [hhi0]; norm_num
  have k3 : 1 / 3 < M'.hi 0 → (M'.multOf 0 (1 / 3) : ℤ) ≤ M'.degree 0 + 1 := fun _ => by rw [hmu, hd0]; norm_num
  have k4 : 1 / 3 = M'.hi 0 → M'.multOf 0 (1 / 3) = 1 ∨ M'.degree 0 ≤ M'.multOf 0 (1 / 3) := by rw [hhi0]; norm_num
  obtain ⟨F', L, g1, g2, g3, g4, g5, g6⟩ := C91_extract h0 hδ (Ex.fl_relErr 53) (Ex.fl_mono (by norm_num)) (Ex.fl_one (by norm_num))
    (eps := 1 / 2 ^ 52) (by norm_num) fl53_apart je hsw.valid (axis := 0) (a := 0) rfl k1 k2 ks k3 k4
  have hmi : Ex.S.missingAt 0 (1 / 2) 2 = 2 := by decide +kernel
  have run := MachineHist.extract (.swap (.slice (.nil (rd := Ex.fl 53) (eps := 1 / 2 ^ 52) (N := Ex.S)) jk je (axis := 0) (a := 0) rfl
    (start := some (1 / 2)) (stop := some 2) rfl rfl c1 c2 (by norm_num) (by norm_num) hs0 hs1 hmo e1 e2)
    (axis1 := 0) (axis2 := -1) (a := 0) (b := 1) rfl rfl s1) je (axis := 0) (a := 0) rfl k1 k2 ks k3 k4 g1 g2
  rw [Option.getD_some, Option.getD_some, hmi, hmu, hd0] at run
  have hdL : L.degree 0 = 2 := by
    have : L.degree 0 = M'.degree 1 := by unfold Nrb.degree; rw [g4, g5]; rfl
    rw [this, hd1]
  have hnL : L.n 0 = M'.n 1 := by unfold Nrb.n; rw [g4]; rfl
  refine ⟨_, L, run, fun x => ?_, ?_, ?_, hdL⟩
  · funext i
    fin_cases i <;> rfl
  · rw [Option.getD_some] at e5
    rw [← e5, show M.lo 0 = M'.lo 1 from (hlo 1).symm, Nrb.lo_eq, Nrb.lo_eq, hdL, hd1, g6]; rfl
  · rw [Option.getD_some] at e6
    rw [← e6, show M.hi 0 = M'.hi 1 from (hhi 1).symm, Nrb.hi_eq, Nrb.hi_eq, hnL, g6]; rfl

/-- the point of the computed curve at `1`, compared with the original surface at `(1, 1/3)` -/
example (jk : ℤ → ℚ) (je : ℤ → (Fin 1 → ℤ) × ℕ → Fp ℚ) (jk' : ℤ → Fp ℚ) (je' : ℤ → ℕ → Fp ℚ) :
    ∃ φ, ∃ N' : Nrb ℚ 1, MachineHist (Ex.fl 53) (1 / 2 ^ 52) Ex.S 4 1 φ N' ∧
      ∃ C, N'.callF (Ex.fl 53) jk' je' ![0] ![fun _ => 1] = .ok C ∧
        ∃ y, (C ![0]).1 0 = some y ∧ |y - Ex.S.proj ![1, 1 / 3] 0| ≤ 1 / 10 ^ 10 := by
  obtain ⟨φ, N', hN, hφ, hlo, hhi, hd⟩ := exHist jk je
  refine ⟨φ, N', hN, ?_⟩
  obtain ⟨C, h1, h2⟩ := C91_call (δ := (2 : ℚ) ^ (-((53 : ℕ) : ℤ))) (by positivity) (by norm_num) (Ex.fl_relErr 53)
    (Ex.fl_mono (by norm_num)) (Ex.fl_one (by norm_num)) (eps := 1 / 2 ^ 52) (by norm_num) fl53_apart Ex.S_valid (by norm_num) hN
    (l := 1) (u := 3) (B := 31) one_pos
    (fun idx h => by
      show (1 : ℚ) ≤ 1 + idx 1 ∧ (1 + idx 1 : ℚ) ≤ 3
      have : (0 : ℚ) ≤ idx 1 := by exact_mod_cast (h 1).1
      have : (idx 1 : ℚ) ≤ 2 := by exact_mod_cast Int.le_of_lt_add_one (show idx 1 < 2 + 1 from (h 1).2)
      constructor <;> linarith) (c := 0)
    (fun idx h => by
      show |((((0 : ℕ) : ℚ) + 1) * idx 0 * idx 0 + idx 1 * 3 - ((0 : ℕ) : ℚ)) / (1 + idx 1)| ≤ 31
      have a1 : (0 : ℚ) ≤ idx 0 := by exact_mod_cast (h 0).1
      have a2 : (idx 0 : ℚ) ≤ 5 := by exact_mod_cast Int.le_of_lt_add_one (show idx 0 < 5 + 1 from (h 0).2)
      have a3 : (0 : ℚ) ≤ idx 1 := by exact_mod_cast (h 1).1
      rw [abs_of_nonneg (div_nonneg (by push_cast; nlinarith) (by linarith)), div_le_iff₀ (by linarith)]
      push_cast
      nlinarith)
    jk' je' (r := ![0]) (X := ![fun _ => 1]) (fun a => by fin_cases a; exact le_rfl)
    (fun a i _ _ => by
      fin_cases a
      show N'.lo 0 ≤ 1 ∧ 1 ≤ N'.hi 0
      rw [hlo, hhi]
      norm_num) (m := 16) (by simp [hd])
  obtain ⟨y, e1, e2⟩ := h2 ![0] (fun a => by fin_cases a; exact ⟨le_rfl, le_rfl⟩)
  refine ⟨C, h1, y, e1, ?_⟩
  rw [hφ] at e2
  refine e2.trans ?_
  have g1 := growth_le (δ := (2 : ℚ) ^ (-((53 : ℕ) : ℤ))) (by positivity) (m := 2 * 16 + 1) (by norm_num)
  have g2 := growth_le (δ := (2 : ℚ) ^ (-((53 : ℕ) : ℤ))) (by positivity) (m := 11 * 4) (by norm_num)
  have g3 := growth_le (δ := (2 : ℚ) ^ (-((53 : ℕ) : ℤ))) (by positivity) (m := 8 * 4) (by norm_num)
  have g4 := growth_le (δ := (2 : ℚ) ^ (-((53 : ℕ) : ℤ))) (by positivity) (m := 3 * 4) (by norm_num)
  have p1 := Fp.growth_pow (δ := (2 : ℚ) ^ (-((53 : ℕ) : ℤ))) (by positivity) (by norm_num) (2 * 16 + 1)
  have p2 := Fp.growth_pow (δ := (2 : ℚ) ^ (-((53 : ℕ) : ℤ))) (by positivity) (by norm_num) (11 * 4)
  have p3 := Fp.growth_pow (δ := (2 : ℚ) ^ (-((53 : ℕ) : ℤ))) (by positivity) (by norm_num) (8 * 4)
  have p4 := Fp.growth_pow (δ := (2 : ℚ) ^ (-((53 : ℕ) : ℤ))) (by positivity) (by norm_num) (3 * 4)
  generalize growth ((2 : ℚ) ^ (-((53 : ℕ) : ℤ))) ^ (2 * 16 + 1) = a at *
  generalize growth ((2 : ℚ) ^ (-((53 : ℕ) : ℤ))) ^ (11 * 4) = b at *
  generalize growth ((2 : ℚ) ^ (-((53 : ℕ) : ℤ))) ^ (8 * 4) = c at *
  generalize growth ((2 : ℚ) ^ (-((53 : ℕ) : ℤ))) ^ (3 * 4) = e at *
  norm_num at g1 g2 g3 g4
  have ha : a - 1 ≤ 1 / 10 ^ 14 := by norm_num; linarith
  have hb : b ≤ 2 := by linarith
  have hc : c - 1 ≤ 1 / 10 ^ 14 := by norm_num; linarith
  have he : e ≤ 2 := by linarith
  have m1 := mul_le_mul ha hb (by linarith) (by norm_num)
  have m2 := mul_le_mul hc he (by linarith) (by norm_num)
  norm_num at m1 m2 ⊢
  nlinarith

end Igakit
