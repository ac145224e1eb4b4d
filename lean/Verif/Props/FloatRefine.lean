import Verif.Proofs.FloatAxis
import Verif.Props.Refine

/-! # Property C90: rounding errors of refinement, and of any sequence of insertions and refinements -/

set_option linter.unusedSectionVars false

namespace Igakit
open Spec

variable {K : Type} [Field K] [LinearOrder K] [IsStrictOrderedRing K] {ι : Type} {d : ℕ}

/-- C90: refinement with `r + 1` values in floating point.  The knots are exact, all control points are numbers, and the errors are
those of `r + 1` combinations. -/
theorem C90_RefineKnotVector [Nonempty ι] {δ : K} {rd : K → K} (h0 : 0 ≤ δ) (hδ : δ < 1) (hrd : RelErr δ rd) (hmono : Monotone rd)
    (hone : rd 1 = 1) {eps : K} (heps : 0 < eps) (hE : ∀ x, eps ≤ |x| → eps ≤ |rd x|) (jk : ℤ → K) (je : ℤ → ι → Fp K)
    {n : ℤ} {p : ℕ} {U : ℤ → K} (hv : ValidKnots n p U) (P : ℤ → ι → K) {r : ℤ} (hr : -1 ≤ r) {X : ℤ → K} (hX : SortedOn X 0 r)
    (hlo : ∀ j, 0 ≤ j → j ≤ r → U p < X j) (hhi : ∀ j, 0 ≤ j → j ≤ r → X j < U (n + 1))
    (hsU : ∀ j, 0 ≤ j → j ≤ r → SepFrom eps (X j) U 0 (n + p + 1))
    (hsX : ∀ j, 0 ≤ j → j ≤ r → SepFrom eps (X j) X 0 r) :
    ∃ V Q, Fp.RefineKnotVector rd eps jk je n p U P r X = .ok (V, Q) ∧
      ValidKnots (n + r + 1) p V ∧ V p = U p ∧ V (n + r + 2) = U (n + 1) ∧
      knotMS V (n + r + 1 + p + 1) = knotMS U (n + p + 1) + knotMS X r ∧
      ∃ Q' : ℤ → ι → K, NearCurve δ (r + 1).toNat n p U P (n + r + 1) V Q Q' := by
  have hp := hv.one_le
  have hle := hv.le
  have hz : rd 0 = 0 := by
    have := hrd 0
    rw [abs_zero, mul_zero, sub_zero] at this
    exact abs_eq_zero.mp (le_antisymm this (abs_nonneg _))
  have hgo : n ≥ 1 ∧ (p : ℤ) ≥ 1 ∧ r > -2 := ⟨by omega, hp, by omega⟩
  obtain ⟨V, Q, e1, e2, e3, e4, e5, e6⟩ := C09_RefineKnotVector heps jk (fun _ => (0 : ι → K)) hv P hr hX hlo hhi hsU hsX
  unfold BSp.RefineKnotVector at e1
  rw [if_pos hgo] at e1
  injection e1 with e1
  have eV : (refineKnotVector eps jk (fun _ => (0 : ι → K)) n p U P r X).1 = V := by rw [e1]
  have eQ : (refineKnotVector eps jk (fun _ => (0 : ι → K)) n p U P r X).2 = Q := by rw [e1]
  have hknots : (Fp.refineKnotVector rd eps jk je n p U P r X).1 = V := by
    obtain ⟨c⟩ := ‹Nonempty ι›
    rw [← eV]
    exact (Fp.refineKnotVector_rel (rd := rd) (Rel := fun _ _ _ => True) (fun _ _ _ _ => trivial)
      (fun _ _ _ _ _ _ _ _ _ _ _ _ _ => trivial) c heps hz hE jk je (fun _ => 0) hv (fun _ _ _ => trivial) hr hX
      (fun j a b => (hlo j a b).le) (fun j a b => (hhi j a b).le) hsU hsX).1
  refine ⟨V, (Fp.refineKnotVector rd eps jk je n p U P r X).2, ?_, e2, e3, e4, e5, _,
    near_of_err h0 hδ e2 (by rw [e3, show n + r + 1 + 1 = n + r + 2 by ring, e4]; exact e6) ?_ ?_⟩
  · unfold Fp.RefineKnotVector
    rw [if_pos hgo, ← hknots]
  · intro c A hA i a b
    rw [← eQ]
    exact (Fp.refineKnotVector_rel (rd := rd) (Rel := fun m a x => Fp.Err δ A (8 * m) a x)
      (fun m a x h => h.mono h0 hδ (by omega))
      (fun m u a b xF x yF y ha hb hab hx hy => Fp.Err.cut h0 hδ hrd ha hb hab hx hy) c heps hz hE jk je (fun _ => 0) hv
      (fun i i0 i1 => ⟨_, rfl, by simp, hA i i0 i1⟩) hr hX
      (fun j a b => (hlo j a b).le) (fun j a b => (hhi j a b).le) hsU hsX).2 i a b
  · intro c lo hi hl hb i a b
    have hlh : lo ≤ hi := (hb 0 le_rfl (by omega)).1.trans (hb 0 le_rfl (by omega)).2
    exact (Fp.refineKnotVector_rel (rd := rd) (Rel := fun m a _ => Fp.Box δ lo hi (3 * m) a)
      (fun m a x h => h.mono h0 hδ hl hlh (by omega))
      (fun m u a b xF x yF y ha hb hab hx hy => Fp.Box.cut h0 hδ hrd hmono hone hl ha hb hab hx hy) c heps hz hE jk je (fun _ => 0) hv
      (fun i i0 i1 => ⟨_, rfl, by simpa using (hb i i0 i1).1, by simpa using (hb i i0 i1).2⟩) hr hX
      (fun j a b => (hlo j a b).le) (fun j a b => (hhi j a b).le) hsU hsX).2 i a b

/-! ## objects -/

/-- C90: `nrb.insert(axis, u, times)` in floating point -/
theorem C90_insert {δ : K} {rd : K → K} (h0 : 0 ≤ δ) (hδ : δ < 1) (hrd : RelErr δ rd) (hmono : Monotone rd)
    (hone : rd 1 = 1) {eps : K} (heps : 0 < eps) (hE : ∀ x, eps ≤ |x| → eps ≤ |rd x|) (jk : ℤ → K)
    (je : ℤ → (Fin d → ℤ) × ℕ → Fp K) {N : Nrb K (d + 1)} (hv : N.Valid) {axis : ℤ} {a : Fin (d + 1)}
    (ha : normAxis (d + 1) axis = .ok a) {u : K} (h1 : N.lo a < u) (h2 : u < N.hi a)
    (hsep : N.Sep eps a u) {t : ℕ} (ht : ((t + N.multOf a u : ℕ) : ℤ) ≤ N.degree a) :
    ∃ F N', N.insertF rd eps jk je axis u (some t) = .ok F ∧ F.Is N' ∧ N.NearMap δ t N' ∧
      N'.shape = Function.update N.shape a (N.shape a + t) ∧
      N'.knots a = N.knots a + Multiset.replicate t u ∧ ∀ b, b ≠ a → N'.U b = N.U b := by
  obtain ⟨p, hp, hk, e⟩ := deg_nat hv a
  have hz : rd 0 = 0 := by
    have := hrd 0
    rw [abs_zero, mul_zero, sub_zero] at this
    exact abs_eq_zero.mp (le_antisymm this (abs_nonneg _))
  have hle := hk.le
  have hp1 := hk.one_le
  have hF : Fp.FindMult rd eps (N.degree a) (N.len a - 1) (N.U a) u = .ok (N.multOf a u) := by
    rw [← findMult_res heps hv h1 h2 hsep (by omega)]
    unfold Fp.FindMult BSp.FindMult
    rw [if_pos (by omega), if_pos (by omega), if_neg (by norm_num)]
    have hspan := findSpan_range (n := N.len a - 1 - (N.degree a + 1)) (U := N.U a) u (by omega : (0 : ℤ) ≤ N.degree a) (by omega)
    rw [Fp.findMult_eq hz hE (fun j a b => hsep j (by omega) (by omega))]
  unfold Nrb.insertF
  rw [ha, res_ok_bind]
  dsimp only
  rw [pyAssert_ok ⟨h1.le, h2.le⟩, res_ok_bind, hF, res_ok_bind,
    min_eq_left (by omega), Option.getD_some, pyAssert_ok (by omega), res_ok_bind]
  by_cases ht0 : (t : ℤ) = 0
  · rw [if_pos ht0]
    have ht0 : t = 0 := by omega
    subst ht0
    exact ⟨N.toF, N, rfl, ⟨rfl, rfl, rfl, rfl, fun _ _ _ => rfl⟩, Nrb.NearMap.refl δ hv, by simp, by simp, fun _ _ => rfl⟩
  · rw [if_neg ht0]
    unfold Nrb.Sep at hsep
    unfold Nrb.multOf at ht
    rw [e] at hsep ht
    obtain ⟨V, Q, g1, g2, g3, g4, g5, Q', g6⟩ := C73_InsertKnot h0 hδ hrd hmono hone heps hE jk je hk
      (fun i (c : (Fin d → ℤ) × ℕ) => N.row a i c.1 c.2)
      (by rw [← hp]; exact h1) (by rw [← N.hi_eq]; exact h2) hsep (r := t) (by omega)
    rw [← hp] at g1
    rw [g1, res_ok_bind]
    have es : N.shape a + t - 1 = N.n a + t := by unfold Nrb.n; ring
    have ed : N.len a + t - (N.shape a + t) - 1 = N.degree a := by unfold Nrb.degree; ring
    have key := Nrb.near_setAxis h0 hδ hv a (s := N.shape a + t) (l := N.len a + t) hp ed (by rw [es]; exact g2)
      (by rw [g3, N.lo_eq, hp]) (by rw [N.hi_eq, ← g4]; congr 1; unfold Nrb.n; ring) (by rw [es]; exact g6)
    refine ⟨_, _, rfl, key.1, key.2, rfl, ?_, ?_⟩
    · unfold Nrb.knots
      rw [Nrb.setAxis_U_self, Nrb.setAxis_len, Function.update_self]
      rw [show N.len a + t - 1 = N.n a + t + p + 1 by rw [N.len_eq, hp]; ring, g5]
      congr 2
      rw [N.len_eq, hp]; ring
    · intro b hb; exact Nrb.setAxis_U_ne _ _ _ _ _ _ hb

/-- C90: `nrb.refine(axis, values)` in floating point -/
theorem C90_refine {δ : K} {rd : K → K} (h0 : 0 ≤ δ) (hδ : δ < 1) (hrd : RelErr δ rd) (hmono : Monotone rd)
    (hone : rd 1 = 1) {eps : K} (heps : 0 < eps) (hE : ∀ x, eps ≤ |x| → eps ≤ |rd x|) (jk : ℤ → K)
    (je : ℤ → (Fin d → ℤ) × ℕ → Fp K) {N : Nrb K (d + 1)} (hv : N.Valid) {axis : ℤ} {a : Fin (d + 1)}
    (ha : normAxis (d + 1) axis = .ok a) {values : List K}
    (hlo : ∀ x ∈ values, N.lo a < x) (hhi : ∀ x ∈ values, x < N.hi a)
    (hs : ∀ x ∈ values, N.Sep eps a x) (hss : ∀ x ∈ values, ∀ y ∈ values, x = y ∨ eps ≤ |x - y|)
    (hm : ∀ x, ((values.count x + mult (N.U a) 1 (N.len a - 2) x : ℕ) : ℤ) ≤ N.degree a) :
    ∃ F N', N.refineF rd eps jk je axis values = .ok F ∧ F.Is N' ∧ N.NearMap δ values.length N' ∧
      N'.shape = Function.update N.shape a (N.shape a + values.length) ∧
      N'.knots a = N.knots a + (values : Multiset K) ∧ ∀ b, b ≠ a → N'.U b = N.U b := by
  obtain ⟨p, hp, hk, e⟩ := deg_nat hv a
  unfold Nrb.refineF
  by_cases hv0 : values = []
  · subst hv0
    rw [if_pos rfl]
    exact ⟨N.toF, N, rfl, ⟨rfl, rfl, rfl, rfl, fun _ _ _ => rfl⟩, Nrb.NearMap.refl δ hv, by simp, by simp, fun _ _ => rfl⟩
  · rw [if_neg hv0, ha, res_ok_bind, refineArg_ok (fun x hx => (hlo x hx).le) (fun x hx => (hhi x hx).le) hm,
      res_ok_bind]
    have hperm := sort_perm values
    have hsrt := sort_pairwise values
    generalize values.mergeSort (fun x y => decide (x ≤ y)) = X at hperm hsrt
    have hlen : X.length = values.length := hperm.length_eq
    have hmem : ∀ j : ℤ, 0 ≤ j → j ≤ X.length - 1 → Nrb.ofList X j ∈ values := by
      intro j j1 j2
      rw [ofList_getElem X j1 j2]
      exact hperm.mem_iff.mp (List.getElem_mem _)
    obtain ⟨V, Q, g1, g2, g3, g4, g5, Q', g6⟩ := C90_RefineKnotVector h0 hδ hrd hmono hone heps hE jk je hk
      (fun i (c : (Fin d → ℤ) × ℕ) => N.row a i c.1 c.2)
      (r := X.length - 1) (by omega) (sortedOn_ofList hsrt)
      (fun j j1 j2 => by rw [← hp]; exact hlo _ (hmem j j1 j2))
      (fun j j1 j2 => by rw [← N.hi_eq]; exact hhi _ (hmem j j1 j2))
      (fun j j1 j2 => by rw [← e]; exact hs _ (hmem j j1 j2))
      (fun j j1 j2 i i1 i2 => by
        rcases hss _ (hmem j j1 j2) _ (hmem i i1 i2) with h | h
        · exact Or.inl h.symm
        · exact Or.inr h)
    rw [← hp] at g1
    rw [g1, res_ok_bind]
    have es : N.shape a + X.length - 1 = N.n a + (X.length - 1) + 1 := by unfold Nrb.n; ring
    have ed : N.len a + X.length - (N.shape a + X.length) - 1 = N.degree a := by unfold Nrb.degree; ring
    have ek : ((X.length : ℤ) - 1 + 1).toNat = values.length := by omega
    rw [ek] at g6
    have key := Nrb.near_setAxis h0 hδ hv a (s := N.shape a + X.length) (l := N.len a + X.length) hp ed (by rw [es]; exact g2)
      (by rw [g3, N.lo_eq, hp]) (by rw [N.hi_eq, ← g4]; congr 1; unfold Nrb.n; ring) (by rw [es]; exact g6)
    refine ⟨_, _, rfl, key.1, key.2, by rw [← hlen]; rfl, ?_, ?_⟩
    · unfold Nrb.knots
      rw [Nrb.setAxis_U_self, Nrb.setAxis_len, Function.update_self]
      rw [show N.len a + X.length - 1 = N.n a + (X.length - 1) + 1 + p + 1 by rw [N.len_eq, hp]; ring,
        g5, knotMS_ofList, Multiset.coe_eq_coe.mpr hperm]
      congr 2
      rw [N.len_eq, hp]; ring
    · intro b hb; exact Nrb.setAxis_U_ne _ _ _ _ _ _ hb

/-! ## sequences of operations -/

/-- the object after a sequence of insertions and refinements inside the domain, in floating point, and the number of inserted knots;
the initial contents of the arrays may differ from call to call -/
inductive MachineRun (rd : K → K) (eps : K) : Nrb K (d + 1) → ℕ → Nrb K (d + 1) → Prop
  | nil (N : Nrb K (d + 1)) : MachineRun rd eps N 0 N
  | insert {N M L : Nrb K (d + 1)} {k : ℕ} (h : MachineRun rd eps N k M) (jk : ℤ → K) (je : ℤ → (Fin d → ℤ) × ℕ → Fp K) {axis : ℤ}
      {a : Fin (d + 1)} (ha : normAxis (d + 1) axis = .ok a) {u : K} (h1 : M.lo a < u) (h2 : u < M.hi a) (hsep : M.Sep eps a u)
      {t : ℕ} (ht : ((t + M.multOf a u : ℕ) : ℤ) ≤ M.degree a) {F : FNrb K (d + 1)}
      (hF : M.insertF rd eps jk je axis u (some t) = .ok F) (hL : F.Is L) : MachineRun rd eps N (k + t) L
  | refine {N M L : Nrb K (d + 1)} {k : ℕ} (h : MachineRun rd eps N k M) (jk : ℤ → K) (je : ℤ → (Fin d → ℤ) × ℕ → Fp K) {axis : ℤ}
      {a : Fin (d + 1)} (ha : normAxis (d + 1) axis = .ok a) {values : List K}
      (hlo : ∀ x ∈ values, M.lo a < x) (hhi : ∀ x ∈ values, x < M.hi a)
      (hs : ∀ x ∈ values, M.Sep eps a x) (hss : ∀ x ∈ values, ∀ y ∈ values, x = y ∨ eps ≤ |x - y|)
      (hm : ∀ x, ((values.count x + mult (M.U a) 1 (M.len a - 2) x : ℕ) : ℤ) ≤ M.degree a) {F : FNrb K (d + 1)}
      (hF : M.refineF rd eps jk je axis values = .ok F) (hL : F.Is L) : MachineRun rd eps N (k + values.length) L

/-- two objects that are the same machine object agree as far as they are defined -/
theorem near_congr {δ : K} {k : ℕ} {N N' L : Nrb K d} {F : FNrb K d} (h : N.NearMap δ k N') (h1 : F.Is N') (h2 : F.Is L) :
    N.NearMap δ k L := by
  have es : L.shape = N'.shape := by rw [← h2.shape, h1.shape]
  have el : L.len = N'.len := by rw [← h2.len, h1.len]
  have eU : L.U = N'.U := by rw [← h2.U, h1.U]
  have eP : ∀ idx, (∀ a, 0 ≤ idx a ∧ idx a < N'.shape a) → L.P idx = N'.P idx := by
    intro idx hi
    funext c
    have q1 := h1.P idx hi c
    have q2 := h2.P idx (by rw [es]; exact hi) c
    rw [q1] at q2
    injection q2 with q2
    exact q2.symm
  have en : L.n = N'.n := by funext a; unfold Nrb.n; rw [es]
  have ed : L.degree = N'.degree := by funext a; unfold Nrb.degree; rw [es, el]
  have elo : L.lo = N'.lo := by funext a; unfold Nrb.lo; rw [eU, ed]
  have ehi : L.hi = N'.hi := by funext a; unfold Nrb.hi; rw [eU, ed, el]
  refine ⟨fun a => ?_, ?_, fun a => ?_, fun a => ?_, fun a => ?_, fun c A hA idx hi => ?_, fun c A hA x hx => ?_,
    fun c l u hl hb idx hi => ?_⟩
  · rw [en, ed, eU]; exact h.valid a
  · rw [← h2.nc, h1.nc]; exact h.nc
  · rw [ed]; exact h.degree a
  · rw [elo]; exact h.lo a
  · rw [ehi]; exact h.hi a
  · rw [es] at hi
    rw [eP idx hi]
    exact h.size c A hA idx hi
  · have : L.eval x = N'.eval x := by
      unfold Nrb.eval tensor
      rw [en, ed, eU]
      refine Finset.sum_congr rfl fun idx hi => ?_
      rw [eP idx (fun a => by
        have := Finset.mem_Icc.mp (Fintype.mem_piFinset.mp hi a)
        unfold Nrb.n at this
        omega)]
    rw [this]
    exact h.dist c A hA x hx
  · rw [es] at hi
    rw [eP idx hi]
    exact h.box c l u hl hb idx hi

/-- C90: any sequence of insertions and refinements, along any axes: the errors only add up -/
theorem C90_history {δ : K} {rd : K → K} (h0 : 0 ≤ δ) (hδ : δ < 1) (hrd : RelErr δ rd) (hmono : Monotone rd)
    (hone : rd 1 = 1) {eps : K} (heps : 0 < eps) (hE : ∀ x, eps ≤ |x| → eps ≤ |rd x|) {N N' : Nrb K (d + 1)} (hv : N.Valid) {k : ℕ}
    (h : MachineRun rd eps N k N') : N.NearMap δ k N' := by
  induction h with
  | nil => exact Nrb.NearMap.refl δ hv
  | insert h jk je ha h1 h2 hsep ht hF hL ih =>
    obtain ⟨F', M', e1, e2, e3, -⟩ := C90_insert h0 hδ hrd hmono hone heps hE jk je ih.valid ha h1 h2 hsep ht
    rw [hF] at e1
    injection e1 with e1
    subst e1
    exact ih.trans h0 hδ (near_congr e3 e2 hL)
  | refine h jk je ha hlo hhi hs hss hm hF hL ih =>
    obtain ⟨F', M', e1, e2, e3, -⟩ := C90_refine h0 hδ hrd hmono hone heps hE jk je ih.valid ha hlo hhi hs hss hm
    rw [hF] at e1
    injection e1 with e1
    subst e1
    exact ih.trans h0 hδ (near_congr e3 e2 hL)

/-- C90: the points, for weights between `l > 0` and `h` and control points of size at most `B` -/
theorem C90_points {δ : K} {rd : K → K} (h0 : 0 ≤ δ) (hδ : δ < 1) (hrd : RelErr δ rd) (hmono : Monotone rd)
    (hone : rd 1 = 1) {eps : K} (heps : 0 < eps) (hE : ∀ x, eps ≤ |x| → eps ≤ |rd x|) {N N' : Nrb K (d + 1)} (hv : N.Valid) {k : ℕ}
    (h : MachineRun rd eps N k N') {l u B : K} (hl : 0 < l)
    (hw : ∀ idx, (∀ a, 0 ≤ idx a ∧ idx a < N.shape a) → l ≤ N.P idx 3 ∧ N.P idx 3 ≤ u) {c : ℕ}
    (hB : ∀ idx, (∀ a, 0 ≤ idx a ∧ idx a < N.shape a) → |N.P idx c / N.P idx 3| ≤ B) {x : Fin (d + 1) → K} (hx : N.InDom x) :
    |N'.proj x c - N.proj x c| ≤ 2 * (growth δ ^ (8 * k) - 1) * growth δ ^ (3 * k) * (u / l) * B := by
  have H := C90_history h0 hδ hrd hmono hone heps hE hv h
  have hnet : ∀ {M : Nrb K (d + 1)} {idx : Fin (d + 1) → ℤ}, (∀ a, 0 ≤ idx a ∧ idx a ≤ M.n a) →
      ∀ a, 0 ≤ idx a ∧ idx a < M.shape a := by
    intro M idx hi a
    have := hi a
    unfold Nrb.n at this
    omega
  have hz : ∀ a, 0 ≤ (0 : Fin (d + 1) → ℤ) a ∧ (0 : Fin (d + 1) → ℤ) a < N.shape a := by
    intro a
    have := (hv a).one_le
    have := (hv a).le
    unfold Nrb.n at this
    simp only [Pi.zero_apply]
    omega
  have hB0 : 0 ≤ B := (abs_nonneg _).trans (hB 0 hz)
  have hu : 0 ≤ u := hl.le.trans ((hw 0 hz).1.trans (hw 0 hz).2)
  have hPc : ∀ idx, (∀ a, 0 ≤ idx a ∧ idx a < N.shape a) → |N.P idx c| ≤ B * N.P idx 3 := by
    intro idx hi
    have hwp := hl.trans_le (hw idx hi).1
    have := hB idx hi
    rwa [abs_div, abs_of_pos hwp, div_le_iff₀ hwp] at this
  have hg : 0 < growth δ ^ (3 * k) := by linarith [Fp.growth_pow h0 hδ (3 * k)]
  have hg8 := Fp.growth_pow h0 hδ (8 * k)
  have d1 := H.dist c (B * u) (fun idx hi => (hPc idx hi).trans (mul_le_mul_of_nonneg_left (hw idx hi).2 hB0)) x hx
  have d2 := H.dist 3 u (fun idx hi => by
    rw [abs_of_pos (hl.trans_le (hw idx hi).1)]
    exact (hw idx hi).2) x hx
  have b1 := Nrb.eval_ge hv hx (c := 3) (fun idx hi => (hw idx (hnet hi)).1)
  have b2 := Nrb.eval_ge H.valid (H.inDom hx) (c := 3) (fun idx hi => (H.box 3 l u hl hw idx (hnet hi)).1)
  have hq : |N.eval x c| ≤ B * N.eval x 3 := by
    rw [Nrb.eval_apply, Nrb.eval_apply, Finset.mul_sum]
    refine (Finset.abs_sum_le_sum_abs _ _).trans (Finset.sum_le_sum fun idx hi => ?_)
    have hi : ∀ a, 0 ≤ idx a ∧ idx a ≤ N.n a := fun a => Finset.mem_Icc.mp (Fintype.mem_piFinset.mp hi a)
    have hb := Nrb.wt_nonneg hv hx hi
    rw [abs_mul, abs_of_nonneg hb, mul_left_comm]
    exact mul_le_mul_of_nonneg_left (hPc idx (hnet hi)) hb
  exact quot_dist hl hu hg (by linarith) hB0 b1 b2 d1 d2 hq

/-- C90: the whole computation.  An object with positive weights is refined and then evaluated, all in floating point: the points
are finite and differ from those of the original object by the errors of the refinement and those of the evaluation. -/
theorem C90_call {δ : K} {rd : K → K} (h0 : 0 ≤ δ) (hδ : δ < 1) (hrd : RelErr δ rd) (hmono : Monotone rd)
    (hone : rd 1 = 1) {eps : K} (heps : 0 < eps) (hE : ∀ x, eps ≤ |x| → eps ≤ |rd x|) {N N' : Nrb K (d + 1)} (hd : d ≤ 2)
    (hv : N.Valid) {k : ℕ} (h : MachineRun rd eps N k N') {l u B : K} (hl : 0 < l)
    (hw : ∀ idx, (∀ a, 0 ≤ idx a ∧ idx a < N.shape a) → l ≤ N.P idx 3 ∧ N.P idx 3 ≤ u) {c : ℕ}
    (hB : ∀ idx, (∀ a, 0 ≤ idx a ∧ idx a < N.shape a) → |N.P idx c / N.P idx 3| ≤ B)
    (jk : ℤ → Fp K) (je : ℤ → ℕ → Fp K) {r : Fin (d + 1) → ℤ} {X : Fin (d + 1) → ℤ → K} (hn : ∀ a, 0 ≤ r a)
    (hx : ∀ a i, 0 ≤ i → i ≤ r a → N.lo a ≤ X a i ∧ X a i ≤ N.hi a) {m : ℕ}
    (hm : m = 6 * (∑ a, (N.degree a).toNat) + (d + 1) + ∏ a, ((N.degree a).toNat + 1)) :
    ∃ C, N'.callF rd jk je r X = .ok C ∧ ∀ i : Fin (d + 1) → ℤ, (∀ a, 0 ≤ i a ∧ i a ≤ r a) →
      ∃ y, (C i).1 c = some y ∧ |y - N.proj (fun a => X a (i a)) c| ≤
        (growth δ ^ (2 * m + 1) - 1) * (growth δ ^ (11 * k) * (u / l) * B) +
        2 * (growth δ ^ (8 * k) - 1) * growth δ ^ (3 * k) * (u / l) * B := by
  have H := C90_history h0 hδ hrd hmono hone heps hE hv h
  have hg : 0 < growth δ ^ (3 * k) := by linarith [Fp.growth_pow h0 hδ (3 * k)]
  have hbox := H.box 3 l u hl hw
  have hz : ∀ a, 0 ≤ (0 : Fin (d + 1) → ℤ) a ∧ (0 : Fin (d + 1) → ℤ) a < N.shape a := by
    intro a
    have := (hv a).one_le
    have := (hv a).le
    unfold Nrb.n at this
    simp only [Pi.zero_apply]
    omega
  have hB0 : 0 ≤ B := (abs_nonneg _).trans (hB 0 hz)
  have hu : 0 ≤ u := hl.le.trans ((hw 0 hz).1.trans (hw 0 hz).2)
  have hPc : ∀ idx, (∀ a, 0 ≤ idx a ∧ idx a < N.shape a) → |N.P idx c| ≤ B * u := by
    intro idx hi
    have hwp := hl.trans_le (hw idx hi).1
    have := hB idx hi
    rw [abs_div, abs_of_pos hwp, div_le_iff₀ hwp] at this
    exact this.trans (mul_le_mul_of_nonneg_left (hw idx hi).2 hB0)
  have hsz := H.size c (B * u) hPc
  have hpos : ∀ idx, (∀ a, 0 ≤ idx a ∧ idx a < N'.shape a) → 0 < N'.P idx 3 :=
    fun idx hi => (div_pos hl hg).trans_le (hbox idx hi).1
  obtain ⟨C, e1, e2⟩ := C72_call h0 hδ hrd jk je (N := N') (by omega) H.valid (r := r) (X := X) hn
    (fun a i i0 i1 => by rw [H.lo, H.hi]; exact hx a i i0 i1) hpos (m := m) (by
      rw [hm]
      simp only [H.degree])
  refine ⟨C, e1, fun i hi => ?_⟩
  obtain ⟨y, q1, q2⟩ := (e2 i hi c (growth δ ^ (11 * k) * (u / l) * B)).1 (fun idx hi => by
    have hp := hpos idx hi
    rw [abs_div, abs_of_pos hp, div_le_iff₀ hp]
    refine (hsz idx hi).trans ?_
    have hb := (hbox idx hi).1
    rw [div_le_iff₀ hg] at hb
    have hg11 : growth δ ^ (11 * k) = growth δ ^ (8 * k) * growth δ ^ (3 * k) := by rw [← pow_add]; congr 1; ring
    have hg8 : 0 < growth δ ^ (8 * k) := by linarith [Fp.growth_pow h0 hδ (8 * k)]
    rw [hg11]
    calc growth δ ^ (8 * k) * (B * u) = growth δ ^ (8 * k) * (u / l) * B * l := by field_simp
      _ ≤ growth δ ^ (8 * k) * (u / l) * B * (N'.P idx 3 * growth δ ^ (3 * k)) :=
        mul_le_mul_of_nonneg_left hb (by positivity)
      _ = _ := by ring)
  refine ⟨y, q1, ?_⟩
  have q3 := C90_points h0 hδ hrd hmono hone heps hE hv h hl hw hB (x := fun a => X a (i a))
    (fun a => hx a (i a) (hi a).1 (hi a).2)
  calc |y - N.proj (fun a => X a (i a)) c| = |(y - N'.proj (fun a => X a (i a)) c) +
        (N'.proj (fun a => X a (i a)) c - N.proj (fun a => X a (i a)) c)| := by ring_nf
    _ ≤ _ := abs_add_le _ _
    _ ≤ _ := add_le_add q2 q3

/-! ## an example: `Ex.S` in doubles -/

/-- the machine numbers keep values apart -/
theorem fl53_apart (x : ℚ) (h : 1 / 2 ^ 52 ≤ |x|) : 1 / 2 ^ 52 ≤ |Ex.fl 53 x| := by
  have := Ex.fl_ge (t := 53) (by norm_num) (-52) (x := x) (by rw [zpow_neg]; norm_num at h ⊢; exact h)
  rw [zpow_neg] at this
  norm_num at this ⊢
  exact this

/-- one knot inserted on the first axis, two on the second -/
theorem exRun (jk : ℤ → ℚ) (je : ℤ → (Fin 1 → ℤ) × ℕ → Fp ℚ) : ∃ N', MachineRun (Ex.fl 53) (1 / 2 ^ 52) Ex.S 3 N' := by
  have h0 : (0 : ℚ) ≤ (2 : ℚ) ^ (-((53 : ℕ) : ℤ)) := by positivity
  have hδ : (2 : ℚ) ^ (-((53 : ℕ) : ℤ)) < 1 := by norm_num
  have hs1 : Ex.S.Sep (1 / 2 ^ 52) 0 (3 / 2) :=
    Ex.sepFrom_of_list (l := [0, 0, 0, 1, 2, 2, 3, 3, 3]) (m := 8) (by decide) (by decide +kernel)
  have ht1 : ((1 + Ex.S.multOf 0 (3 / 2) : ℕ) : ℤ) ≤ Ex.S.degree 0 := by decide +kernel
  obtain ⟨F, M, e1, e2, e3, e4, -, e5⟩ := C90_insert h0 hδ (Ex.fl_relErr 53) (Ex.fl_mono (by norm_num)) (Ex.fl_one (by norm_num))
    (eps := 1 / 2 ^ 52) (by norm_num) fl53_apart jk je Ex.S_valid (axis := 0) (a := 0) rfl (u := 3 / 2)
    (show (0 : ℚ) < 3 / 2 by norm_num) (show (3 / 2 : ℚ) < 3 by norm_num) hs1 (t := 1) ht1
  have hU : M.U 1 = Ex.W := e5 1 (by decide)
  have hd : M.degree 1 = 2 := (e3.degree 1).trans rfl
  have hsh : M.shape 1 = 3 := by rw [e4]; rfl
  have hlen : M.len 1 = 6 := by
    have : M.degree 1 = (M.len 1 - 1) - (M.shape 1 - 1) - 1 := rfl
    omega
  have hlo : M.lo 1 = 0 := (e3.lo 1).trans rfl
  have hhi : M.hi 1 = 1 := (e3.hi 1).trans rfl
  have hmem : ∀ x ∈ ([3 / 4, 1 / 4] : List ℚ), x = 3 / 4 ∨ x = 1 / 4 := by simp
  have k1 : ∀ x ∈ ([3 / 4, 1 / 4] : List ℚ), M.lo 1 < x := by
    rw [hlo]; intro x hx; rcases hmem x hx with rfl | rfl <;> norm_num
  have k2 : ∀ x ∈ ([3 / 4, 1 / 4] : List ℚ), x < M.hi 1 := by
    rw [hhi]; intro x hx; rcases hmem x hx with rfl | rfl <;> norm_num
  have k3 : ∀ x ∈ ([3 / 4, 1 / 4] : List ℚ), M.Sep (1 / 2 ^ 52) 1 x := by
    intro x hx
    unfold Nrb.Sep
    rw [hU, hlen]
    rcases hmem x hx with rfl | rfl <;>
      exact Ex.sepFrom_of_list (l := [-2, -1, 0, 1, 2, 3]) (by decide) (by decide +kernel)
  have k4 : ∀ x ∈ ([3 / 4, 1 / 4] : List ℚ), ∀ y ∈ ([3 / 4, 1 / 4] : List ℚ), x = y ∨ 1 / 2 ^ 52 ≤ |x - y| := by decide +kernel
  have k5 : ∀ x, ((([3 / 4, 1 / 4] : List ℚ).count x + mult (M.U 1) 1 (M.len 1 - 2) x : ℕ) : ℤ) ≤ M.degree 1 := by
    rw [hU, hlen, hd]
    exact count_le_of_list (by norm_num) (by decide +kernel)
  obtain ⟨F', L, g1, g2, -⟩ := C90_refine h0 hδ (Ex.fl_relErr 53) (Ex.fl_mono (by norm_num)) (Ex.fl_one (by norm_num))
    (eps := 1 / 2 ^ 52) (by norm_num) fl53_apart jk je e3.valid (axis := -1) (a := 1) rfl k1 k2 k3 k4 k5
  exact ⟨L, .refine (.insert (.nil Ex.S) jk je (axis := 0) (a := 0) rfl (u := 3 / 2) (show (0 : ℚ) < 3 / 2 by norm_num)
    (show (3 / 2 : ℚ) < 3 by norm_num) hs1 (t := 1) ht1 e1 e2) jk je (axis := -1) (a := 1) rfl k1 k2 k3 k4 k5 g1 g2⟩

/-- insertion, refinement and evaluation at `(1/3, 1/7)`: the result is right to ten digits -/
example (jk : ℤ → ℚ) (je : ℤ → (Fin 1 → ℤ) × ℕ → Fp ℚ) (jk' : ℤ → Fp ℚ) (je' : ℤ → ℕ → Fp ℚ) :
    ∃ N', MachineRun (Ex.fl 53) (1 / 2 ^ 52) Ex.S 3 N' ∧
      ∃ C, N'.callF (Ex.fl 53) jk' je' ![0, 0] ![fun _ => 1 / 3, fun _ => 1 / 7] = .ok C ∧
        ∃ y, (C ![0, 0]).1 0 = some y ∧ |y - Ex.S.proj ![1 / 3, 1 / 7] 0| ≤ 1 / 10 ^ 10 := by
  obtain ⟨N', hN⟩ := exRun jk je
  refine ⟨N', hN, ?_⟩
  obtain ⟨C, h1, h2⟩ := C90_call (δ := (2 : ℚ) ^ (-((53 : ℕ) : ℤ))) (by positivity) (by norm_num) (Ex.fl_relErr 53)
    (Ex.fl_mono (by norm_num)) (Ex.fl_one (by norm_num)) (eps := 1 / 2 ^ 52) (by norm_num) fl53_apart (by norm_num) Ex.S_valid hN
    (l := 1) (u := 3) (B := 31) one_pos
    (fun idx h => by
      show (1 : ℚ) ≤ 1 + idx 1 ∧ (1 + idx 1 : ℚ) ≤ 3
      have : (0 : ℚ) ≤ idx 1 := by exact_mod_cast (h 1).1
      have : (idx 1 : ℚ) ≤ 2 := by exact_mod_cast Int.le_of_lt_add_one (show idx 1 < 2 + 1 from (h 1).2)
      constructor <;> linarith) (c := 0)
    (fun idx h => by
      show |((((0 : ℕ) : ℚ) + 1) * idx 0 * idx 0 + idx 1 * 3 - ((0 : ℕ) : ℚ)) / (1 + idx 1)| ≤ 31
      have a1 : (0 : ℚ) ≤ idx 0 := by exact_mod_cast (h 0).1
      have a2 : (idx 0 : ℚ) ≤ 5 := by exact_mod_cast Int.le_of_lt_add_one (show idx 0 < 5 + 1 from (h 0).2)
      have a3 : (0 : ℚ) ≤ idx 1 := by exact_mod_cast (h 1).1
      rw [abs_of_nonneg (div_nonneg (by push_cast; nlinarith) (by linarith)), div_le_iff₀ (by linarith)]
      push_cast
      nlinarith)
    jk' je' (r := ![0, 0]) (X := ![fun _ => 1 / 3, fun _ => 1 / 7]) (fun a => by fin_cases a <;> exact le_rfl)
    (fun a i _ _ => by
      fin_cases a
      · exact ⟨(by norm_num : (0 : ℚ) ≤ 1 / 3), (by norm_num : (1 / 3 : ℚ) ≤ 3)⟩
      · exact ⟨(by norm_num : (0 : ℚ) ≤ 1 / 7), (by norm_num : (1 / 7 : ℚ) ≤ 1)⟩) (m := 35) (by decide +kernel)
  obtain ⟨y, e1, e2⟩ := h2 ![0, 0] (fun a => by fin_cases a <;> exact ⟨le_rfl, le_rfl⟩)
  refine ⟨C, h1, y, e1, ?_⟩
  have e3 : (fun a => (![fun _ => 1 / 3, fun _ => 1 / 7] : Fin 2 → ℤ → ℚ) a ((![0, 0] : Fin 2 → ℤ) a)) = ![1 / 3, 1 / 7] := by
    funext a
    fin_cases a <;> rfl
  rw [e3] at e2
  refine e2.trans ?_
  have g1 := growth_le (δ := (2 : ℚ) ^ (-((53 : ℕ) : ℤ))) (by positivity) (m := 2 * 35 + 1) (by norm_num)
  have g2 := growth_le (δ := (2 : ℚ) ^ (-((53 : ℕ) : ℤ))) (by positivity) (m := 11 * 3) (by norm_num)
  have g3 := growth_le (δ := (2 : ℚ) ^ (-((53 : ℕ) : ℤ))) (by positivity) (m := 8 * 3) (by norm_num)
  have g4 := growth_le (δ := (2 : ℚ) ^ (-((53 : ℕ) : ℤ))) (by positivity) (m := 3 * 3) (by norm_num)
  have p1 := Fp.growth_pow (δ := (2 : ℚ) ^ (-((53 : ℕ) : ℤ))) (by positivity) (by norm_num) (2 * 35 + 1)
  have p2 := Fp.growth_pow (δ := (2 : ℚ) ^ (-((53 : ℕ) : ℤ))) (by positivity) (by norm_num) (11 * 3)
  have p3 := Fp.growth_pow (δ := (2 : ℚ) ^ (-((53 : ℕ) : ℤ))) (by positivity) (by norm_num) (8 * 3)
  have p4 := Fp.growth_pow (δ := (2 : ℚ) ^ (-((53 : ℕ) : ℤ))) (by positivity) (by norm_num) (3 * 3)
  generalize growth ((2 : ℚ) ^ (-((53 : ℕ) : ℤ))) ^ (2 * 35 + 1) = a at *
  generalize growth ((2 : ℚ) ^ (-((53 : ℕ) : ℤ))) ^ (11 * 3) = b at *
  generalize growth ((2 : ℚ) ^ (-((53 : ℕ) : ℤ))) ^ (8 * 3) = c at *
  generalize growth ((2 : ℚ) ^ (-((53 : ℕ) : ℤ))) ^ (3 * 3) = e at *
  norm_num at g1 g2 g3 g4
  have ha : a - 1 ≤ 1 / 10 ^ 14 := by norm_num; linarith
  have hb : b ≤ 2 := by linarith
  have hc : c - 1 ≤ 1 / 10 ^ 14 := by norm_num; linarith
  have he : e ≤ 2 := by linarith
  have m1 := mul_le_mul ha hb (by linarith) (by norm_num)
  have m2 := mul_le_mul hc he (by linarith) (by norm_num)
  norm_num at m1 m2 ⊢
  nlinarith

end Igakit
