import Verif.Props.Nurbs
import Verif.Proofs.ListArr

/-!
# Properties C08, C09, C11-C15 for NURBS objects of any number of axes
-/

set_option linter.unusedSectionVars false

namespace Igakit
open Spec

variable {K : Type} [Field K] [LinearOrder K] [IsStrictOrderedRing K] {d : ℕ}

/-! ## C09: refinement -/

theorem refineArg_ok {p : ℤ} {U : ℤ → K} {len : ℤ} {values : List K}
    (hlo : ∀ x ∈ values, U p ≤ x) (hhi : ∀ x ∈ values, x ≤ U (len + (-p - 1)))
    (hm : ∀ x, ((values.count x + mult U 1 (len - 2) x : ℕ) : ℤ) ≤ p) :
    Nrb.refineArg p U len values = .ok (values.mergeSort (fun x y => decide (x ≤ y))) := by
  have hperm := sort_perm values
  unfold Nrb.refineArg
  dsimp only
  rw [pyAssert_ok, res_ok_bind, pyAssert_ok, res_ok_bind, pyAssert_ok]
  · rfl
  · intro x _
    rw [List.count_append, slab_count, hperm.count_eq]
    exact hm x
  · intro x hx
    exact hhi x (hperm.mem_iff.mp (List.mem_of_getLast? hx))
  · intro x hx
    exact hlo x (hperm.mem_iff.mp (List.mem_of_head? hx))

/-- C09: `nrb.refine(axis, values)` for values (in any order, with repetitions) strictly inside the
domain such that no knot gets a multiplicity above the degree: the map is kept, the control points
grow by the number of values and the new knots are the old knots merged with the values; the other
axes are untouched. -/
theorem C09_refine {eps : K} (heps : 0 < eps) (jk : ℤ → K) (je : ℤ → (Fin d → ℤ) → ℕ → K)
    {N : Nrb K (d + 1)} (hv : N.Valid) {axis : ℤ} {a : Fin (d + 1)}
    (ha : normAxis (d + 1) axis = .ok a) {values : List K}
    (hlo : ∀ x ∈ values, N.lo a < x) (hhi : ∀ x ∈ values, x < N.hi a)
    (hs : ∀ x ∈ values, N.Sep eps a x) (hss : ∀ x ∈ values, ∀ y ∈ values, x = y ∨ eps ≤ |x - y|)
    (hm : ∀ x, ((values.count x + mult (N.U a) 1 (N.len a - 2) x : ℕ) : ℤ) ≤ N.degree a) :
    ∃ N', N.refine eps jk je axis values = .ok N' ∧ N'.Valid ∧ N.SameMap N' ∧
      N'.shape = Function.update N.shape a (N.shape a + values.length) ∧
      N'.knots a = N.knots a + (values : Multiset K) ∧ ∀ b, b ≠ a → N'.U b = N.U b := by
  obtain ⟨p, hp, hk, e⟩ := deg_nat hv a
  unfold Nrb.refine
  by_cases h0 : values = []
  · subst h0
    rw [if_pos rfl]
    exact ⟨N, rfl, hv, Nrb.SameMap.refl N, by simp, by simp, fun _ _ => rfl⟩
  · rw [if_neg h0, ha, res_ok_bind, refineArg_ok (fun x hx => (hlo x hx).le) (fun x hx => (hhi x hx).le) hm,
      res_ok_bind]
    have hperm := sort_perm values
    have hsrt := sort_pairwise values
    generalize values.mergeSort (fun x y => decide (x ≤ y)) = X at hperm hsrt
    have hlen : X.length = values.length := hperm.length_eq
    have hmem : ∀ j : ℤ, 0 ≤ j → j ≤ X.length - 1 → Nrb.ofList X j ∈ values := by
      intro j j1 j2
      rw [ofList_getElem X j1 j2]
      exact hperm.mem_iff.mp (List.getElem_mem _)
    obtain ⟨V, Q, g1, g2, g3, g4, g5, g6⟩ := C09_RefineKnotVector heps jk je hk (N.row a)
      (r := X.length - 1) (by omega) (sortedOn_ofList hsrt)
      (fun j j1 j2 => by rw [← hp]; exact hlo _ (hmem j j1 j2))
      (fun j j1 j2 => by rw [← N.hi_eq]; exact hhi _ (hmem j j1 j2))
      (fun j j1 j2 => by rw [← e]; exact hs _ (hmem j j1 j2))
      (fun j j1 j2 i i1 i2 => by
        rcases hss _ (hmem j j1 j2) _ (hmem i i1 i2) with h | h
        · exact Or.inl h.symm
        · exact Or.inr h)
    have hpn : (N.degree a).toNat = p := by omega
    rw [← hp] at g1 g2 g3 g5
    rw [g1, res_ok_bind]
    have es : N.shape a + X.length - 1 = N.n a + (X.length - 1) + 1 := by unfold Nrb.n; ring
    have ed : N.len a + X.length - (N.shape a + X.length) - 1 = N.degree a := by unfold Nrb.degree; ring
    refine ⟨_, rfl, ?_, ?_, ?_, ?_, ?_⟩
    · apply Nrb.setAxis_valid _ _ _ _ _ _ (fun b _ => hv b)
      rw [es, ed]; exact g2
    · apply Nrb.setAxis_sameMap _ _ _ _ _ _ ed g3
      · rw [N.hi_eq, ← g4]; congr 1; unfold Nrb.n; ring
      · intro w w1 w2
        rw [es, hpn]
        exact g6 w (by rw [← hp]; exact w1) (by rw [← N.hi_eq]; exact w2)
    · rw [← hlen]; rfl
    · unfold Nrb.knots
      rw [Nrb.setAxis_U_self, Nrb.setAxis_len, Function.update_self]
      rw [show N.len a + X.length - 1 = N.n a + (X.length - 1) + 1 + N.degree a + 1 by rw [N.len_eq]; ring,
        g5, knotMS_ofList, Multiset.coe_eq_coe.mpr hperm]
      congr 2
      rw [N.len_eq]; ring
    · intro b hb; exact Nrb.setAxis_U_ne _ _ _ _ _ _ hb

/-- C09: the order of the values does not matter. -/
theorem C09_refine_perm (eps : K) (jk : ℤ → K) (je : ℤ → (Fin d → ℤ) → ℕ → K) (N : Nrb K (d + 1))
    (axis : ℤ) {l l' : List K} (h : l.Perm l') :
    N.refine eps jk je axis l = N.refine eps jk je axis l' := by
  have hs : l.mergeSort (fun x y => decide (x ≤ y)) = l'.mergeSort (fun x y => decide (x ≤ y)) :=
    List.Perm.eq_of_pairwise (le := (· ≤ ·)) (fun _ _ _ _ => le_antisymm) (sort_pairwise l)
      (sort_pairwise l') ((sort_perm l).trans (h.trans (sort_perm l').symm))
  unfold Nrb.refine Nrb.refineArg
  rw [hs]
  have : l = [] ↔ l' = [] := by rw [← List.length_eq_zero_iff, ← List.length_eq_zero_iff, h.length_eq]
  simp only [this]


theorem count_le_of_list {l : List K} {U : ℤ → K} {m p : ℤ} (hp : 0 ≤ p)
    (h : ∀ x ∈ l ++ Nrb.slab U 1 m, (((l ++ Nrb.slab U 1 m).count x : ℕ) : ℤ) ≤ p) (x : K) :
    ((l.count x + mult U 1 m x : ℕ) : ℤ) ≤ p := by
  rw [← slab_count, ← List.count_append]
  by_cases hx : x ∈ l ++ Nrb.slab U 1 m
  · exact h x hx
  · rw [List.count_eq_zero_of_not_mem hx]; exact_mod_cast hp

example := C09_refine (eps := 1 / 1000) (by norm_num) (fun _ => 7) (fun _ _ _ => 9) Ex.S_valid
  (axis := 0) (a := 0) rfl (values := [5 / 2, 1, 1 / 2, 5 / 2]) (by decide +kernel)
  (by decide +kernel) (by
    intro x hx
    fin_cases hx <;> exact Ex.U_sep _ (by decide +kernel)) (by decide +kernel)
  (count_le_of_list (by decide +kernel) (by decide +kernel))

/-! ## C13, C14, C15: clamping -/

namespace Nrb
/-- both domain ends of axis `a` are `eps` away from other knots -/
def SepBoth (N : Nrb K d) (eps : K) (a : Fin d) : Prop :=
  N.Sep eps a (N.lo a) ∧ N.Sep eps a (N.hi a)
end Nrb

theorem sepEnds_of {eps : K} {N : Nrb K d} {a : Fin d} {p : ℕ} (hp : N.degree a = p)
    (e : N.len a - 1 = N.n a + p + 1) (h : N.SepBoth eps a) : SepEnds eps (N.n a) p (N.U a) := by
  obtain ⟨h1, h2⟩ := h
  unfold Nrb.Sep at h1 h2
  rw [e] at h1 h2
  rw [N.lo_eq, hp] at h1
  rw [N.hi_eq] at h2
  exact ⟨h1, h2⟩

/-- which ends a `side` argument selects: `None` both, `0` left, `1` right -/
def selects (side : Option ℤ) (s : ℤ) : Prop := side = none ∨ side = some s

theorem sideFlags_ok {side : Option ℤ} (h : side = none ∨ side = some 0 ∨ side = some 1) :
    ∃ l r : Bool, Nrb.sideFlags side = .ok (l, r) ∧ (l = true ↔ selects side 0) ∧
      (r = true ↔ selects side 1) := by
  rcases h with rfl | rfl | rfl
  · exact ⟨true, true, rfl, by simp [selects], by simp [selects]⟩
  · exact ⟨true, false, rfl, by simp [selects], by simp [selects]⟩
  · exact ⟨false, true, rfl, by simp [selects], by simp [selects]⟩

/-- C13: `nrb.clamp(axis, side)` keeps the map and the shape, makes the first/last `degree+1` knots
equal to the domain end for every selected end and changes no other knot. -/
theorem C13_clamp {eps : K} (heps : 0 < eps) (je : ℤ → (Fin d → ℤ) → ℕ → K)
    {N : Nrb K (d + 1)} (hv : N.Valid) {axis : ℤ} {a : Fin (d + 1)}
    (ha : normAxis (d + 1) axis = .ok a) {side : Option ℤ}
    (hside : side = none ∨ side = some 0 ∨ side = some 1) (hsep : N.SepBoth eps a) :
    ∃ N', N.clamp eps je axis side = .ok N' ∧ N'.Valid ∧ N.SameMap N' ∧ N'.shape = N.shape ∧
      (selects side 0 → ∀ j, 0 ≤ j → j ≤ N.degree a → N'.U a j = N.lo a) ∧
      (selects side 1 → ∀ j, N.shape a ≤ j → j < N.len a → N'.U a j = N.hi a) ∧
      (∀ j, (¬ selects side 0 ∨ N.degree a ≤ j) → (¬ selects side 1 ∨ j ≤ N.shape a) →
        N'.U a j = N.U a j) ∧
      ∀ b, b ≠ a → N'.U b = N.U b := by
  obtain ⟨p, hp, hk, e⟩ := deg_nat hv a
  obtain ⟨l, r, hf, hl, hr⟩ := sideFlags_ok hside
  obtain ⟨V, Q, g1, g2, g3, g4, g5, g6⟩ := C13_Clamp heps je hk (sepEnds_of hp e hsep) (N.row a) l r
  have hle := hk.le
  have hpn : (N.degree a).toNat = p := by omega
  have es : N.shape a = N.n a + 1 := by unfold Nrb.n; ring
  have e1 : V p = N.U a p := g5 p (Or.inr le_rfl) (Or.inr (by omega))
  have e2 : V (N.n a + 1) = N.U a (N.n a + 1) := g5 _ (Or.inr (by omega)) (Or.inr (by omega))
  unfold Nrb.clamp
  rw [ha, res_ok_bind, hf, res_ok_bind]
  dsimp only
  rw [hp, g1, res_ok_bind]
  refine ⟨_, rfl, ?_, ?_, ?_, ?_, ?_, ?_, ?_⟩
  · apply Nrb.setAxis_valid _ _ _ _ _ _ (fun b _ => hv b)
    rw [show N.len a - N.shape a - 1 = p by rw [← hp]; unfold Nrb.degree; ring]
    exact g2
  · apply Nrb.setAxis_sameMap _ _ _ _ _ _ (by unfold Nrb.degree; ring)
    · rw [hp, N.lo_eq, hp]; exact e1
    · rw [N.hi_eq, es]; exact e2
    · intro w w1 w2
      rw [hpn]
      exact g6 w (by rw [← hp]; exact w1) (by rw [← N.hi_eq]; exact w2)
  · simp
  · intro h j j1 j2
    rw [Nrb.setAxis_U_self]; dsimp only; rw [g3 (hl.mpr h) j j1 (by omega), e1, N.lo_eq, hp]
  · intro h j j1 j2
    rw [Nrb.setAxis_U_self]; dsimp only; rw [g4 (hr.mpr h) j (by omega) (by omega), e2, N.hi_eq]
  · intro j j1 j2
    rw [Nrb.setAxis_U_self]
    refine g5 j ?_ ?_
    · rcases j1 with j1 | j1
      · left; simpa using fun h => j1 (hl.mp h)
      · right; omega
    · rcases j2 with j2 | j2
      · left; simpa using fun h => j2 (hr.mp h)
      · right; omega
  · intro b hb; exact Nrb.setAxis_U_ne _ _ _ _ _ _ hb

/-- C14: `nrb.unclamp(axis, side, continuity)` keeps the map and the shape and gives every selected
end knots that are the translates by one period of the knots at the other end (`continuity + 1`
of them; the remaining end knots coincide with the domain end). -/
theorem C14_unclamp {eps : K} (heps : 0 < eps) (je : ℤ → (Fin d → ℤ) → ℕ → K)
    {N : Nrb K (d + 1)} (hv : N.Valid) {axis : ℤ} {a : Fin (d + 1)}
    (ha : normAxis (d + 1) axis = .ok a) {side : Option ℤ}
    (hside : side = none ∨ side = some 0 ∨ side = some 1) {cont : Option ℤ}
    (hC : ∀ c ∈ cont, 0 ≤ c ∧ c < N.degree a) (hsep : N.SepBoth eps a) :
    ∃ N', N.unclamp eps je axis side cont = .ok N' ∧ N'.Valid ∧ N.SameMap N' ∧ N'.shape = N.shape ∧
      (∀ j, 0 ≤ j → j < N.len a → (¬ selects side 0 ∨ N.degree a ≤ j) → (¬ selects side 1 ∨ j ≤ N.shape a) →
        N'.U a j = N.U a j) ∧
      (selects side 0 →
        (∀ j, cont.getD (N.degree a - 1) < j → j ≤ N.degree a → N'.U a j = N.lo a) ∧
        ∀ i, 0 ≤ i → i ≤ cont.getD (N.degree a - 1) →
          N'.U a (cont.getD (N.degree a - 1) - i) = N'.U a (N.n a - i) - (N.hi a - N.lo a)) ∧
      (selects side 1 →
        (∀ j, N.shape a ≤ j → j < N.len a - 1 - cont.getD (N.degree a - 1) → N'.U a j = N.hi a) ∧
        ∀ i, 0 ≤ i → i ≤ cont.getD (N.degree a - 1) →
          N'.U a (N.len a - 1 - cont.getD (N.degree a - 1) + i) =
            N'.U a (N.degree a + 1 + i) + (N.hi a - N.lo a)) ∧
      ∀ b, b ≠ a → N'.U b = N.U b := by
  obtain ⟨p, hp, hk, e⟩ := deg_nat hv a
  obtain ⟨l, r, hf, hl, hr⟩ := sideFlags_ok hside
  have hle := hk.le
  have hp1 := hk.one_le
  have hpn : (N.degree a).toNat = p := by omega
  have es : N.shape a = N.n a + 1 := by unfold Nrb.n; ring
  have hCC : Nrb.contArg (N.degree a) cont = .ok (cont.getD (N.degree a - 1)) := by
    cases cont with
    | none => rfl
    | some c =>
      have := hC c rfl
      unfold Nrb.contArg
      dsimp only
      rw [pyAssert_ok ⟨this.1, by omega⟩]; rfl
  have hC0 : 0 ≤ cont.getD (N.degree a - 1) ∧ cont.getD (N.degree a - 1) < p := by
    cases cont with
    | none => simp only [Option.getD_none]; omega
    | some c => have := hC c rfl; simp only [Option.getD_some]; omega
  unfold Nrb.unclamp
  rw [ha, res_ok_bind, hf, res_ok_bind, hCC, res_ok_bind]
  generalize cont.getD (N.degree a - 1) = C at hC0
  obtain ⟨V, Q, g1, g2, g3, g4, g5, g6⟩ := C14_Unclamp heps je hk (sepEnds_of hp e hsep) (N.row a)
    hC0.1 hC0.2 l r
  have e1 : V p = N.U a p := g3 p (by omega) (by omega) (Or.inr le_rfl) (Or.inr (by omega))
  have e2 : V (N.n a + 1) = N.U a (N.n a + 1) := g3 _ (by omega) (by omega) (Or.inr (by omega)) (Or.inr le_rfl)
  dsimp only
  rw [hp, g1, res_ok_bind]
  refine ⟨_, rfl, ?_, ?_, ?_, ?_, ?_, ?_, ?_⟩
  · apply Nrb.setAxis_valid _ _ _ _ _ _ (fun b _ => hv b)
    rw [show N.len a - N.shape a - 1 = p by rw [← hp]; unfold Nrb.degree; ring]
    exact g2
  · apply Nrb.setAxis_sameMap _ _ _ _ _ _ (by unfold Nrb.degree; ring)
    · rw [hp, N.lo_eq, hp]; exact e1
    · rw [N.hi_eq, es]; exact e2
    · intro w w1 w2
      rw [hpn]
      exact g6 w (by rw [← hp]; exact w1) (by rw [← N.hi_eq]; exact w2)
  · simp
  · intro j j0 j1 j2 j3
    rw [Nrb.setAxis_U_self]
    refine g3 j j0 (by omega) ?_ ?_
    · rcases j2 with j2 | j2
      · left; simpa using fun h => j2 (hl.mp h)
      · right; omega
    · rcases j3 with j3 | j3
      · left; simpa using fun h => j3 (hr.mp h)
      · right; omega
  · intro h
    obtain ⟨q1, q2⟩ := g4 (hl.mpr h)
    rw [Nrb.setAxis_U_self]; dsimp only; rw [N.lo_eq, N.hi_eq, hp, ← e1, ← e2]
    exact ⟨q1, q2⟩
  · intro h
    obtain ⟨q1, q2⟩ := g5 (hr.mpr h)
    rw [Nrb.setAxis_U_self]; dsimp only; rw [N.lo_eq, N.hi_eq, hp, ← e1, ← e2, e, es]
    exact ⟨q1, q2⟩
  · intro b hb; exact Nrb.setAxis_U_ne _ _ _ _ _ _ hb

example := C13_clamp (eps := 1 / 1000) (by norm_num) (fun _ _ _ => 9) Ex.S_valid
  (axis := 1) (a := 1) rfl (side := some 1) (by decide)
  ⟨Ex.W_sep _ (by decide +kernel), Ex.W_sep _ (by decide +kernel)⟩
example := C14_unclamp (eps := 1 / 1000) (by norm_num) (fun _ _ _ => 9) Ex.S_valid
  (axis := -2) (a := 0) rfl (side := none) (by decide) (cont := some 0) (by decide +kernel)
  ⟨Ex.U_sep _ (by decide +kernel), Ex.U_sep _ (by decide +kernel)⟩

/-- C15: on a clamped axis `clamp` after `unclamp` (same side) gives back every knot and every control
point. -/
theorem C15_clamp_after_unclamp {eps : K} (heps : 0 < eps) (je je' : ℤ → (Fin d → ℤ) → ℕ → K)
    {N : Nrb K (d + 1)} (hv : N.Valid) {axis : ℤ} {a : Fin (d + 1)}
    (ha : normAxis (d + 1) axis = .ok a) {side : Option ℤ}
    (hside : side = none ∨ side = some 0 ∨ side = some 1) {cont : Option ℤ}
    (hC : ∀ c ∈ cont, 0 ≤ c ∧ c < N.degree a) (hsep : N.SepBoth eps a)
    (hcL : ClampedL (N.degree a) (N.U a)) (hcR : ClampedR (N.n a) (N.degree a) (N.U a)) :
    ∃ N' N'', N.unclamp eps je axis side cont = .ok N' ∧ N'.clamp eps je' axis side = .ok N'' ∧
      N''.shape = N.shape ∧ N''.len = N.len ∧ N''.nc = N.nc ∧
      (∀ b j, 0 ≤ j → j < N.len b → N''.U b j = N.U b j) ∧
      ∀ idx, (∀ b, 0 ≤ idx b ∧ idx b < N.shape b) → N''.P idx = N.P idx := by
  obtain ⟨p, hp, hk, e⟩ := deg_nat hv a
  obtain ⟨l, r, hf, hl, hr⟩ := sideFlags_ok hside
  have hle := hk.le
  have hp1 := hk.one_le
  have es : N.shape a = N.n a + 1 := by unfold Nrb.n; ring
  have hCC : Nrb.contArg (N.degree a) cont = .ok (cont.getD (N.degree a - 1)) := by
    cases cont with
    | none => rfl
    | some c =>
      have := hC c rfl
      unfold Nrb.contArg
      dsimp only
      rw [pyAssert_ok ⟨this.1, by omega⟩]; rfl
  have hC0 : 0 ≤ cont.getD (N.degree a - 1) ∧ cont.getD (N.degree a - 1) < p := by
    cases cont with
    | none => simp only [Option.getD_none]; omega
    | some c => have := hC c rfl; simp only [Option.getD_some]; omega
  unfold Nrb.unclamp
  rw [ha, res_ok_bind, hf, res_ok_bind, hCC, res_ok_bind]
  generalize cont.getD (N.degree a - 1) = C at hC0
  rw [hp] at hcL hcR
  obtain ⟨V, Q, V', Q', g1, g2, g3, g4⟩ := C15_clamp_unclamp heps je je' hk (sepEnds_of hp e hsep) hcL hcR
    (N.row a) hC0.1 hC0.2 l r
  dsimp only
  rw [hp, g1, res_ok_bind]
  refine ⟨_, (N.setAxis a (N.shape a) (N.len a) V Q).setAxis a (N.shape a) (N.len a) V' Q', rfl, ?_, ?_⟩
  · unfold Nrb.clamp
    rw [ha, res_ok_bind, hf, res_ok_bind]
    simp only [Nrb.setAxis_n_self, Nrb.setAxis_degree_self, Nrb.setAxis_U_self, Nrb.setAxis_row]
    rw [show N.len a - N.shape a - 1 = p by rw [← hp]; unfold Nrb.degree; ring,
      show N.shape a - 1 = N.n a from rfl, g2]
    simp
  · refine ⟨by simp, by simp, rfl, ?_, ?_⟩
    · intro b j j1 j2
      by_cases hb : b = a
      · subst hb
        rw [Nrb.setAxis_U_self]; exact g3 j j1 (by omega)
      · rw [Nrb.setAxis_U_ne _ _ _ _ _ _ hb, Nrb.setAxis_U_ne _ _ _ _ _ _ hb]
    · intro idx hi
      show Q' (idx a) (a.removeNth idx) = N.P idx
      rw [g4 _ (hi a).1 (by have := (hi a).2; omega)]
      unfold Nrb.row
      rw [Fin.insertNth_self_removeNth]


/-! ## C11, C12: extraction and boundaries -/

/-- the object with one parameter fixed: shape, knots and degrees of the other axes -/
structure Nrb.IsSection (N : Nrb K (d + 1)) (a : Fin (d + 1)) (u : K) (N' : Nrb K d) : Prop where
  nc : N'.nc = N.nc
  shape : ∀ b, N'.shape b = N.shape (a.succAbove b)
  len : ∀ b, N'.len b = N.len (a.succAbove b)
  U : ∀ b, N'.U b = N.U (a.succAbove b)
  eval : ∀ y, N'.eval y = N.eval (a.insertNth u y)

theorem isSection_of {N : Nrb K (d + 1)} {a : Fin (d + 1)} {u : K} :
    N.IsSection a u
      { shape := a.removeNth N.shape, nc := N.nc, len := a.removeNth N.len, U := a.removeNth N.U,
        P := curve (N.n a) (N.degree a).toNat (N.U a) (N.row a) u } := by
  refine ⟨rfl, fun _ => rfl, fun _ => rfl, fun _ => rfl, ?_⟩
  intro y
  rw [N.eval_split a, Fin.insertNth_apply_same, Fin.removeNth_insertNth]
  rfl

theorem isSection_valid {N : Nrb K (d + 1)} {a : Fin (d + 1)} {u : K} {N' : Nrb K d} (hv : N.Valid)
    (h : N.IsSection a u N') : N'.Valid := by
  intro b
  have := hv (a.succAbove b)
  unfold Nrb.n Nrb.degree at this ⊢
  rw [h.shape, h.len, h.U]
  exact this

/-- C11: `nrb.extract(axis, u)` is the object obtained by fixing the parameter of the axis to `u`, for
every `u` of the domain except a partially clamped right end. -/
theorem C11_extract {eps : K} (heps : 0 < eps) (je : ℤ → (Fin d → ℤ) → ℕ → K)
    {N : Nrb K (d + 1)} (hv : N.Valid) {axis : ℤ} {a : Fin (d + 1)}
    (ha : normAxis (d + 1) axis = .ok a) {u : K} (h1 : N.lo a ≤ u) (h2 : u ≤ N.hi a)
    (hsep : N.Sep eps a u) (hm : u < N.hi a → (N.multOf a u : ℤ) ≤ N.degree a + 1)
    (hend : u = N.hi a → N.multOf a u = 1 ∨ N.degree a ≤ N.multOf a u) :
    ∃ N', N.extract eps je axis u = .ok N' ∧ N'.Valid ∧ N.IsSection a u N' := by
  obtain ⟨p, hp, hk, e⟩ := deg_nat hv a
  have hpn : (N.degree a).toNat = p := by omega
  unfold Nrb.Sep at hsep
  unfold Nrb.multOf at hm hend
  rw [e] at hsep hm hend
  rw [hp] at hm hend
  have hx : BSp.Extract eps je (N.n a) (N.degree a) (N.U a) (N.row a) u =
      .ok (curve (N.n a) (N.degree a).toNat (N.U a) (N.row a) u) := by
    rw [hpn, hp]
    rcases h2.eq_or_lt with h | h
    · have := hend h
      rw [N.hi_eq] at h
      subst h
      exact C11_Extract_right heps je hk _ hsep (by omega)
    · have := hm h
      rw [N.hi_eq] at h
      exact C11_Extract heps je hk _ (by rw [← hp]; exact h1) h hsep (by omega)
  unfold Nrb.extract
  rw [ha, res_ok_bind, pyAssert_ok h1, res_ok_bind, pyAssert_ok h2, res_ok_bind, hx, res_ok_bind]
  exact ⟨_, rfl, isSection_valid hv isSection_of, isSection_of⟩

/-- C11: `nrb.boundary(axis, side)` fixes the parameter to the left or right end of the domain. -/
theorem C11_boundary {eps : K} (heps : 0 < eps) (je : ℤ → (Fin d → ℤ) → ℕ → K)
    {N : Nrb K (d + 1)} (hv : N.Valid) {axis : ℤ} {a : Fin (d + 1)}
    (ha : normAxis (d + 1) axis = .ok a) {side : ℤ} (hs : side = 0 ∨ side = 1)
    (hsep : N.SepBoth eps a) (hm : (N.multOf a (N.lo a) : ℤ) ≤ N.degree a + 1)
    (hend : N.multOf a (N.hi a) = 1 ∨ N.degree a ≤ N.multOf a (N.hi a)) :
    ∃ N', N.boundary eps je axis side = .ok N' ∧ N'.Valid ∧
      N.IsSection a (if side = 0 then N.lo a else N.hi a) N' := by
  obtain ⟨p, hp, hk, e⟩ := deg_nat hv a
  have hle := hk.le
  have hlt : N.lo a < N.hi a := by
    rw [N.lo_eq, N.hi_eq, hp]
    exact lt_of_le_of_lt (hk.sorted p (N.n a) (by omega) (by omega) (by omega)) hk.last
  unfold Nrb.boundary
  rw [pyAssert_ok hs, res_ok_bind, ha, res_ok_bind]
  apply C11_extract heps je hv (normAxis_self a)
  · split_ifs; exacts [le_rfl, hlt.le]
  · split_ifs; exacts [hlt.le, le_rfl]
  · split_ifs; exacts [hsep.1, hsep.2]
  · split_ifs; exacts [fun _ => hm, fun h => absurd h (lt_irrefl _)]
  · split_ifs; exacts [fun h => absurd h hlt.ne, fun _ => hend]

example := C11_extract (eps := 1 / 1000) (by norm_num) (fun _ _ _ => 9) Ex.S_valid
  (axis := -2) (a := 0) rfl (u := 2) (by decide +kernel) (by decide +kernel)
  (Ex.U_sep _ (by decide +kernel)) (by decide +kernel) (by decide +kernel)
example := C11_boundary (eps := 1 / 1000) (by norm_num) (fun _ _ _ => 9) Ex.S_valid
  (axis := 1) (a := 1) rfl (side := 1) (by decide)
  ⟨Ex.W_sep _ (by decide +kernel), Ex.W_sep _ (by decide +kernel)⟩ (by decide +kernel)
  (by decide +kernel)

/-- object with the knots of `N` whose control points are 1 in the last slab of axis `a` and 0
elsewhere (all components) -/
def Nrb.lastOnly (N : Nrb K (d + 1)) (a : Fin (d + 1)) : Nrb K (d + 1) :=
  { N with P := fun idx _ => if idx a = N.n a then 1 else 0 }

/-- the constant net -/
def onesNet (K : Type) [Field K] (d : ℕ) : (Fin d → ℤ) → ℕ → K := fun _ _ => 1

theorem lastOnly_row (N : Nrb K (d + 1)) (a : Fin (d + 1)) :
    (N.lastOnly a).row a = fun i => if i = N.n a then onesNet K d else 0 := by
  funext i o c
  simp only [Nrb.row, Nrb.lastOnly, Fin.insertNth_apply_same]
  split_ifs <;> rfl

theorem tensor_zero_net (n : Fin d → ℤ) (p : Fin d → ℕ) (U : Fin d → ℤ → K) (x : Fin d → K) :
    tensor n p U (0 : (Fin d → ℤ) → ℕ → K) x = 0 := by
  unfold tensor; simp

theorem tensor_smul_one {N : Nrb K (d + 1)} (hv : N.Valid) {a : Fin (d + 1)} {y : Fin d → K}
    (hy : ∀ b, N.lo (a.succAbove b) ≤ y b ∧ y b ≤ N.hi (a.succAbove b)) (c : K) :
    tensor (a.removeNth N.n) (a.removeNth (fun b => (N.degree b).toNat)) (a.removeNth N.U)
      (c • onesNet K d) y = fun _ => c := by
  let N' : Nrb K d := { shape := a.removeNth N.shape, nc := N.nc, len := a.removeNth N.len
                        U := a.removeNth N.U
                        P := (c • onesNet K d) }
  have hv' : N'.Valid := fun b => hv (a.succAbove b)
  have hd : N'.InDom y := hy
  show N'.eval y = fun _ => c
  funext k
  rw [Nrb.eval_apply]
  have : ∀ idx, N'.P idx k = c := fun idx => by simp [N', onesNet]
  simp only [this]
  rw [← Finset.sum_mul, Nrb.wt_sum hv' hd, one_mul]

/-- C08: on every unclamped axis whose right end has multiplicity `s` with `1 ≤ s < degree`,
`nrb.insert(axis, right end, t)` is accepted but changes the map: there is an object on the same
knots such that the result is 0 and the original positive at all parameters of the last span. -/
theorem C08_insert_right_end_wrong {eps : K} (heps : 0 < eps) (jk : ℤ → K)
    (je : ℤ → (Fin d → ℤ) → ℕ → K) {N : Nrb K (d + 1)} (hv : N.Valid) {axis : ℤ} {a : Fin (d + 1)}
    (ha : normAxis (d + 1) axis = .ok a) (hsep : N.Sep eps a (N.hi a)) {t : ℕ} (ht1 : 1 ≤ t)
    (ht : ((t + N.multOf a (N.hi a) : ℕ) : ℤ) ≤ N.degree a) :
    ∃ N', (N.lastOnly a).insert eps jk je axis (N.hi a) (some t) = .ok N' ∧
      ∀ x, N.InDom x → N.U a (N.n a) < x a → x a < N.hi a →
        N'.InDom x ∧ ∀ k, N'.eval x k = 0 ∧ 0 < (N.lastOnly a).eval x k := by
  obtain ⟨p, hp, hk, e⟩ := deg_nat hv a
  have hpn : (N.degree a).toNat = p := by omega
  have hle := hk.le
  have hp1 := hk.one_le
  have hlt : N.lo a < N.hi a := by
    rw [N.lo_eq, N.hi_eq, hp]
    exact lt_of_le_of_lt (hk.sorted p (N.n a) (by omega) (by omega) (by omega)) hk.last
  unfold Nrb.Sep at hsep
  unfold Nrb.multOf at ht
  rw [N.hi_eq] at hsep
  have ht' : ((t + mult (N.U a) 0 (N.n a + p + 1) (N.U a (N.n a + 1)) : ℕ) : ℤ) ≤ p := by
    rw [← e, ← N.hi_eq, ← hp]; exact ht
  obtain ⟨V, Q, g1, g2, g3, g4⟩ := C08_right_end_wrong heps jk je hk (by rw [← e]; exact hsep) ht1
    (by omega) (onesNet K d)
  have hfm : BSp.FindMult eps (N.degree a) (N.len a - 1) (N.U a) (N.hi a) =
      .ok (mult (N.U a) 0 (N.len a - 1) (N.hi a)) := by
    rw [N.hi_eq, hp, e]
    exact C02_FindMult heps hk (by rw [← hp, ← N.hi_eq]; exact hlt.le) le_rfl
      (by rw [← e]; exact hsep) (by omega)
  have hN : (N.lastOnly a).insert eps jk je axis (N.hi a) (some t) =
      .ok ((N.lastOnly a).setAxis a (N.shape a + t) (N.len a + t) V Q) := by
    unfold Nrb.insert
    rw [ha, res_ok_bind]
    dsimp only
    rw [pyAssert_ok (c := (N.lastOnly a).lo a ≤ N.hi a ∧ N.hi a ≤ (N.lastOnly a).hi a) ⟨hlt.le, le_rfl⟩, res_ok_bind]
    show (BSp.FindMult eps (N.degree a) (N.len a - 1) (N.U a) (N.hi a) >>= fun m => _) = _
    rw [hfm, res_ok_bind]
    rw [show (N.lastOnly a).degree a = N.degree a from rfl, min_eq_left (by omega), Option.getD_some,
      pyAssert_ok (by omega), res_ok_bind, if_neg (by omega), lastOnly_row]
    show (BSp.InsertKnot eps jk je (N.n a) (N.degree a) (N.U a) (fun i => if i = N.n a then onesNet K d else 0)
      (N.hi a) t >>= fun VQ => _) = _
    rw [hp, N.hi_eq, g1, res_ok_bind]; rfl
  refine ⟨_, hN, ?_⟩
  intro x hx x1 x2
  obtain ⟨q1, c, hc, q2⟩ := g4 (x a) x1 (by rw [← N.hi_eq]; exact x2)
  have es : N.shape a + t - 1 = N.n a + t := by unfold Nrb.n; ring
  have ed : N.len a + t - (N.shape a + t) - 1 = N.degree a := by unfold Nrb.degree; ring
  refine ⟨?_, ?_⟩
  · intro b
    by_cases hb : b = a
    · subst hb
      rw [Nrb.lo_eq, Nrb.hi_eq]
      simp only [Nrb.setAxis_degree_self, Nrb.setAxis_U_self, Nrb.setAxis_n_self]
      rw [ed, es, g3, hp, g2, ← hp, ← N.hi_eq]
      exact hx b
    · rw [Nrb.setAxis_lo_ne _ _ _ _ _ _ hb, Nrb.setAxis_hi_ne _ _ _ _ _ _ hb]
      exact hx b
  · intro k
    rw [Nrb.setAxis_eval, es, ed, hpn, q1, tensor_zero_net, (N.lastOnly a).eval_split a, lastOnly_row]
    refine ⟨rfl, ?_⟩
    show 0 < tensor (a.removeNth N.n) (a.removeNth (fun b => (N.degree b).toNat)) (a.removeNth N.U)
      (curve (N.n a) (N.degree a).toNat (N.U a) (fun i => if i = N.n a then onesNet K d else 0) (x a))
      (a.removeNth x) k
    rw [hpn, q2, tensor_smul_one hv (y := a.removeNth x) (fun b => hx (a.succAbove b))]
    exact hc

example := C08_insert_right_end_wrong (eps := 1 / 1000) (by norm_num) (fun _ => 7) (fun _ _ _ => 9)
  Ex.S_valid (axis := 1) (a := 1) rfl (Ex.W_sep _ (by decide +kernel)) (t := 1) (by decide)
  (by decide +kernel)

/-- C12: whenever the right end of an axis has multiplicity `s` with `2 ≤ s < degree`,
`nrb.boundary(axis, 1)` is accepted but is not the restriction of the map to the right end: there is
an object on the same knots with boundary 0 and positive end values. -/
theorem C12_boundary_wrong {eps : K} (heps : 0 < eps)
    (je : ℤ → (Fin d → ℤ) → ℕ → K) {N : Nrb K (d + 1)} (hv : N.Valid) {axis : ℤ} {a : Fin (d + 1)}
    (ha : normAxis (d + 1) axis = .ok a) (hsep : N.Sep eps a (N.hi a))
    (h2 : 2 ≤ N.multOf a (N.hi a)) (hlt : (N.multOf a (N.hi a) : ℤ) < N.degree a) :
    ∃ N', (N.lastOnly a).boundary eps je axis 1 = .ok N' ∧
      ∀ y, (∀ b, N.lo (a.succAbove b) ≤ y b ∧ y b ≤ N.hi (a.succAbove b)) →
        ∀ k, N'.eval y k = 0 ∧ 0 < (N.lastOnly a).eval (a.insertNth (N.hi a) y) k := by
  obtain ⟨p, hp, hk, e⟩ := deg_nat hv a
  have hpn : (N.degree a).toNat = p := by omega
  have hle := hk.le
  have hab : N.lo a < N.hi a := by
    rw [N.lo_eq, N.hi_eq, hp]
    exact lt_of_le_of_lt (hk.sorted p (N.n a) (by omega) (by omega) (by omega)) hk.last
  unfold Nrb.Sep at hsep
  unfold Nrb.multOf at h2 hlt
  rw [N.hi_eq, e] at hsep h2 hlt
  obtain ⟨g1, c, hc, g2⟩ := C12_right_end_wrong heps je hk hsep h2 (by omega) (onesNet K d)
  refine ⟨{ shape := a.removeNth N.shape, nc := N.nc, len := a.removeNth N.len, U := a.removeNth N.U,
            P := 0 }, ?_, ?_⟩
  · unfold Nrb.boundary Nrb.extract
    rw [pyAssert_ok (Or.inr rfl), res_ok_bind, ha, res_ok_bind, normAxis_self, res_ok_bind,
      if_neg (by decide), pyAssert_ok (c := (N.lastOnly a).lo a ≤ (N.lastOnly a).hi a) hab.le,
      res_ok_bind, pyAssert_ok le_rfl, res_ok_bind, lastOnly_row]
    show (BSp.Extract eps je (N.n a) (N.degree a) (N.U a) (fun i => if i = N.n a then onesNet K d else 0)
      (N.hi a) >>= fun Cw => _) = _
    rw [hp, N.hi_eq, g1]; rfl
  · intro y hy k
    refine ⟨?_, ?_⟩
    · show tensor _ _ _ (0 : (Fin d → ℤ) → ℕ → K) y k = 0
      rw [tensor_zero_net]; rfl
    · rw [(N.lastOnly a).eval_split a, lastOnly_row, Fin.insertNth_apply_same, Fin.removeNth_insertNth]
      show 0 < tensor (a.removeNth N.n) (a.removeNth (fun b => (N.degree b).toNat)) (a.removeNth N.U)
        (curve (N.n a) (N.degree a).toNat (N.U a) (fun i => if i = N.n a then onesNet K d else 0) (N.hi a)) y k
      rw [hpn, N.hi_eq, g2, tensor_smul_one hv hy]
      exact hc

/-- a surface with a cubic axis whose right end has multiplicity 2 -/
def Ex.S3 : Nrb ℚ 2 where
  shape := ![3, 5]
  nc := 4
  len := ![6, 9]
  U := ![Ex.W, Ex.R]
  P := fun idx c => if c = 3 then 1 + idx 1 else (c + 1) * idx 0 * idx 0 + idx 1 * 3 - c

theorem Ex.S3_valid : Ex.S3.Valid := by
  intro a
  fin_cases a
  · exact Ex.W_valid
  · exact Ex.R_valid

example := C12_boundary_wrong (eps := 1 / 1000) (by norm_num) (fun _ _ _ => 9)
  Ex.S3_valid (axis := 1) (a := 1) rfl (Ex.R_sep _ (by decide +kernel)) (by decide +kernel)
  (by decide +kernel)

end Igakit
