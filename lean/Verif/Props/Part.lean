import Verif.Spec.Part
import Verif.Props.Conform
import Verif.Props.Slice
import Verif.Proofs.Merge

/-!
# C85: parts of parts, parts and faces, parts and refinement
-/

set_option linter.unusedSectionVars false

namespace Igakit
open Spec

variable {K : Type} [Field K] [LinearOrder K] [IsStrictOrderedRing K] {d : ℕ}

/-- `slice(a, u0, u1)` gives the part (C10) -/
structure Nrb.CanSlice (N : Nrb K d) (eps : K) (a : Fin d) (u0 u1 : K) : Prop where
  lo : N.lo a ≤ u0
  hi : u1 ≤ N.hi a
  lt : u0 < u1
  long : eps ≤ u1 - u0
  sep0 : N.Sep eps a u0
  sep1 : N.Sep eps a u1
  mult : N.MultOK a

theorem knots_split {S : Multiset K} {x0 x1 : K} {k : ℕ} (hlt : x0 < x1) (h0 : S.count x0 = k) (h1 : S.count x1 = k)
    (h : ∀ x, 0 < S.count x → x0 ≤ x ∧ x ≤ x1) :
    S = Multiset.replicate k x0 + S.filter (fun x => x0 < x ∧ x < x1) + Multiset.replicate k x1 := by
  ext x
  rw [Multiset.count_add, Multiset.count_add, Multiset.count_replicate, Multiset.count_replicate, Multiset.count_filter]
  by_cases e0 : x0 = x
  · subst e0
    rw [if_pos rfl, if_neg (by simp), if_neg hlt.ne']
    omega
  · by_cases e1 : x1 = x
    · subst e1
      rw [if_neg e0, if_neg (by simp), if_pos rfl]
      omega
    · rw [if_neg e0, if_neg e1]
      split_ifs with e
      · omega
      · rcases Nat.eq_zero_or_pos (S.count x) with h2 | h2
        · omega
        · exact absurd ⟨lt_of_le_of_ne (h x h2).1 e0, lt_of_le_of_ne (h x h2).2 (Ne.symm e1)⟩ e

/-- knots of a clamped axis -/
theorem clamped_knots {N : Nrb K d} (hv : N.Valid) {a : Fin d} (hl : ClampedL (N.degree a) (N.U a))
    (hr : ClampedR (N.n a) (N.degree a) (N.U a)) :
    N.knots a = Multiset.replicate (N.degree a + 1).toNat (N.lo a) + (N.knots a).filter (fun x => N.lo a < x ∧ x < N.hi a) +
      Multiset.replicate (N.degree a + 1).toNat (N.hi a) := by
  have hA : (N.axis a).Valid := hv a
  have e1 := Ax.mult_lo hA hl
  rw [axis_mult, axis_lo, axis_degree] at e1
  have e2 := Ax.mult_hi hA hr
  rw [axis_mult, axis_hi, axis_degree] at e2
  have hlt : N.lo a < N.hi a := by
    have := Ax.lo_lt_hi hA
    rwa [axis_hi, axis_lo] at this
  have e3 : ∀ x, 0 < (N.knots a).count x → N.lo a ≤ x ∧ x ≤ N.hi a := by
    intro x h
    rw [← multOf_eq_count, ← axis_mult] at h
    have := Ax.mult_range hA hl hr (x := x) h
    rwa [axis_hi, axis_lo] at this
  rw [multOf_eq_count] at e1 e2
  exact knots_split hlt (by omega) (by omega) e3

/-- `slice` gives the part -/
theorem slice_part {eps : K} (heps : 0 < eps) (jk : ℤ → K) (je : ℤ → (Fin d → ℤ) → ℕ → K) {N : Nrb K (d + 1)} (hv : N.Valid)
    {axis : ℤ} {a : Fin (d + 1)} (ha : normAxis (d + 1) axis = .ok a) {start stop : Option K}
    (h : N.CanSlice eps a (start.getD (N.lo a)) (stop.getD (N.hi a))) :
    ∃ N', N.slice eps jk je axis start stop = .ok N' ∧ N.IsPart a (start.getD (N.lo a)) (stop.getD (N.hi a)) N' := by
  obtain ⟨N', e1, e2, e3, e4, e5, e6, e7, e8, e9, e10, e11⟩ :=
    C10_slice_knots heps jk je hv ha rfl rfl h.lo h.hi h.lt h.long h.sep0 h.sep1 h.mult
  refine ⟨N', e1, e2, e3, e4, e5, e6, ?_, fun b hb => ⟨(e7 b hb).1, (e7 b hb).2.1⟩, e11⟩
  rw [clamped_knots e2 e8 e9, e4, e5, e6]
  congr 2
  ext x
  rw [Multiset.count_filter, Multiset.count_filter]
  split_ifs with hx
  · rw [← multOf_eq_count, ← multOf_eq_count]
    exact e10 x hx.1 hx.2
  · rfl

/-- two objects with the same degrees, knots and map have the same data -/
theorem sameData_of_knots {N N' : Nrb K d} (hv : N.Valid) (hv' : N'.Valid) (hm : ∀ b, N.InnerMult b) (hn : N'.nc = N.nc)
    (hd : ∀ b, N'.degree b = N.degree b) (hk : ∀ b, N'.knots b = N.knots b) (he : ∀ x, N.InDom x → N'.InDom x → N'.eval x = N.eval x) :
    N.SameData N' := by
  have hs : N'.shape = N.shape := by
    funext b
    have e1 := (knots_unique hv hv' (hk b)).1
    have e2 := hd b
    unfold Nrb.degree at e2
    omega
  have hsk := sameKnots_of hv hv' hs hk
  exact sameData_of_map hv hm hsk hn fun x hx => he x hx ((hsk.inDom hv).2 hx)

namespace Nrb.IsPart
variable {N N' : Nrb K d} {a : Fin d} {u0 u1 : K}

theorem lo_other (h : N.IsPart a u0 u1 N') {b : Fin d} (hb : b ≠ a) : N'.lo b = N.lo b := by
  rw [Nrb.lo_eq, Nrb.lo_eq, h.degree, (h.others b hb).2]
theorem hi_other (h : N.IsPart a u0 u1 N') {b : Fin d} (hb : b ≠ a) : N'.hi b = N.hi b := by
  rw [Nrb.hi_eq, Nrb.hi_eq, (h.others b hb).2]
  unfold Nrb.n
  rw [(h.others b hb).1]
theorem len_other (h : N.IsPart a u0 u1 N') {b : Fin d} (hb : b ≠ a) : N'.len b = N.len b :=
  len_of_degree (h.degree b) (h.others b hb).1
theorem knots_other (h : N.IsPart a u0 u1 N') {b : Fin d} (hb : b ≠ a) : N'.knots b = N.knots b := by
  unfold Nrb.knots
  rw [(h.others b hb).2, h.len_other hb]
theorem multOf_other (h : N.IsPart a u0 u1 N') {b : Fin d} (hb : b ≠ a) (x : K) : N'.multOf b x = N.multOf b x := by
  rw [multOf_eq_count, multOf_eq_count, h.knots_other hb]

theorem lt (h : N.IsPart a u0 u1 N') : u0 < u1 := by
  have : N'.lo a < (N'.axis a).hi := Ax.lo_lt_hi (A := N'.axis a) (h.valid a)
  rwa [axis_hi, h.lo, h.hi] at this

theorem count (h : N.IsPart a u0 u1 N') (x : K) : N'.multOf a x =
    if x = u0 ∨ x = u1 then (N.degree a + 1).toNat else if u0 < x ∧ x < u1 then N.multOf a x else 0 := by
  have hlt := h.lt
  rw [multOf_eq_count, h.knots, Multiset.count_add, Multiset.count_add, Multiset.count_replicate, Multiset.count_replicate,
    Multiset.count_filter, multOf_eq_count]
  by_cases h0 : x = u0
  · subst h0
    simp [hlt.ne']
  · by_cases h1 : x = u1
    · subst h1
      simp [Ne.symm h0]
    · simp [h0, h1, Ne.symm h0, Ne.symm h1]

theorem inner (h : N.IsPart a u0 u1 N') (h0 : N.lo a ≤ u0) (h1 : u1 ≤ N.hi a) (hm : ∀ b, N.InnerMult b) (b : Fin d) :
    N'.InnerMult b := by
  intro x x0 x1
  rw [h.degree]
  by_cases hb : b = a
  · subst hb
    rw [h.lo] at x0
    rw [h.hi] at x1
    rw [h.count, if_neg (by rintro (e | e) <;> simp [e] at x0 x1), if_pos ⟨x0, x1⟩]
    exact hm b x (lt_of_le_of_lt h0 x0) (lt_of_lt_of_le x1 h1)
  · rw [h.lo_other hb] at x0
    rw [h.hi_other hb] at x1
    rw [h.multOf_other hb]
    exact hm b x x0 x1

theorem inDom (h : N.IsPart a u0 u1 N') (h0 : N.lo a ≤ u0) (h1 : u1 ≤ N.hi a) {x : Fin d → K} (hx : N'.InDom x) : N.InDom x := by
  intro b
  have := hx b
  by_cases hb : b = a
  · subst hb
    rw [h.lo, h.hi] at this
    exact ⟨h0.trans this.1, this.2.trans h1⟩
  · rwa [h.lo_other hb, h.hi_other hb] at this

/-- a part is determined by the object and its ends -/
theorem unique {N'' : Nrb K d} (h : N.IsPart a u0 u1 N') (h' : N.IsPart a u0 u1 N'') (h0 : N.lo a ≤ u0) (h1 : u1 ≤ N.hi a)
    (hm : ∀ b, N.InnerMult b) : N'.SameData N'' := by
  refine sameData_of_knots h.valid h'.valid (h.inner h0 h1 hm) (by rw [h.nc, h'.nc]) (fun b => by rw [h.degree, h'.degree])
    (fun b => ?_) fun x hx hx' => by rw [h.map x hx, h'.map x hx']
  by_cases hb : b = a
  · subst hb; rw [h.knots, h'.knots]
  · rw [h.knots_other hb, h'.knots_other hb]

/-- a part of a part -/
theorem trans {N'' : Nrb K d} {v0 v1 : K} (h : N.IsPart a u0 u1 N') (h' : N'.IsPart a v0 v1 N'') (h0 : u0 ≤ v0) (h1 : v1 ≤ u1) :
    N.IsPart a v0 v1 N'' := by
  refine ⟨h'.valid, by rw [h'.nc, h.nc], fun b => by rw [h'.degree, h.degree], h'.lo, h'.hi, ?_, fun b hb => ?_, fun x hx => ?_⟩
  · rw [h'.knots, h.degree]
    congr 2
    ext x
    rw [Multiset.count_filter, Multiset.count_filter]
    split_ifs with hx
    · rw [← multOf_eq_count, ← multOf_eq_count, h.count, if_neg, if_pos]
      · exact ⟨lt_of_le_of_lt h0 hx.1, lt_of_lt_of_le hx.2 h1⟩
      · rintro (e | e)
        · exact absurd hx.1 (not_lt.mpr (e ▸ h0))
        · exact absurd hx.2 (not_lt.mpr (e ▸ h1))
    · rfl
  · exact ⟨(h'.others b hb).1.trans (h.others b hb).1, (h'.others b hb).2.trans (h.others b hb).2⟩
  · rw [h'.map x hx, h.map x (h'.inDom (h.lo ▸ h0) (h.hi ▸ h1) hx)]

theorem mem_knots (h : N.IsPart a u0 u1 N') {y : K} (hy : y ∈ N'.knots a) : y = u0 ∨ y = u1 ∨ (y ∈ N.knots a ∧ u0 < y ∧ y < u1) := by
  rw [h.knots, Multiset.mem_add, Multiset.mem_add, Multiset.mem_filter] at hy
  rcases hy with (hy | hy) | hy
  · exact Or.inl (Multiset.eq_of_mem_replicate hy)
  · exact Or.inr (Or.inr hy)
  · exact Or.inr (Or.inl (Multiset.eq_of_mem_replicate hy))

theorem sep (h : N.IsPart a u0 u1 N') {eps x : K} (hs : N.Sep eps a x) (h0 : u0 = x ∨ eps ≤ |x - u0|) (h1 : u1 = x ∨ eps ≤ |x - u1|) :
    N'.Sep eps a x := by
  rw [sep_iff] at hs ⊢
  intro y hy
  rcases h.mem_knots hy with e | e | e
  · rw [e]; exact h0
  · rw [e]; exact h1
  · exact hs y e.1

theorem clampedL (h : N.IsPart a u0 u1 N') : ClampedL (N'.degree a) (N'.U a) := by
  obtain ⟨p, hp, hk, e⟩ := deg_nat h.valid a
  have h1 := hk.one_le
  have h2 := hk.le
  have hlo : N'.U a p = u0 := by rw [← hp, ← Nrb.lo_eq]; exact h.lo
  intro j j0 j1
  rw [hp] at j1 ⊢
  have hle : N'.U a j ≤ u0 := hlo ▸ hk.sorted j p j0 j1 (by omega)
  have hmem : N'.U a j ∈ N'.knots a := mem_knotMS.2 ⟨j, j0, by omega, rfl⟩
  rw [hlo]
  rcases h.mem_knots hmem with e | e | e
  · exact e
  · exact absurd (e ▸ hle) (not_le.mpr h.lt)
  · exact absurd hle (not_le.mpr e.2.1)

theorem clampedR (h : N.IsPart a u0 u1 N') : ClampedR (N'.n a) (N'.degree a) (N'.U a) := by
  obtain ⟨p, hp, hk, e⟩ := deg_nat h.valid a
  have h1 := hk.one_le
  have h2 := hk.le
  have hhi : N'.U a (N'.n a + 1) = u1 := by rw [← Nrb.hi_eq]; exact h.hi
  intro j j0 j1
  rw [hp] at j1
  have hge : u1 ≤ N'.U a j := hhi ▸ hk.sorted _ j (by omega) j0 (by omega)
  have hmem : N'.U a j ∈ N'.knots a := mem_knotMS.2 ⟨j, by omega, by omega, rfl⟩
  rw [hhi]
  rcases h.mem_knots hmem with e | e | e
  · exact absurd (e ▸ hge) (not_le.mpr h.lt)
  · exact e
  · exact absurd hge (not_le.mpr e.2.2)

theorem multOK (h : N.IsPart a u0 u1 N') (h0 : N.lo a ≤ u0) (h1 : u1 ≤ N.hi a) (hm : ∀ b, N.InnerMult b) : N'.MultOK a := fun x =>
  (Ax.inner_le (A := N'.axis a) (h.valid a) h.clampedL h.clampedR (fun y y0 y1 => h.inner h0 h1 hm a y y0 (axis_hi N' a ▸ y1)) x).1

/-- parts on another axis can still be taken -/
theorem canSlice_other (h : N.IsPart a u0 u1 N') {b : Fin d} (hb : b ≠ a) {eps v0 v1 : K} (hc : N.CanSlice eps b v0 v1) :
    N'.CanSlice eps b v0 v1 := by
  refine ⟨by rw [h.lo_other hb]; exact hc.lo, by rw [h.hi_other hb]; exact hc.hi, hc.lt, hc.long, ?_, ?_, ?_⟩
  · rw [sep_iff, h.knots_other hb, ← sep_iff]; exact hc.sep0
  · rw [sep_iff, h.knots_other hb, ← sep_iff]; exact hc.sep1
  · intro x
    rw [(h.others b hb).2, h.len_other hb, h.degree]
    exact hc.mult x

theorem sepBoth (h : N.IsPart a u0 u1 N') {eps : K} (hc : N.CanSlice eps a u0 u1) : N'.SepBoth eps a := by
  unfold Nrb.SepBoth
  have hl := hc.long
  rw [h.lo, h.hi]
  exact ⟨h.sep hc.sep0 (Or.inl rfl) (Or.inr (by rw [abs_sub_comm]; exact hl.trans (le_abs_self _))),
    h.sep hc.sep1 (Or.inr (hl.trans (le_abs_self _))) (Or.inl rfl)⟩

theorem mult_ends (h : N.IsPart a u0 u1 N') : (N'.multOf a (N'.lo a) : ℤ) = N'.degree a + 1 ∧ (N'.multOf a (N'.hi a) : ℤ) = N'.degree a + 1 := by
  have h1 := (h.valid a).one_le
  rw [h.lo, h.hi, h.count, h.count, if_pos (Or.inl rfl), if_pos (Or.inr rfl)]
  rw [h.degree] at h1 ⊢
  omega
end Nrb.IsPart

/-- the faces of a part -/
theorem part_face {eps : K} (heps : 0 < eps) (je : ℤ → (Fin d → ℤ) → ℕ → K) {N A : Nrb K (d + 1)} {axis : ℤ} {a : Fin (d + 1)}
    (ha : normAxis (d + 1) axis = .ok a) {u0 u1 : K} (hu : N.CanSlice eps a u0 u1) (hA : N.IsPart a u0 u1 A) {side : ℤ}
    (hs : side = 0 ∨ side = 1) :
    ∃ F, A.boundary eps je axis side = .ok F ∧ F.Valid ∧ A.IsSection a (if side = 0 then u0 else u1) F := by
  have := C11_boundary heps je hA.valid ha hs (hA.sepBoth hu) hA.mult_ends.1.le (Or.inr (by have := hA.mult_ends.2; omega))
  rwa [hA.lo, hA.hi] at this

/-- C85: the end faces of a part are the sections of the object there. -/
theorem C85_ends {eps : K} (heps : 0 < eps) (jk : ℤ → K) (je je' je'' : ℤ → (Fin d → ℤ) → ℕ → K) {N : Nrb K (d + 1)}
    (hv : N.Valid) (hm : ∀ b, N.InnerMult b) {axis : ℤ} {a : Fin (d + 1)} (ha : normAxis (d + 1) axis = .ok a) {u0 u1 : K}
    (hu : N.CanSlice eps a u0 u1) {side : ℤ} (hs : side = 0 ∨ side = 1) {u : K} (hu' : u = if side = 0 then u0 else u1)
    (hx : N.CanExtract eps a u) :
    ∃ A F G, N.slice eps jk je axis (some u0) (some u1) = .ok A ∧ A.boundary eps je' axis side = .ok F ∧
      N.extract eps je'' axis u = .ok G ∧ F.SameData G := by
  obtain ⟨A, A1, A2⟩ := slice_part heps jk je hv ha (start := some u0) (stop := some u1) hu
  simp only [Option.getD_some] at A2
  obtain ⟨F, F1, F2, F3⟩ := part_face heps je' ha hu A2 hs
  obtain ⟨G, G1, G2, G3⟩ := C11_extract heps je'' hv ha hx.lo hx.hi hx.sep hx.mult hx.right
  rw [← hu'] at F3
  have hne : ∀ b : Fin d, a.succAbove b ≠ a := fun b => Fin.succAbove_ne a b
  have hdom : A.lo a ≤ u ∧ u ≤ A.hi a := by
    rw [A2.lo, A2.hi, hu']
    split_ifs
    exacts [⟨le_rfl, hu.lt.le⟩, ⟨hu.lt.le, le_rfl⟩]
  refine ⟨A, F, G, A1, F1, G1, sameData_of_knots F2 G2 (fun b => F3.inner (A2.inner hu.lo hu.hi hm _)) (by rw [F3.nc, G3.nc, A2.nc])
    (fun b => by rw [F3.degree, G3.degree, A2.degree]) (fun b => by rw [F3.knots, G3.knots, A2.knots_other (hne b)]) fun y hy _ => ?_⟩
  rw [F3.eval, G3.eval, A2.map _ ((F3.inDom hdom).1 hy)]

/-- C85: two parts of an object that meet at a cut have the same face there. -/
theorem C85_cut {eps : K} (heps : 0 < eps) (jk jk' : ℤ → K) (j1 j2 j3 j4 : ℤ → (Fin d → ℤ) → ℕ → K) {N : Nrb K (d + 1)}
    (hv : N.Valid) (hm : ∀ b, N.InnerMult b) {axis : ℤ} {a : Fin (d + 1)} (ha : normAxis (d + 1) axis = .ok a) {u0 u1 u2 : K}
    (hu : N.CanSlice eps a u0 u1) (hw : N.CanSlice eps a u1 u2) :
    ∃ A B F G, N.slice eps jk j1 axis (some u0) (some u1) = .ok A ∧ N.slice eps jk' j2 axis (some u1) (some u2) = .ok B ∧
      A.boundary eps j3 axis 1 = .ok F ∧ B.boundary eps j4 axis 0 = .ok G ∧ F.SameData G := by
  obtain ⟨A, A1, A2⟩ := slice_part heps jk j1 hv ha (start := some u0) (stop := some u1) hu
  obtain ⟨B, B1, B2⟩ := slice_part heps jk' j2 hv ha (start := some u1) (stop := some u2) hw
  simp only [Option.getD_some] at A2 B2
  obtain ⟨F, F1, F2, F3⟩ := part_face heps j3 ha hu A2 (Or.inr rfl)
  obtain ⟨G, G1, G2, G3⟩ := part_face heps j4 ha hw B2 (Or.inl rfl)
  rw [if_neg (by norm_num)] at F3
  rw [if_pos rfl] at G3
  have hne : ∀ b : Fin d, a.succAbove b ≠ a := fun b => Fin.succAbove_ne a b
  refine ⟨A, B, F, G, A1, B1, F1, G1, sameData_of_knots F2 G2 (fun b => F3.inner (A2.inner hu.lo hu.hi hm _))
    (by rw [F3.nc, G3.nc, A2.nc, B2.nc]) (fun b => by rw [F3.degree, G3.degree, A2.degree, B2.degree])
    (fun b => by rw [F3.knots, G3.knots, A2.knots_other (hne b), B2.knots_other (hne b)]) fun y hy hy' => ?_⟩
  rw [F3.eval, G3.eval, A2.map _ ((F3.inDom (by rw [A2.lo, A2.hi]; exact ⟨hu.lt.le, le_rfl⟩)).1 hy),
    B2.map _ ((G3.inDom (by rw [B2.lo, B2.hi]; exact ⟨le_rfl, hw.lt.le⟩)).1 hy')]

/-- C85: a section of a part is the part of the section, on different axes. -/
theorem C85_section {eps : K} (heps : 0 < eps) (jk jk' : ℤ → K) (j1 j2 : ℤ → (Fin (d + 1) → ℤ) → ℕ → K)
    (j3 : ℤ → (Fin (d + 1) → ℤ) → ℕ → K) (j4 : ℤ → (Fin d → ℤ) → ℕ → K) {N : Nrb K (d + 2)} (hv : N.Valid) (hm : ∀ b, N.InnerMult b)
    {b : Fin (d + 2)} {a : Fin (d + 1)} {u0 u1 v : K} (hu : N.CanSlice eps (b.succAbove a) u0 u1) (hw : N.CanExtract eps b v) :
    ∃ A X B Y, N.slice eps jk j1 ((b.succAbove a : ℕ) : ℤ) (some u0) (some u1) = .ok A ∧ A.extract eps j2 ((b : ℕ) : ℤ) v = .ok X ∧
      N.extract eps j3 ((b : ℕ) : ℤ) v = .ok B ∧ B.slice eps jk' j4 ((a : ℕ) : ℤ) (some u0) (some u1) = .ok Y ∧ X.SameData Y := by
  have hba : b ≠ b.succAbove a := (Fin.succAbove_ne b a).symm
  obtain ⟨A, A1, A2⟩ := slice_part heps jk j1 hv (normAxis_self _) (start := some u0) (stop := some u1) hu
  obtain ⟨B, B1, B2, B3⟩ := extract_section heps j3 hv hw
  simp only [Option.getD_some] at A2
  have hA : A.CanExtract eps b v := by
    refine ⟨by rw [A2.lo_other hba]; exact hw.lo, by rw [A2.hi_other hba]; exact hw.hi, ?_, ?_, ?_⟩
    · rw [sep_iff, A2.knots_other hba, ← sep_iff]; exact hw.sep
    · rw [A2.hi_other hba, A2.multOf_other hba, A2.degree]; exact hw.mult
    · rw [A2.hi_other hba, A2.multOf_other hba, A2.degree]; exact hw.right
  have hB : B.CanSlice eps a u0 u1 := by
    refine ⟨by rw [B3.lo]; exact hu.lo, by rw [B3.hi]; exact hu.hi, hu.lt, hu.long, B3.sep hu.sep0, B3.sep hu.sep1, fun x => ?_⟩
    rw [B3.U, B3.len, B3.degree]
    exact hu.mult x
  obtain ⟨X, X1, X2, X3⟩ := extract_section heps j2 A2.valid hA
  obtain ⟨Y, Y1, Y2⟩ := slice_part heps jk' j4 B2 (normAxis_self a) (start := some u0) (stop := some u1) hB
  simp only [Option.getD_some] at Y2
  refine ⟨A, X, B, Y, A1, X1, B1, Y1, sameData_of_knots X2 Y2.valid (fun c => X3.inner (A2.inner hu.lo hu.hi hm _))
    (by rw [Y2.nc, X3.nc, A2.nc, B3.nc]) (fun c => by rw [Y2.degree, X3.degree, A2.degree, B3.degree]) (fun c => ?_) fun y hy hy' => ?_⟩
  · rw [X3.knots]
    by_cases hc : c = a
    · subst hc
      rw [A2.knots, Y2.knots, B3.knots, B3.degree]
    · rw [A2.knots_other fun h => hc (Fin.succAbove_right_injective h), Y2.knots_other hc, B3.knots]
  · rw [Y2.map y hy', X3.eval, B3.eval, A2.map _ ((X3.inDom ⟨hA.lo, hA.hi⟩).1 hy)]

/-- C85: the whole of a clamped axis is the object itself. -/
theorem C85_whole {eps : K} (heps : 0 < eps) (jk : ℤ → K) (je : ℤ → (Fin d → ℤ) → ℕ → K) {N : Nrb K (d + 1)} (hv : N.Valid)
    (hm : ∀ b, N.InnerMult b) {axis : ℤ} {a : Fin (d + 1)} (ha : normAxis (d + 1) axis = .ok a)
    (hl : ClampedL (N.degree a) (N.U a)) (hr : ClampedR (N.n a) (N.degree a) (N.U a)) (hs : N.SepBoth eps a)
    {start stop : Option K} (h0 : start = none ∨ start = some (N.lo a)) (h1 : stop = none ∨ stop = some (N.hi a)) :
    ∃ A, N.slice eps jk je axis start stop = .ok A ∧ N.SameData A := by
  have e0 : start.getD (N.lo a) = N.lo a := by rcases h0 with rfl | rfl <;> rfl
  have e1 : stop.getD (N.hi a) = N.hi a := by rcases h1 with rfl | rfl <;> rfl
  have hlt : N.lo a < N.hi a := by
    have := Ax.lo_lt_hi (A := N.axis a) (hv a)
    rwa [axis_hi, axis_lo] at this
  have hself : N.IsPart a (N.lo a) (N.hi a) N :=
    ⟨hv, rfl, fun _ => rfl, rfl, rfl, clamped_knots hv hl hr, fun _ _ => ⟨rfl, rfl⟩, fun _ _ => rfl⟩
  have hmem : N.lo a ∈ N.knots a := by
    rw [clamped_knots hv hl hr]
    have := (hv a).one_le
    exact Multiset.mem_add.2 (Or.inl (Multiset.mem_add.2 (Or.inl (Multiset.mem_replicate.2 ⟨by omega, rfl⟩))))
  have hc : N.CanSlice eps a (start.getD (N.lo a)) (stop.getD (N.hi a)) := by
    rw [e0, e1]
    refine ⟨le_rfl, le_rfl, hlt, ?_, hs.1, hs.2, mult_inner_le hv (hm a)⟩
    rcases sep_iff.1 hs.2 _ hmem with h | h
    · exact absurd h hlt.ne
    · rwa [abs_of_pos (sub_pos.2 hlt)] at h
  obtain ⟨A, A1, A2⟩ := slice_part heps jk je hv ha hc
  rw [e0, e1] at A2
  exact ⟨A, A1, hself.unique A2 le_rfl le_rfl hm⟩

/-- C85: slicing again at the same values does nothing (the "no-op" of nurbs.py:1211). -/
theorem C85_again {eps : K} (heps : 0 < eps) (jk jk' : ℤ → K) (je je' : ℤ → (Fin d → ℤ) → ℕ → K) {N : Nrb K (d + 1)}
    (hv : N.Valid) (hm : ∀ b, N.InnerMult b) {axis : ℤ} {a : Fin (d + 1)} (ha : normAxis (d + 1) axis = .ok a) {u0 u1 : K}
    (hu : N.CanSlice eps a u0 u1) :
    ∃ A B, N.slice eps jk je axis (some u0) (some u1) = .ok A ∧ A.slice eps jk' je' axis (some u0) (some u1) = .ok B ∧
      A.SameData B := by
  obtain ⟨A, A1, A2⟩ := slice_part heps jk je hv ha (start := some u0) (stop := some u1) hu
  simp only [Option.getD_some] at A2
  obtain ⟨B, B1, B2⟩ := C85_whole heps jk' je' A2.valid (A2.inner hu.lo hu.hi hm) ha A2.clampedL A2.clampedR (A2.sepBoth hu)
    (Or.inr (by rw [A2.lo])) (Or.inr (by rw [A2.hi]))
  exact ⟨A, B, A1, B1, B2⟩

/-- C85: a part of a refined object is the refined part.  The object is refined by any `insert` and `refine` calls `p`, its part by any
calls `q` that add the same knots, on the axis of the cut those strictly inside. -/
theorem C85_refine {env : Env K} (heps : 0 < env.eps) (jk jk' : ℤ → K) (je je' : ℤ → (Fin d → ℤ) → ℕ → K) {N : Nrb K (d + 1)}
    (hv : N.Valid) (hm : ∀ b, N.InnerMult b) {axis : ℤ} {a : Fin (d + 1)} (ha : normAxis (d + 1) axis = .ok a) {u0 u1 : K}
    (hu : N.CanSlice env.eps a u0 u1) {p q : List (Call K)} (hp : ∀ c ∈ p, c.2.Refines (d + 1)) (hq : ∀ c ∈ q, c.2.Refines (d + 1))
    (hc : ∀ b, N.CanAdd env.eps b (addedAll b p)) (h0 : ∀ x ∈ addedAll a p, x = u0 ∨ env.eps ≤ |x - u0|)
    (h1 : ∀ x ∈ addedAll a p, x = u1 ∨ env.eps ≤ |x - u1|) (hpa : addedAll a q = (addedAll a p).filter fun x => u0 < x ∧ x < u1)
    (hpq : ∀ b, b ≠ a → addedAll b q = addedAll b p) :
    ∃ X Y, N.slice env.eps jk je axis (some u0) (some u1) = .ok X ∧
      (history env N p).slice env.eps jk' je' axis (some u0) (some u1) = .ok Y ∧ (history env X q).SameData Y := by
  obtain ⟨k1, i1⟩ := added_history heps p hv hm hp hc
  obtain ⟨X, X1, X2⟩ := slice_part heps jk je hv ha (start := some u0) (stop := some u1) hu
  simp only [Option.getD_some] at X2
  have hsep : ∀ u, N.Sep env.eps a u → (∀ x ∈ addedAll a p, x = u ∨ env.eps ≤ |x - u|) → (history env N p).Sep env.eps a u := by
    intro u hs ht
    rw [sep_iff]
    intro y hy
    rw [k1.knots, Multiset.mem_add] at hy
    rcases hy with hy | hy
    · exact sep_iff.1 hs y hy
    · rw [abs_sub_comm]; exact ht y hy
  have hY : (history env N p).CanSlice env.eps a u0 u1 :=
    ⟨by rw [k1.map.lo]; exact hu.lo, by rw [k1.map.hi]; exact hu.hi, hu.lt, hu.long, hsep _ hu.sep0 h0, hsep _ hu.sep1 h1,
      mult_inner_le k1.valid (i1 a)⟩
  obtain ⟨Y, Y1, Y2⟩ := slice_part heps jk' je' k1.valid ha (start := some u0) (stop := some u1) hY
  simp only [Option.getD_some] at Y2
  have hX : ∀ b, X.CanAdd env.eps b (addedAll b q) := by
    intro b
    by_cases hb : b = a
    · subst hb
      rw [hpa]
      refine ⟨fun x hx => ?_, fun x hx => ?_, fun x hx => ?_, fun x hx y hy => ?_, fun x hx => ?_⟩
      · rw [X2.lo]; exact (Multiset.mem_filter.1 hx).2.1
      · rw [X2.hi]; exact (Multiset.mem_filter.1 hx).2.2
      · have hx' := (Multiset.mem_filter.1 hx).1
        exact X2.sep ((hc b).sep x hx') ((h0 x hx').imp Eq.symm id) ((h1 x hx').imp Eq.symm id)
      · exact (hc b).apart x (Multiset.mem_filter.1 hx).1 y (Multiset.mem_filter.1 hy).1
      · obtain ⟨hx', x0, x1⟩ := Multiset.mem_filter.1 hx
        rw [Multiset.count_filter_of_pos (p := fun x => u0 < x ∧ x < u1) ⟨x0, x1⟩, X2.count, if_neg (by rintro (e | e); exacts [x0.ne' e, x1.ne e]), if_pos ⟨x0, x1⟩,
          X2.degree]
        exact (hc b).mult x hx'
    · rw [hpq b hb]
      refine ⟨fun x hx => ?_, fun x hx => ?_, fun x hx => ?_, (hc b).apart, fun x hx => ?_⟩
      · rw [X2.lo_other hb]; exact (hc b).lo x hx
      · rw [X2.hi_other hb]; exact (hc b).hi x hx
      · rw [sep_iff, X2.knots_other hb, ← sep_iff]; exact (hc b).sep x hx
      · rw [X2.multOf_other hb, X2.degree]; exact (hc b).mult x hx
  obtain ⟨k2, i2⟩ := added_history heps q X2.valid (X2.inner hu.lo hu.hi hm) hq hX
  refine ⟨X, Y, X1, Y1, sameData_of_knots k2.valid Y2.valid i2 (by rw [Y2.nc, k1.map.nc, k2.map.nc, X2.nc])
    (fun b => by rw [Y2.degree, k1.map.degree, k2.map.degree, X2.degree]) (fun b => ?_) fun x hx hx' => ?_⟩
  · by_cases hb : b = a
    · subst hb
      rw [Y2.knots, k1.knots, k2.knots, X2.knots, hpa, k1.map.degree, Multiset.filter_add]
      abel
    · rw [Y2.knots_other hb, k1.knots, k2.knots, X2.knots_other hb, hpq b hb]
  · have hx1 : X.InDom x := fun b => by rw [← k2.map.lo, ← k2.map.hi]; exact hx b
    rw [Y2.map x hx', k2.map.eval x hx1, X2.map x hx1, k1.map.eval x (X2.inDom hu.lo hu.hi hx1)]

/-- C85: a part of a part is the part: cutting out `[u0, u1]` and then `[v0, v1]` gives the same knots and control
points as cutting out `[v0, v1]` at once. -/
theorem C85_compose {eps : K} (heps : 0 < eps) (jk jk' jk'' : ℤ → K) (je je' je'' : ℤ → (Fin d → ℤ) → ℕ → K) {N : Nrb K (d + 1)}
    (hv : N.Valid) (hm : ∀ b, N.InnerMult b) {axis : ℤ} {a : Fin (d + 1)} (ha : normAxis (d + 1) axis = .ok a) {u0 u1 v0 v1 : K}
    (hu : N.CanSlice eps a u0 u1) (hw : N.CanSlice eps a v0 v1) (h0 : u0 = v0 ∨ eps ≤ v0 - u0) (h1 : u1 = v1 ∨ eps ≤ u1 - v1) :
    ∃ A B C, N.slice eps jk je axis (some u0) (some u1) = .ok A ∧ A.slice eps jk' je' axis (some v0) (some v1) = .ok B ∧
      N.slice eps jk'' je'' axis (some v0) (some v1) = .ok C ∧ B.SameData C := by
  have l0 : u0 ≤ v0 := by rcases h0 with h | h; exacts [h.le, by linarith]
  have l1 : v1 ≤ u1 := by rcases h1 with h | h; exacts [h.ge, by linarith]
  obtain ⟨A, A1, A2⟩ := slice_part heps jk je hv ha (start := some u0) (stop := some u1) hu
  obtain ⟨C, C1, C2⟩ := slice_part heps jk'' je'' hv ha (start := some v0) (stop := some v1) hw
  simp only [Option.getD_some] at A2 C2
  have hlong := hw.long
  have hA : A.CanSlice eps a v0 v1 := by
    refine ⟨by rw [A2.lo]; exact l0, by rw [A2.hi]; exact l1, hw.lt, hw.long, A2.sep hw.sep0 ?_ ?_, A2.sep hw.sep1 ?_ ?_,
      A2.multOK hu.lo hu.hi hm⟩
    · exact h0.imp id fun h => h.trans (le_abs_self _)
    · right; rw [abs_sub_comm]; exact (show eps ≤ u1 - v0 by linarith).trans (le_abs_self _)
    · right; exact (show eps ≤ v1 - u0 by linarith).trans (le_abs_self _)
    · exact h1.imp id fun h => by rw [abs_sub_comm]; exact h.trans (le_abs_self _)
  obtain ⟨B, B1, B2⟩ := slice_part heps jk' je' A2.valid ha (start := some v0) (stop := some v1) hA
  exact ⟨A, B, C, A1, B1, C1, (A2.trans B2 l0 l1).unique C2 hw.lo hw.hi hm⟩

/-- C85: parts on different axes can be taken in any order. -/
theorem C85_axes {eps : K} (heps : 0 < eps) (j1 j2 j3 j4 : ℤ → K) (i1 i2 i3 i4 : ℤ → (Fin d → ℤ) → ℕ → K) {N : Nrb K (d + 1)}
    (hv : N.Valid) (hm : ∀ b, N.InnerMult b) {axis axis' : ℤ} {a b : Fin (d + 1)} (ha : normAxis (d + 1) axis = .ok a)
    (hb : normAxis (d + 1) axis' = .ok b) (hab : a ≠ b) {u0 u1 v0 v1 : K} (hu : N.CanSlice eps a u0 u1) (hw : N.CanSlice eps b v0 v1) :
    ∃ A B X Y, N.slice eps j1 i1 axis (some u0) (some u1) = .ok A ∧ A.slice eps j2 i2 axis' (some v0) (some v1) = .ok X ∧
      N.slice eps j3 i3 axis' (some v0) (some v1) = .ok B ∧ B.slice eps j4 i4 axis (some u0) (some u1) = .ok Y ∧ X.SameData Y := by
  obtain ⟨A, A1, A2⟩ := slice_part heps j1 i1 hv ha (start := some u0) (stop := some u1) hu
  obtain ⟨B, B1, B2⟩ := slice_part heps j3 i3 hv hb (start := some v0) (stop := some v1) hw
  simp only [Option.getD_some] at A2 B2
  obtain ⟨X, X1, X2⟩ := slice_part heps j2 i2 A2.valid hb (start := some v0) (stop := some v1) (A2.canSlice_other hab.symm hw)
  obtain ⟨Y, Y1, Y2⟩ := slice_part heps j4 i4 B2.valid ha (start := some u0) (stop := some u1) (B2.canSlice_other hab hu)
  simp only [Option.getD_some] at X2 Y2
  refine ⟨A, B, X, Y, A1, X1, B1, Y1, sameData_of_knots X2.valid Y2.valid (X2.inner (A2.lo_other hab.symm ▸ hw.lo)
    (A2.hi_other hab.symm ▸ hw.hi) (A2.inner hu.lo hu.hi hm)) (by rw [Y2.nc, B2.nc, X2.nc, A2.nc])
    (fun c => by rw [Y2.degree, B2.degree, X2.degree, A2.degree]) (fun c => ?_) fun x hx hx' => ?_⟩
  · by_cases hca : c = a
    · subst hca
      rw [Y2.knots, X2.knots_other hab, A2.knots, B2.knots_other hab, B2.degree]
    · by_cases hcb : c = b
      · subst hcb
        rw [X2.knots, Y2.knots_other hca, B2.knots, A2.knots_other hca, A2.degree]
      · rw [Y2.knots_other hca, B2.knots_other hcb, X2.knots_other hcb, A2.knots_other hca]
  · rw [Y2.map x hx', B2.map x (Y2.inDom (B2.lo_other hab ▸ hu.lo) (B2.hi_other hab ▸ hu.hi) hx'), X2.map x hx,
      A2.map x (X2.inDom (A2.lo_other hab.symm ▸ hw.lo) (A2.hi_other hab.symm ▸ hw.hi) hx)]

end Igakit
