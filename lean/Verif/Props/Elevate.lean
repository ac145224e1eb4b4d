import Verif.Proofs.ElevTop
import Verif.Props.NrbAxis

/-!
# Property C16: degree elevation

The algorithm in igalib.f90:498-651 is not correct for every clamped knot vector: the bookkeeping of
its knot removal uses the multiplicity of the wrong breakpoint (`C16_elevate_fails`).  `Spec.NoJump`
excludes those knot vectors; it holds whenever the degree is at most 9, and whenever the multiplicity of
the interior knots never rises by more than one from one knot to the next.
-/

set_option linter.unusedSectionVars false

namespace Igakit
open Spec

section
variable {K : Type*} [Field K] [LinearOrder K] [IsStrictOrderedRing K]
variable {E : Type*} [AddCommGroup E] [Module K E]

theorem mult_congr {U V : ℤ → K} {lo hi : ℤ} (h : ∀ i, lo ≤ i → i ≤ hi → U i = V i) (x : K) :
    mult U lo hi x = mult V lo hi x := by
  unfold mult
  congr 1
  apply Finset.filter_congr
  intro i hi
  rw [Finset.mem_Icc] at hi
  rw [h i hi.1 hi.2]

theorem Brk.none_between {n : ℤ} {p : ℕ} {U : ℤ → K} {S : ℕ} {a : ℕ → ℤ} (H : Brk n p U S a) {s : ℕ}
    (h : s < S) {z : K} (h1 : U (a s) < z) (h2 : z < U (a (s + 1))) : Spec.mult U 0 (n + p + 1) z = 0 := by
  unfold Spec.mult
  rw [Finset.card_eq_zero, Finset.filter_eq_empty_iff]
  intro i hi e
  rw [Finset.mem_Icc] at hi
  obtain ⟨s', b1, b2⟩ := H.find_val hi.1 hi.2
  rw [e] at b2
  rw [b2] at h1 h2
  have c1 : s < s' := by
    by_contra hc
    rcases (not_lt.mp hc).eq_or_lt with e | e
    · rw [e] at h1; exact lt_irrefl _ h1
    · exact lt_asymm h1 (H.ult e (by omega))
  rcases (show s + 1 ≤ s' from c1).eq_or_lt with e | e
  · rw [e] at h2; exact lt_irrefl _ h2
  · exact lt_asymm h2 (H.ult e b1)

theorem Brk.elevOK {n : ℤ} {p t : ℕ} {U : ℤ → K} {S : ℕ} {a : ℕ → ℤ} (H : Brk n p U S a)
    (hn : U (a S) = U (n + 1)) (hg : NoJump n p t U) : ElevOK p t S a := by
  intro s hs
  have m1 := H.mult_succ (s := s) (by omega)
  have m2 := H.mult_succ (s := s + 1) (by omega)
  rw [show s + 1 + 1 = s + 2 from rfl] at m2
  have a1 := H.mono s (by omega)
  have a2 := H.mono (s + 1) (by omega)
  rw [show s + 1 + 1 = s + 2 from rfl] at a2
  have := hg (U (a (s + 1))) (U (a (s + 2))) ⟨by rw [← H.zero]; exact H.ult (by omega) (by omega),
    H.lt (s + 1) (by omega), by rw [← hn]; exact H.ult hs le_rfl, by omega, by omega,
    fun z z1 z2 => H.none_between (s := s + 1) (by omega) z1 z2⟩
  rw [m1, m2] at this
  rcases this with h | h
  · exact Or.inl h
  · right; omega

/-- `NoJump` holds for degrees up to 9 -/
theorem noJump_of_degree {n p t : ℤ} {U : ℤ → K} (hp : p ≤ 9) (ht : 1 ≤ t) : NoJump n p t U := by
  intro x y h
  have := h.left
  by_cases hc : (mult U 0 (n + p + 1) y : ℤ) ≤ mult U 0 (n + p + 1) x + 1
  · exact Or.inl hc
  · right; omega

/-- `NoJump` holds if no interior knot is more than doubled -/
theorem noJump_of_mult {n p t : ℤ} {U : ℤ → K}
    (h : ∀ x, U p < x → x < U (n + 1) → mult U 0 (n + p + 1) x ≤ 2) : NoJump n p t U := by
  intro x y hxy
  have := h y (hxy.lo.trans hxy.lt) hxy.hi
  have := hxy.left
  left; omega

/-- C16 (restricted to knot vectors with `NoJump`): elevating a clamped curve by `t` gives degree `p+t`,
`t` more copies of every distinct knot, the same domain and the same curve. -/
theorem C16_DegreeElevate_partial {eps : K} (heps : 0 ≤ eps) (jk : ℤ → K) (je : ℤ → E) (jb : ℤ → ℤ → K)
    {n : ℤ} {p : ℕ} {U : ℤ → K} (hv : ValidKnots n p U) (hl : ClampedL p U) (hr : ClampedR n p U)
    (hm : MultLe n p U) (hgap : Gaps eps n p U) (P : ℤ → E) (t : ℕ) (hj : 1 ≤ t → NoJump n p t U) :
    ∃ nh V Q, BSp.DegreeElevate eps jk je jb n p U P t = .ok (nh, V, Q) ∧
      ValidKnots nh (p + t) V ∧ ClampedL (p + t) V ∧ ClampedR nh (p + t) V ∧
      (∀ x, mult V 0 (nh + (p + t) + 1) x =
        if mult U 0 (n + p + 1) x = 0 then 0 else mult U 0 (n + p + 1) x + t) ∧
      V (p + t) = U p ∧ V (nh + 1) = U (n + 1) ∧
      ∀ u, U p ≤ u → u ≤ U (n + 1) → curve nh (p + t) V Q u = curve n p U P u := by
  have h1 := hv.one_le
  have h2 := hv.le
  rcases Nat.eq_zero_or_pos t with h0 | h0
  · subst h0
    refine ⟨n, U, P, ?_, by simpa using hv, by simpa using hl, by simpa using hr, ?_, by simp, rfl,
      fun u _ _ => rfl⟩
    · unfold BSp.DegreeElevate degreeElevate
      rw [if_pos ⟨by omega, by omega, by omega⟩]
      simp
    · intro x
      push_cast
      rw [add_zero, add_zero]
      split_ifs with h <;> simp [h]
  · obtain ⟨S, a, H⟩ := exists_brk hv hl hr hm
    have hS := H.pos
    have hkS := H.kz_S t
    have hk1 := H.kz_zero_one t
    have k0 : kz a t 0 = 0 := rfl
    have haS : U (a S) = U (n + 1) := by rw [H.last]; exact hr _ (by omega) (by omega)
    obtain ⟨g1, g2⟩ := H.elevate hv (H.elevOK haS (hj h0)) h0 heps (fun s hs => by
      have b1 := H.a_ge hs.le
      have b2 := H.a_le hs
      have b3 := H.ne hs
      rw [abs_sub_comm, abs_of_pos (sub_pos.mpr b3)]
      exact hgap _ (by omega) b2 b3) jk je jb P
    have hvE := H.elvK_valid hv t
    push_cast at hvE g1
    have hdef : BSp.DegreeElevate eps jk je jb n p U P t =
        .ok (n + t * S, (degreeElevate eps jk je jb n p U P t).1, (degreeElevate eps jk je jb n p U P t).2) := by
      unfold BSp.DegreeElevate
      rw [if_pos ⟨by omega, by omega, by omega⟩, H.spans_card hv]
    have hnS : (0 : ℤ) ≤ t * S := by positivity
    have lowK : ∀ j, 0 ≤ j → j ≤ (p : ℤ) + t → elvK U a S t j = U p := by
      intro j j1 j2
      rw [H.elvK_eq t (s := 0) (by omega) (by omega) (fun _ => by show _ < kz a t 1; omega), H.zero]
    have hiK : ∀ j, n + t * S + 1 ≤ j → elvK U a S t j = U (n + 1) := by
      intro j j1
      rw [H.elvK_eq t le_rfl (by omega) (fun h => absurd h (lt_irrefl _)), haS]
    refine ⟨_, _, _, hdef, validKnots_congr hvE g1, ?_, ?_, ?_, ?_, ?_, ?_⟩
    · intro j j1 j2
      rw [g1 j j1 (by omega), g1 (p + t) (by omega) (by omega), lowK j j1 j2, lowK _ (by omega) le_rfl]
    · intro j j1 j2
      rw [g1 j (by omega) (by omega), g1 (n + t * S + 1) (by omega) (by omega), hiK j j1, hiK _ le_rfl]
    · intro x
      rw [mult_congr g1]
      split_ifs with hx
      · unfold mult
        rw [Finset.card_eq_zero, Finset.filter_eq_empty_iff]
        intro i hi e
        rw [Finset.mem_Icc] at hi
        obtain ⟨s, b1, b2, b3⟩ := H.find_kz t hi.1
        rw [H.elvK_eq t b1 b2 b3] at e
        unfold mult at hx
        rw [Finset.card_eq_zero, Finset.filter_eq_empty_iff] at hx
        have hge := H.a_ge b1
        have hle := H.le b1 le_rfl
        rw [H.last] at hle
        exact hx (Finset.mem_Icc.mpr ⟨by omega, by omega⟩) e
      · obtain ⟨i, hi⟩ := Finset.card_pos.mp (Nat.pos_of_ne_zero hx)
        rw [Finset.mem_filter, Finset.mem_Icc] at hi
        obtain ⟨s, b1, b2⟩ := H.find_val hi.1.1 hi.1.2
        rw [← hi.2, b2]
        have := H.elvK_mult (by omega) t b1
        push_cast at this
        exact this
    · rw [g1 (p + t) (by omega) (by omega), lowK _ (by omega) le_rfl]
    · rw [g1 _ (by omega) (by omega), hiK _ le_rfl]
    · intro u u1 u2
      rw [← g2 u u1 u2]
      exact curve_congr (fun j j1 j2 => g1 j j1 (by push_cast at j2; omega)) (fun _ _ _ => rfl) u

end

/-- C16 for degrees up to 9: no restriction on the multiplicities. -/
theorem C16_DegreeElevate_low {K : Type*} [Field K] [LinearOrder K] [IsStrictOrderedRing K]
    {E : Type*} [AddCommGroup E] [Module K E]
    {eps : K} (heps : 0 ≤ eps) (jk : ℤ → K) (je : ℤ → E) (jb : ℤ → ℤ → K)
    {n : ℤ} {p : ℕ} {U : ℤ → K} (hp : p ≤ 9) (hv : ValidKnots n p U) (hl : ClampedL p U) (hr : ClampedR n p U)
    (hm : MultLe n p U) (hgap : Gaps eps n p U) (P : ℤ → E) (t : ℕ) :
    ∃ nh V Q, BSp.DegreeElevate eps jk je jb n p U P t = .ok (nh, V, Q) ∧
      ValidKnots nh (p + t) V ∧ ClampedL (p + t) V ∧ ClampedR nh (p + t) V ∧
      (∀ x, mult V 0 (nh + (p + t) + 1) x =
        if mult U 0 (n + p + 1) x = 0 then 0 else mult U 0 (n + p + 1) x + t) ∧
      V (p + t) = U p ∧ V (nh + 1) = U (n + 1) ∧
      ∀ u, U p ≤ u → u ≤ U (n + 1) → curve nh (p + t) V Q u = curve n p U P u :=
  C16_DegreeElevate_partial heps jk je jb hv hl hr hm hgap P t
    (fun h => noJump_of_degree (by exact_mod_cast hp) (by exact_mod_cast h))

/-! ## objects with any number of axes -/

variable {K : Type} [Field K] [LinearOrder K] [IsStrictOrderedRing K] {d : ℕ}

namespace Nrb
/-- axis `a` is clamped at both ends, its interior knots have multiplicity at most the degree and its
nonempty spans are longer than `eps` -/
structure Elevatable (N : Nrb K d) (eps : K) (a : Fin d) : Prop where
  left : ClampedL (N.degree a) (N.U a)
  right : ClampedR (N.n a) (N.degree a) (N.U a)
  mult : MultLe (N.n a) (N.degree a) (N.U a)
  gaps : Gaps eps (N.n a) (N.degree a) (N.U a)

/-- `N'` is `N` with the degree of axis `a` raised by `t`: each distinct knot of that axis is repeated `t`
more times, the map and everything else is kept -/
structure Elevated (N N' : Nrb K d) (a : Fin d) (t : ℕ) : Prop where
  nc : N'.nc = N.nc
  degree : ∀ b, N'.degree b = N.degree b + if b = a then (t : ℤ) else 0
  lo : ∀ b, N'.lo b = N.lo b
  hi : ∀ b, N'.hi b = N.hi b
  knots : ∀ x, (N'.knots a).count x = if x ∈ N.knots a then (N.knots a).count x + t else 0
  others : ∀ b, b ≠ a → N'.U b = N.U b ∧ N'.shape b = N.shape b
  eval : ∀ x, N.InDom x → N'.eval x = N.eval x
end Nrb

theorem elevated_refl (N : Nrb K d) (a : Fin d) : N.Elevated N a 0 := by
  refine ⟨rfl, fun b => by split_ifs <;> simp, fun _ => rfl, fun _ => rfl, ?_, fun _ _ => ⟨rfl, rfl⟩,
    fun _ _ => rfl⟩
  intro x
  split_ifs with h
  · rfl
  · exact Multiset.count_eq_zero.mpr h

/-- C16 (restricted to `NoJump` for degrees above 9): `nrb.elevate(axis, t)` on a clamped axis raises the
degree by `t`, repeats each distinct knot `t` more times and leaves the map unchanged. -/
theorem C16_elevate_partial {eps : K} (heps : 0 ≤ eps) (jk : ℤ → K) (je : ℤ → (Fin d → ℤ) → ℕ → K)
    (jb : ℤ → ℤ → K) {N : Nrb K (d + 1)} (hv : N.Valid) {axis : ℤ} {a : Fin (d + 1)}
    (ha : normAxis (d + 1) axis = .ok a) (hE : N.Elevatable eps a) (t : ℕ)
    (hj : N.degree a ≤ 9 ∨ NoJump (N.n a) (N.degree a) t (N.U a)) :
    ∃ N', N.elevate eps jk je jb axis (some t) = .ok N' ∧ N'.Valid ∧ N.Elevated N' a t ∧
      ClampedL (N'.degree a) (N'.U a) ∧ ClampedR (N'.n a) (N'.degree a) (N'.U a) := by
  obtain ⟨p, hp, hk, e⟩ := deg_nat hv a
  obtain ⟨e1, e2, e3, e4⟩ := hE
  unfold Nrb.elevate
  dsimp only
  rw [pyAssert_ok (by omega), res_ok_bind]
  rcases Nat.eq_zero_or_pos t with h0 | h0
  · subst h0
    rw [if_pos Nat.cast_zero]
    exact ⟨N, rfl, hv, elevated_refl N a, e1, e2⟩
  rw [if_neg (by omega), ha, res_ok_bind]
  rw [hp] at e1 e2 e3 e4 hj ⊢
  obtain ⟨nh, V, Q, g1, g2, g3, g4, g5, g6, g7, g8⟩ := C16_DegreeElevate_partial heps jk je jb hk e1 e2 e3 e4
    (N.row a) t (fun ht => hj.elim (fun h => noJump_of_degree h (by exact_mod_cast ht)) id)
  rw [g1, res_ok_bind]
  dsimp only
  have ed : nh + (p + t) + 2 - (nh + 1) - 1 = ((p + t : ℕ) : ℤ) := by push_cast; ring
  have es : nh + 1 - 1 = nh := by ring
  have hpn : (N.degree a).toNat = p := by omega
  refine ⟨_, rfl, ?_, ⟨rfl, ?_, ?_, ?_, ?_, ?_, ?_⟩, ?_, ?_⟩
  · apply Nrb.setAxis_valid _ _ _ _ _ _ (fun b _ => hv b)
    rw [es, ed]; push_cast; exact g2
  · intro b
    by_cases hb : b = a
    · subst hb
      rw [Nrb.setAxis_degree_self, ed, hp, if_pos rfl]; push_cast; ring
    · rw [Nrb.setAxis_degree_ne _ _ _ _ _ _ hb, if_neg hb, add_zero]
  · intro b
    by_cases hb : b = a
    · subst hb
      rw [Nrb.lo_eq, Nrb.setAxis_degree_self, Nrb.setAxis_U_self, ed, Nrb.lo_eq, hp]; push_cast; exact g6
    · exact Nrb.setAxis_lo_ne _ _ _ _ _ _ hb
  · intro b
    by_cases hb : b = a
    · subst hb
      rw [Nrb.hi_eq, Nrb.setAxis_n_self, Nrb.setAxis_U_self, Nrb.hi_eq, es, g7]
    · exact Nrb.setAxis_hi_ne _ _ _ _ _ _ hb
  · intro x
    unfold Nrb.knots
    rw [Nrb.setAxis_U_self, Nrb.setAxis_len, Function.update_self, count_knotMS,
      show nh + (p + t) + 2 - 1 = nh + (p + t) + 1 by ring, g5, e, count_knotMS]
    have : x ∈ knotMS (N.U a) (N.n a + p + 1) ↔ mult (N.U a) 0 (N.n a + p + 1) x ≠ 0 := by
      rw [← count_knotMS, Multiset.count_ne_zero]
    split_ifs with c1 c2 c2
    · exact absurd c1 (this.mp c2)
    · rfl
    · rfl
    · exact absurd (this.mpr c1) c2
  · intro b hb
    exact ⟨Nrb.setAxis_U_ne _ _ _ _ _ _ hb, by rw [Nrb.setAxis_shape, Function.update_of_ne hb]⟩
  · intro x hx
    apply Nrb.setAxis_eval_eq _ _ _ _ _ _ (fun _ _ => rfl)
    rw [es, ed, Int.toNat_natCast, hpn]
    have := hx a
    rw [N.lo_eq, N.hi_eq, hp] at this
    exact g8 _ this.1 this.2
  · rw [Nrb.setAxis_degree_self, Nrb.setAxis_U_self, ed]; push_cast; exact g3
  · rw [Nrb.setAxis_degree_self, Nrb.setAxis_U_self, Nrb.setAxis_n_self, ed, es]; push_cast; exact g4

/-- C16: a negative number is rejected, `None` and zero change nothing (whatever the axis argument). -/
theorem C16_elevate_trivial (eps : K) (jk : ℤ → K) (je : ℤ → (Fin d → ℤ) → ℕ → K)
    (jb : ℤ → ℤ → K) (N : Nrb K (d + 1)) (axis : ℤ) :
    N.elevate eps jk je jb axis none = .ok N ∧ N.elevate eps jk je jb axis (some 0) = .ok N ∧
    ∀ t < 0, N.elevate eps jk je jb axis (some t) = .error .assertion := by
  refine ⟨rfl, rfl, fun t ht => ?_⟩
  unfold Nrb.elevate
  dsimp only
  rw [pyAssert_err (by omega)]
  rfl

/-- interior multiplicities checked on the list of knots -/
theorem multLe_of_list {n p : ℤ} {U : ℤ → K} (hp : 0 ≤ p)
    (h : ∀ x ∈ Nrb.slab U 0 (n + p + 1), U p < x → x < U (n + 1) →
      (((Nrb.slab U 0 (n + p + 1)).count x : ℕ) : ℤ) ≤ p) : MultLe n p U := by
  intro x h1 h2
  rw [← slab_count]
  by_cases hx : x ∈ Nrb.slab U 0 (n + p + 1)
  · exact h x hx h1 h2
  · rw [List.count_eq_zero_of_not_mem hx]; exact_mod_cast hp

theorem gaps_of_list {eps : K} {n p : ℤ} {U : ℤ → K}
    (h : ∀ k ∈ Finset.Icc p n, U k < U (k + 1) → eps < U (k + 1) - U k) : Gaps eps n p U :=
  fun k k1 k2 => h k (Finset.mem_Icc.mpr ⟨k1, k2⟩)

theorem clampedL_of_list {p : ℤ} {U : ℤ → K} (h : ∀ k ∈ Finset.Icc 0 p, U k = U p) : ClampedL p U :=
  fun k k1 k2 => h k (Finset.mem_Icc.mpr ⟨k1, k2⟩)

theorem clampedR_of_list {n p : ℤ} {U : ℤ → K} (h : ∀ k ∈ Finset.Icc (n + 1) (n + p + 1), U k = U (n + 1)) :
    ClampedR n p U :=
  fun k k1 k2 => h k (Finset.mem_Icc.mpr ⟨k1, k2⟩)

theorem Ex.S_elevatable : Ex.S.Elevatable (1 / 1000) 0 where
  left := clampedL_of_list (by decide +kernel)
  right := clampedR_of_list (by decide +kernel)
  mult := multLe_of_list (by decide +kernel) (by decide +kernel)
  gaps := gaps_of_list (by decide +kernel)

/-- first axis of a rational surface, degree 2, knots `0 0 0 1 2 2 3 3 3` -/
example := C16_elevate_partial (eps := 1 / 1000) (by norm_num) (fun _ => 7) (fun _ _ _ => 9) (fun _ _ => 5)
  Ex.S_valid (axis := -2) (a := 0) rfl Ex.S_elevatable 3 (Or.inl (by decide +kernel))

/-! ## the counterexample -/

namespace Ex
/-- degree 10; interior knots 1 (once) and 2 (three times) -/
def jumpU (i : ℤ) : ℚ := if i ≤ 10 then 0 else if i ≤ 11 then 1 else if i ≤ 14 then 2 else 3
def jumpP (i : ℤ) : ℚ := if i = 10 then 1 else 0

theorem jumpU_valid : ValidKnots 14 10 jumpU where
  one_le := by decide
  le := by decide
  sorted := by
    intro i j _ _ _
    unfold jumpU
    split_ifs <;> first | omega | norm_num
  first := by decide +kernel
  last := by decide +kernel

theorem jumpU_left : ClampedL 10 jumpU := by
  intro j j1 j2
  unfold jumpU
  rw [if_pos j2, if_pos le_rfl]

theorem jumpU_right : ClampedR 14 10 jumpU := by
  intro j j1 j2
  unfold jumpU
  split_ifs <;> first | omega | rfl

theorem jumpU_vals (x : ℚ) (h1 : 0 < x) (h2 : x < 3) : mult jumpU 0 (14 + 10 + 1) x ≤ 3 := by
  unfold mult
  by_cases e1 : x = 1
  · subst e1; decide +kernel
  by_cases e2 : x = 2
  · subst e2; decide +kernel
  have : (Finset.Icc 0 (14 + 10 + 1 : ℤ)).filter (fun i => jumpU i = x) = ∅ := by
    rw [Finset.filter_eq_empty_iff]
    intro i _
    unfold jumpU
    split_ifs
    · exact fun h => absurd h h1.ne
    · exact fun h => e1 h.symm
    · exact fun h => e2 h.symm
    · exact fun h => absurd h.symm h2.ne
  rw [this]; decide

theorem jumpU_multLe : MultLe 14 10 jumpU := by
  intro x h1 h2
  have := jumpU_vals x h1 h2
  omega

theorem jumpU_gaps : Gaps (1 / 1000) 14 10 jumpU := gaps_of_list (by decide +kernel)
end Ex

/-- C16 fails without `NoJump`: a clamped curve of degree 10 with interior knots `1, 2, 2, 2`, spans of
length 1; the call is accepted, but the elevated curve differs at `u = 3/2`. -/
theorem C16_elevate_fails :
    ValidKnots 14 10 Ex.jumpU ∧ ClampedL 10 Ex.jumpU ∧ ClampedR 14 10 Ex.jumpU ∧ MultLe 14 10 Ex.jumpU ∧
      Gaps (1 / 1000) 14 10 Ex.jumpU ∧
    ∃ V Q, BSp.DegreeElevate (1 / 1000) (fun _ => 7) (fun _ => 9) (fun _ _ => 5) 14 10 Ex.jumpU Ex.jumpP 1 =
        .ok (17, V, Q) ∧
      curve 14 10 Ex.jumpU Ex.jumpP (3 / 2) - curve 17 11 V Q (3 / 2) = -445 / 36864 := by
  refine ⟨Ex.jumpU_valid, Ex.jumpU_left, Ex.jumpU_right, Ex.jumpU_multLe, Ex.jumpU_gaps, _, _, rfl, ?_⟩
  decide +kernel

/-- a curve of degree 10 covered by the theorem: `NoJump` holds for `t = 2` -/
example : NoJump 14 10 2 Ex.jumpU := by
  intro x y h
  have h1 := Ex.jumpU_vals y (h.lo.trans h.lt) h.hi
  have h2 := h.left
  by_cases hc : (mult Ex.jumpU 0 (14 + 10 + 1) y : ℤ) ≤ 2
  · left; omega
  · right; omega

end Igakit
