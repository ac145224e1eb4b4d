import Verif.Props.Join
import Verif.Props.Part
import Verif.Props.RemoveAll
import Verif.Props.Averages

/-!
# C88: cutting an object and joining the pieces again; C38: knots of a joined object
-/

set_option linter.unusedSectionVars false

namespace Igakit
open Spec

section Real38
variable {d : ℕ}

/-- C38, knots: the result has the knots of the two objects, each with its multiplicity raised by what its degree was
raised, those of the second object shifted to the end of the first; where the objects meet it has between one and
`degree` copies.  The other axes have the knots `compat` gives them.  Missing: as for `C38_join_partial`. -/
theorem C38_knots_partial {eps : ℝ} (heps : 0 < eps) (M : Cad.JoinMem ℝ d) {N1 N2 : Nrb ℝ (d + 1)} {a : Fin (d + 1)}
    (h : Joinable eps N1 N2 a) (start : N2.lo a = 0) :
    ∃ R, Cad.join eps M N1 N2 (a : ℤ) = .ok R ∧ R.degree a = max (N1.degree a) (N2.degree a) ∧
      1 ≤ R.multOf a (N1.hi a) ∧ (R.multOf a (N1.hi a) : ℤ) ≤ R.degree a ∧
      (∀ x, x < N1.hi a → (R.multOf a x : ℤ) = raisedAt N1 a (R.degree a) x) ∧
      (∀ x, N1.hi a < x → (R.multOf a x : ℤ) = raisedAt N2 a (R.degree a) (N2.lo a + (x - N1.hi a))) ∧
      ∀ b, b ≠ a → ClampedL (R.degree b) (R.U b) ∧ ClampedR (R.n b) (R.degree b) (R.U b) ∧
        ∀ x, R.lo b < x → x < R.hi b → IsGreatest
          (Set.range fun j => raisedMult ((![N1, N2] : Fin 2 → Nrb ℝ (d + 1)) j) b (R.lo b) (R.hi b) (R.degree b) x)
          (R.multOf b x : ℤ) := by
  obtain ⟨J, h1, hJ, hm, hs, -⟩ := joinRaw_ok heps M h start
  have hlt : J.lo a < N1.hi a := by rw [hJ.lo]; exact Nrb.lo_lt_hi h.v1 a
  have hgt : N1.hi a < J.hi a := by
    have := Nrb.lo_lt_hi h.v2 a
    rw [hJ.hi]; linarith
  have hp := (hJ.valid a).one_le
  obtain ⟨t, ht⟩ := Int.eq_ofNat_of_zero_le (by omega : 0 ≤ J.degree a - 1)
  obtain ⟨R, k, r1, r2, r3, r4, r5, r6, r7, r8, r9, -⟩ := C17_remove_deviation heps M.remove hJ.valid (normAxis_self a)
    hlt hgt hs hm.le t (1 / 10 ^ 9)
  have hat : J.multOf a (N1.hi a) = R.multOf a (N1.hi a) + k := by
    rw [multOf_eq_count, multOf_eq_count, r7, Multiset.count_add, Multiset.count_replicate_self]
  have hoff : ∀ x, x ≠ N1.hi a → J.multOf a x = R.multOf a x := fun x hx => by
    rw [multOf_eq_count, multOf_eq_count, r7, Multiset.count_add, Multiset.count_replicate, if_neg (Ne.symm hx), add_zero]
  refine ⟨R, ?_, by rw [(r9 a).1, hJ.degree], by omega, by rw [(r9 a).1]; omega, fun x hx => ?_, fun x hx => ?_, fun b hb => ?_⟩
  · unfold Cad.join
    rw [h1, res_ok_bind, normAxis_self, res_ok_bind]
    dsimp only
    rw [ht, r1]
  · rw [← hoff x hx.ne, (r9 a).1]; exact hJ.knots1 x hx
  · rw [← hoff x hx.ne', (r9 a).1]; exact hJ.knots2 x hx
  · have hsh : R.shape b = J.shape b := by rw [r6, Function.update_of_ne hb]
    have hn : R.n b = J.n b := by unfold Nrb.n; rw [hsh]
    have hk : R.knots b = J.knots b := by
      unfold Nrb.knots
      rw [len_of_degree (r9 b).1 hsh, r8 b hb]
    rw [(r9 b).1, (r9 b).2.1, (r9 b).2.2, r8 b hb, hn]
    refine ⟨hJ.left' b hb, hJ.right' b hb, fun x x0 x1 => ?_⟩
    rw [multOf_eq_count, hk, ← multOf_eq_count]
    exact hJ.knots' b hb x x0 x1

end Real38

section Cut
variable {K : Type} [Field K] [LinearOrder K] [IsStrictOrderedRing K] {d : ℕ}

/-- conditions for cutting `N` at the value `u` of axis `a` and joining the pieces again -/
structure Nrb.CanCut (N : Nrb K d) (eps : K) (a : Fin d) (u : K) : Prop where
  first : N.CanSlice eps a (N.lo a) u
  second : N.CanSlice eps a u (N.hi a)
  inner : ∀ b, N.InnerMult b
  left : ∀ b, b ≠ a → ClampedL (N.degree b) (N.U b)
  right : ∀ b, b ≠ a → ClampedR (N.n b) (N.degree b) (N.U b)
  sep : ∀ b, b ≠ a → ∀ j k, 0 ≤ j → j < N.len b → 0 ≤ k → k < N.len b → N.U b j = N.U b k ∨ eps < |N.U b j - N.U b k|

/-- `C` is `N` to the right of `u` on axis `a`, with parameters that begin at 0 -/
structure Nrb.IsTail (N : Nrb K d) (a : Fin d) (u : K) (C : Nrb K d) : Prop where
  valid : C.Valid
  nc : C.nc = N.nc
  degree : ∀ b, C.degree b = N.degree b
  lo : C.lo a = 0
  hi : C.hi a = N.hi a - u
  knots : ∀ x, C.multOf a x = if x = 0 ∨ x = N.hi a - u then (N.degree a + 1).toNat else
    if 0 < x ∧ x < N.hi a - u then N.multOf a (u + x) else 0
  others : ∀ b, b ≠ a → C.shape b = N.shape b ∧ C.U b = N.U b
  map : ∀ x, C.InDom x → C.eval x = N.eval (Function.update x a (u + x a))

/-- `remap` of the right piece to parameters that begin at 0 -/
theorem tail_of_part {N B : Nrb K (d + 1)} {a : Fin (d + 1)} {u eps : K} (hB : N.IsPart a u (N.hi a) B) (hs : B.SepBoth eps a) :
    ∃ C, B.remap (a : ℤ) (some 0) (some (N.hi a - u)) = .ok C ∧ N.IsTail a u C ∧ C.SepBoth eps a := by
  have hlt := hB.lt
  have h0 : (0 : K) < N.hi a - u := sub_pos.mpr hlt
  have hltA : (B.axis a).lo < (B.axis a).hi := by rw [axis_lo, axis_hi, hB.lo, hB.hi]; exact hlt
  obtain ⟨C, c1, c2, c3, c4, c5⟩ := remap_step h0 B a hB.valid
  have hd : ∀ b, C.degree b = B.degree b := by
    intro b
    by_cases hb : b = a
    · subst hb
      rw [← axis_degree, c5, ← axis_degree]; rfl
    · rw [← axis_degree, c4 b hb, axis_degree]
  have hsh : ∀ y : K, affMap u (N.hi a) 0 (N.hi a - u) y = y - u := by
    intro y
    have hne : N.hi a - u ≠ 0 := h0.ne'
    unfold affMap
    field_simp
    ring
  have hsh' : ∀ y : K, affMap 0 (N.hi a - u) u (N.hi a) y = u + y := by
    intro y
    have hne : N.hi a - u ≠ 0 := h0.ne'
    unfold affMap
    rw [sub_zero]
    field_simp
    ring
  have hlo : C.lo a = 0 := by rw [← axis_lo, c5, stretch_lo hltA]
  have hhi : C.hi a = N.hi a - u := by rw [← axis_hi, c5, stretch_hi hltA]
  have hoth : ∀ b, b ≠ a → C.shape b = B.shape b ∧ C.U b = B.U b ∧ C.len b = B.len b := fun b hb => by
    have := c4 b hb
    exact ⟨congrArg Ax.shape this, congrArg Ax.U this, congrArg Ax.len this⟩
  have hlob : ∀ b, b ≠ a → C.lo b = B.lo b := fun b hb => by rw [← axis_lo, c4 b hb, axis_lo]
  have hhib : ∀ b, b ≠ a → C.hi b = B.hi b := fun b hb => by rw [← axis_hi, c4 b hb, axis_hi]
  have hm : ∀ x, C.multOf a x = B.multOf a (u + x) := fun x => by
    rw [← axis_mult, c5, stretch_mult' hltA h0, axis_mult, axis_lo, axis_hi, hB.lo, hB.hi, hsh']
  have hlen : C.len a = B.len a := by
    have := congrArg Ax.len c5
    exact this
  have hU : ∀ j, C.U a j = B.U a j - u := fun j => by
    have h1 : C.U a j = affMap (B.axis a).lo (B.axis a).hi 0 (N.hi a - u) (B.U a j) := congrFun (congrArg Ax.U c5) j
    rw [h1, axis_lo, axis_hi, hB.lo, hB.hi, hsh]
  refine ⟨C, c1, ⟨c2, by rw [c3.nc, hB.nc], fun b => by rw [hd, hB.degree], hlo, hhi, fun x => ?_, fun b hb => ?_, fun x hx => ?_⟩, ?_, ?_⟩
  · rw [hm, hB.count]
    have e1 : u + x = u ∨ u + x = N.hi a ↔ x = 0 ∨ x = N.hi a - u :=
      or_congr ⟨fun h => by linarith, fun h => by linarith⟩ ⟨fun h => by linarith, fun h => by linarith⟩
    have e2 : u < u + x ∧ u + x < N.hi a ↔ 0 < x ∧ x < N.hi a - u :=
      and_congr ⟨fun h => by linarith, fun h => by linarith⟩ ⟨fun h => by linarith, fun h => by linarith⟩
    simp only [e1, e2]
  · rw [(hoth b hb).1, (hoth b hb).2.1]; exact hB.others b hb
  · have hlt' : ∀ b, B.lo b < B.hi b := fun b => Nrb.lo_lt_hi hB.valid b
    have hp : (fun b => affMap (C.lo b) (C.hi b) (B.lo b) (B.hi b) (x b)) = Function.update x a (u + x a) := by
      funext b
      by_cases hb : b = a
      · subst hb
        rw [Function.update_self, hlo, hhi, hB.lo, hB.hi, hsh']
      · rw [Function.update_of_ne hb, hlob b hb, hhib b hb, affMap_id (hlt' b)]
    rw [c3.eval x hx, hp]
    refine hB.map _ fun b => ?_
    have := hx b
    by_cases hb : b = a
    · subst hb
      rw [hlo, hhi] at this
      rw [Function.update_self, hB.lo, hB.hi]
      exact ⟨by linarith, by linarith⟩
    · rw [Function.update_of_ne hb, ← hlob b hb, ← hhib b hb]; exact this
  · intro j j0 j1
    rw [hlen] at j1
    have := hs.1 j j0 j1
    rw [hB.lo] at this
    rw [hlo, hU]
    rcases this with h | h
    · exact Or.inl (by rw [h, sub_self])
    · right; convert h using 2; ring
  · intro j j0 j1
    rw [hlen] at j1
    have := hs.2 j j0 j1
    rw [hB.hi] at this
    rw [hhi, hU]
    rcases this with h | h
    · exact Or.inl (by rw [h])
    · right; convert h using 2; ring

namespace Nrb.IsTail
variable {N C : Nrb K d} {a : Fin d} {u : K}

theorem lo_other (h : N.IsTail a u C) {b : Fin d} (hb : b ≠ a) : C.lo b = N.lo b := by
  rw [Nrb.lo_eq, Nrb.lo_eq, h.degree, (h.others b hb).2]
theorem hi_other (h : N.IsTail a u C) {b : Fin d} (hb : b ≠ a) : C.hi b = N.hi b := by
  rw [Nrb.hi_eq, Nrb.hi_eq, (h.others b hb).2]
  unfold Nrb.n
  rw [(h.others b hb).1]
theorem len_other (h : N.IsTail a u C) {b : Fin d} (hb : b ≠ a) : C.len b = N.len b :=
  len_of_degree (h.degree b) (h.others b hb).1
theorem multOf_other (h : N.IsTail a u C) {b : Fin d} (hb : b ≠ a) (x : K) : C.multOf b x = N.multOf b x := by
  rw [multOf_eq_count, multOf_eq_count]
  unfold Nrb.knots
  rw [(h.others b hb).2, h.len_other hb]

end Nrb.IsTail

/-- the pieces of an object can be joined -/
theorem joinable_pieces {N A C : Nrb K (d + 1)} {a : Fin (d + 1)} {u eps : K} (hv : N.Valid) (hc : N.CanCut eps a u)
    (hA : N.IsPart a (N.lo a) u A) (hC : N.IsTail a u C) (hs : C.SepBoth eps a) : Joinable eps A C a := by
  refine ⟨hA.valid, hC.valid, by rw [hA.nc, hC.nc], hA.sepBoth hc.first, hs, fun b hb => ?_, fun t ht h => ?_, fun t ht h => ?_⟩
  · have hlt := Nrb.lo_lt_hi hv b
    have hlo : hullLo A C b = N.lo b := by unfold hullLo; rw [hA.lo_other hb, hC.lo_other hb, min_self]
    have hhi : hullHi A C b = N.hi b := by unfold hullHi; rw [hA.hi_other hb, hC.hi_other hb, max_self]
    have hX : ∀ i : Fin 2, ((![A, C] : Fin 2 → _) i).lo b = N.lo b ∧ ((![A, C] : Fin 2 → _) i).hi b = N.hi b ∧
        ((![A, C] : Fin 2 → _) i).U b = N.U b ∧ ((![A, C] : Fin 2 → _) i).n b = N.n b ∧
        ((![A, C] : Fin 2 → _) i).degree b = N.degree b ∧ ((![A, C] : Fin 2 → _) i).len b = N.len b := by
      have nA : A.n b = N.n b := by unfold Nrb.n; rw [(hA.others b hb).1]
      have nC : C.n b = N.n b := by unfold Nrb.n; rw [(hC.others b hb).1]
      intro i
      fin_cases i
      · exact ⟨hA.lo_other hb, hA.hi_other hb, (hA.others b hb).2, nA, hA.degree b, hA.len_other hb⟩
      · exact ⟨hC.lo_other hb, hC.hi_other hb, (hC.others b hb).2, nC, hC.degree b, hC.len_other hb⟩
    refine ⟨fun i => ?_, fun i => ?_, fun i => ?_, fun i j k l k0 k1 l0 l1 => ?_, fun i j _ h => ?_⟩
    · rw [(hX i).2.2.1, (hX i).2.2.2.2.1]; exact hc.left b hb
    · rw [(hX i).2.2.1, (hX i).2.2.2.1, (hX i).2.2.2.2.1]; exact hc.right b hb
    · rw [(hX i).2.2.1, (hX i).2.2.2.1, (hX i).2.2.2.2.1]
      intro x x0 x1
      have := hc.inner b x (by rw [Nrb.lo_eq]; exact x0) (by rw [Nrb.hi_eq]; exact x1)
      have e : N.len b - 1 = N.n b + N.degree b + 1 := by unfold Nrb.n Nrb.degree; ring
      unfold Nrb.multOf at this
      rwa [e] at this
    · rw [hlo, hhi, (hX i).1, (hX i).2.1, (hX j).1, (hX j).2.1, (hX i).2.2.1, (hX j).2.2.1, affMap_id hlt, affMap_id hlt]
      rw [(hX i).2.2.2.2.2] at k1
      rw [(hX j).2.2.2.2.2] at l1
      exact hc.sep b hb k l k0 k1 l0 l1
    · rw [(hX i).2.2.2.2.1, (hX j).2.2.2.2.1] at h
      exact absurd h (lt_irrefl _)
  · rw [hA.degree, hC.degree] at h; omega
  · rw [hA.degree, hC.degree] at h; omega

/-- the pieces put together, before knots are removed -/
structure Nrb.Glued (N : Nrb K d) (a : Fin d) (u : K) (J : Nrb K d) : Prop where
  valid : J.Valid
  map : N.SameMap J
  others : ∀ b, b ≠ a → J.knots b = N.knots b
  at_cut : (J.multOf a u : ℤ) = N.degree a
  knots : ∀ x, x ≠ u → J.multOf a x = if x = N.lo a ∨ x = N.hi a then (N.degree a + 1).toNat else
    if N.lo a < x ∧ x < N.hi a then N.multOf a x else 0

theorem piece_hull {N A C : Nrb K (d + 1)} {a : Fin (d + 1)} {u : K} (hA : N.IsPart a (N.lo a) u A) (hC : N.IsTail a u C)
    {b : Fin (d + 1)} (hb : b ≠ a) : hullLo A C b = N.lo b ∧ hullHi A C b = N.hi b := by
  unfold hullLo hullHi
  rw [hA.lo_other hb, hC.lo_other hb, hA.hi_other hb, hC.hi_other hb, min_self, max_self]
  exact ⟨rfl, rfl⟩

theorem piece_first {N A C : Nrb K (d + 1)} {a : Fin (d + 1)} {u : K} (hv : N.Valid) (hA : N.IsPart a (N.lo a) u A)
    (hC : N.IsTail a u C) {x : Fin (d + 1) → K} (hx : ∀ b, b ≠ a → N.lo b ≤ x b ∧ x b ≤ N.hi b) {t : K} (t0 : N.lo a ≤ t)
    (t1 : t ≤ u) : A.eval (pieceParam A C A a t x) = N.eval (Function.update x a t) := by
  have hAp : pieceParam A C A a t x = Function.update x a t := by
    funext b
    unfold pieceParam
    by_cases hb : b = a
    · subst hb; rw [if_pos rfl, Function.update_self]
    · rw [if_neg hb, Function.update_of_ne hb, (piece_hull hA hC hb).1, (piece_hull hA hC hb).2, hA.lo_other hb,
        hA.hi_other hb, affMap_id (Nrb.lo_lt_hi hv b)]
  rw [hAp]
  refine hA.map _ fun b => ?_
  by_cases hb : b = a
  · subst hb; rw [Function.update_self, hA.lo, hA.hi]; exact ⟨t0, t1⟩
  · rw [Function.update_of_ne hb, hA.lo_other hb, hA.hi_other hb]; exact hx b hb

theorem piece_second {N A C : Nrb K (d + 1)} {a : Fin (d + 1)} {u : K} (hv : N.Valid) (hA : N.IsPart a (N.lo a) u A)
    (hC : N.IsTail a u C) {x : Fin (d + 1) → K} (hx : ∀ b, b ≠ a → N.lo b ≤ x b ∧ x b ≤ N.hi b) {t : K} (t0 : 0 ≤ t)
    (t1 : t ≤ N.hi a - u) : C.eval (pieceParam A C C a t x) = N.eval (Function.update x a (u + t)) := by
  have hCp : pieceParam A C C a t x = Function.update x a t := by
    funext b
    unfold pieceParam
    by_cases hb : b = a
    · subst hb; rw [if_pos rfl, Function.update_self]
    · rw [if_neg hb, Function.update_of_ne hb, (piece_hull hA hC hb).1, (piece_hull hA hC hb).2, hC.lo_other hb,
        hC.hi_other hb, affMap_id (Nrb.lo_lt_hi hv b)]
  rw [hCp, hC.map _ fun b => ?_, Function.update_self, Function.update_idem]
  by_cases hb : b = a
  · subst hb; rw [Function.update_self, hC.lo, hC.hi]; exact ⟨t0, t1⟩
  · rw [Function.update_of_ne hb, hC.lo_other hb, hC.hi_other hb]; exact hx b hb

theorem glued {N A C J : Nrb K (d + 1)} {a : Fin (d + 1)} {u eps : K} (hv : N.Valid) (hc : N.CanCut eps a u)
    (hA : N.IsPart a (N.lo a) u A) (hC : N.IsTail a u C) (hJ : Joined A C J a) : N.Glued a u J := by
  have hltA := hc.first.lt
  have hltC := hc.second.lt
  have hd : ∀ b, J.degree b = N.degree b := by
    intro b
    by_cases hb : b = a
    · subst hb; rw [hJ.degree, hA.degree, hC.degree, max_self]
    · rw [hJ.degree' b hb, hA.degree, hC.degree, max_self]
  have hullL : ∀ b, b ≠ a → hullLo A C b = N.lo b := fun b hb => by unfold hullLo; rw [hA.lo_other hb, hC.lo_other hb, min_self]
  have hullH : ∀ b, b ≠ a → hullHi A C b = N.hi b := fun b hb => by unfold hullHi; rw [hA.hi_other hb, hC.hi_other hb, max_self]
  have hlo : ∀ b, J.lo b = N.lo b := by
    intro b
    by_cases hb : b = a
    · subst hb; rw [hJ.lo, hA.lo]
    · rw [hJ.lo' b hb, hullL b hb]
  have hhi : ∀ b, J.hi b = N.hi b := by
    intro b
    by_cases hb : b = a
    · subst hb; rw [hJ.hi, hA.hi, hC.hi, hC.lo]; ring
    · rw [hJ.hi' b hb, hullH b hb]
  have evA : ∀ x, N.InDom x → ∀ t, N.lo a ≤ t → t ≤ u → A.eval (pieceParam A C A a t x) = N.eval (Function.update x a t) :=
    fun x hx t t0 t1 => piece_first hv hA hC (fun b _ => hx b) t0 t1
  have evC : ∀ x, N.InDom x → ∀ t, 0 ≤ t → t ≤ N.hi a - u →
      C.eval (pieceParam A C C a t x) = N.eval (Function.update x a (u + t)) :=
    fun x hx t t0 t1 => piece_second hv hA hC (fun b _ => hx b) t0 t1
  have hgap : ∀ x, N.InDom x → ∀ k, joinGap A C a x k = 0 := by
    intro x hx k
    unfold joinGap
    rw [hA.hi, hC.lo, evA x hx u hltA.le le_rfl, evC x hx 0 le_rfl (by linarith), add_zero, sub_self]
  refine ⟨hJ.valid, ⟨by rw [hJ.nc, hA.nc], hd, hlo, hhi, fun x hx => ?_⟩, fun b hb => ?_, ?_, fun x hx => ?_⟩
  · have hxJ : J.InDom x := fun b => by rw [hlo, hhi]; exact hx b
    have hxa := hx a
    funext k
    rcases le_total (x a) u with h | h
    · obtain ⟨w, _, _, hw⟩ := hJ.first x hxJ (by rw [hA.hi]; exact h)
      rw [hw, hgap x hx, mul_zero, add_zero, evA x hx _ hxa.1 h, Function.update_eq_self]
    · obtain ⟨w, _, _, hw⟩ := hJ.second x hxJ (by rw [hA.hi]; exact h)
      rw [hw, hgap x hx, mul_zero, sub_zero, hC.lo, hA.hi, zero_add, evC x hx _ (by linarith) (by linarith [hxa.2]),
        add_sub_cancel, Function.update_eq_self]
  · rw [clamped_knots hJ.valid (hJ.left' b hb) (hJ.right' b hb), clamped_knots hv (hc.left b hb) (hc.right b hb), hd, hlo, hhi]
    congr 2
    ext x
    rw [Multiset.count_filter, Multiset.count_filter]
    split_ifs with hx
    · rw [← multOf_eq_count, ← multOf_eq_count]
      obtain ⟨⟨i, hi⟩, -⟩ := hJ.knots' b hb x (by rw [hlo]; exact hx.1) (by rw [hhi]; exact hx.2)
      rw [hlo, hhi, hd] at hi
      have hlt := Nrb.lo_lt_hi hv b
      have key : ∀ X : Nrb K (d + 1), X.lo b = N.lo b → X.hi b = N.hi b → X.degree b = N.degree b →
          (∀ x, X.multOf b x = N.multOf b x) → raisedMult X b (N.lo b) (N.hi b) (N.degree b) x = N.multOf b x := by
        intro X x1 x2 x3 x4
        unfold raisedMult
        rw [x1, x2, x3, affMap_id hlt, x4]
        dsimp only
        split_ifs with h0
        · rw [h0]; rfl
        · ring
      revert hi
      fin_cases i
      · intro hi
        have := key A (hA.lo_other hb) (hA.hi_other hb) (hA.degree b) (hA.multOf_other hb)
        have hi : raisedMult A b (N.lo b) (N.hi b) (N.degree b) x = J.multOf b x := hi
        omega
      · intro hi
        have := key C (hC.lo_other hb) (hC.hi_other hb) (hC.degree b) (hC.multOf_other hb)
        have hi : raisedMult C b (N.lo b) (N.hi b) (N.degree b) x = J.multOf b x := hi
        omega
    · rfl
  · have := hJ.knot
    rwa [hA.hi, hd] at this
  · have raise : ∀ (X : Nrb K (d + 1)) y, X.degree a = N.degree a → raisedAt X a (J.degree a) y = X.multOf a y := by
      intro X y hX
      unfold raisedAt
      rw [hd, hX, sub_self, add_zero]
      split_ifs with h0
      · rw [h0]; rfl
      · rfl
    rcases lt_or_gt_of_ne hx with h | h
    · have e := hJ.knots1 x (by rw [hA.hi]; exact h)
      rw [raise A x (hA.degree a)] at e
      have e : J.multOf a x = A.multOf a x := by omega
      rw [e, hA.count]
      have hne : x ≠ N.hi a := (h.trans hltC).ne
      simp only [h.ne, hne, or_false, h, h.trans hltC, and_true]
    · have e := hJ.knots2 x (by rw [hA.hi]; exact h)
      rw [raise C _ (hC.degree a), hC.lo, hA.hi, zero_add] at e
      have e : J.multOf a x = C.multOf a (x - u) := by omega
      rw [e, hC.knots, add_sub_cancel]
      have n1 : x - u ≠ 0 := sub_ne_zero.2 hx
      have n2 : x ≠ N.lo a := (hltA.trans h).ne'
      have e1 : x - u = N.hi a - u ↔ x = N.hi a := sub_left_inj
      have e2 : x - u < N.hi a - u ↔ x < N.hi a := sub_lt_sub_iff_right u
      have e3 : 0 < x - u ↔ u < x := sub_pos
      simp only [n1, n2, false_or, e1, e2, e3, h, hltA.trans h, true_and]

/-- multiplicities of clamped knots -/
theorem clamped_count {N : Nrb K d} (hv : N.Valid) {a : Fin d} (hl : ClampedL (N.degree a) (N.U a))
    (hr : ClampedR (N.n a) (N.degree a) (N.U a)) (x : K) :
    N.multOf a x = if x = N.lo a ∨ x = N.hi a then (N.degree a + 1).toNat else if N.lo a < x ∧ x < N.hi a then N.multOf a x else 0 := by
  have hlt := Nrb.lo_lt_hi hv a
  conv_lhs => rw [multOf_eq_count, clamped_knots hv hl hr]
  rw [Multiset.count_add, Multiset.count_add, Multiset.count_replicate, Multiset.count_replicate, Multiset.count_filter,
    ← multOf_eq_count]
  by_cases h0 : x = N.lo a
  · subst h0; simp [hlt.ne']
  · by_cases h1 : x = N.hi a
    · subst h1; simp [hlt.ne]
    · simp [h0, h1, Ne.symm h0, Ne.symm h1]

end Cut

section Rejoin
variable {d : ℕ}

/-- the calls: cut at `u`, let the parameters of the second piece begin at 0, join -/
theorem rejoin_glued {K : Type} [Field K] [LinearOrder K] [IsStrictOrderedRing K] {eps : K} (heps : 0 < eps) (jk jk' : ℤ → K)
    (je je' : ℤ → (Fin d → ℤ) → ℕ → K) (M : Cad.JoinMem K d) {N : Nrb K (d + 1)}
    (hv : N.Valid) {a : Fin (d + 1)} {u : K} (hc : N.CanCut eps a u) :
    ∃ A B C J, N.slice eps jk je (a : ℤ) none (some u) = .ok A ∧ N.slice eps jk' je' (a : ℤ) (some u) none = .ok B ∧
      B.remap (a : ℤ) (some 0) (some (N.hi a - u)) = .ok C ∧ Cad.joinRaw eps M A C (a : ℤ) = .ok (u, J) ∧
      N.Glued a u J ∧ J.Sep eps a u ∧ ∃ n1, 0 ≤ n1 ∧ n1 ≤ J.n a ∧
        ∀ k, J.row a n1 (fun b => J.shape (a.succAbove b) - 1) k = N.eval (Function.update N.hi a u) k := by
  obtain ⟨A, A1, A2⟩ := slice_part heps jk je hv (normAxis_self a) (start := none) (stop := some u) hc.first
  obtain ⟨B, B1, B2⟩ := slice_part heps jk' je' hv (normAxis_self a) (start := some u) (stop := none) hc.second
  simp only [Option.getD_some, Option.getD_none] at A2 B2
  obtain ⟨C, C1, C2, C3⟩ := tail_of_part B2 (B2.sepBoth hc.second)
  have hj := joinable_pieces hv hc A2 C2 C3
  obtain ⟨J, j1, j2, -, j3, -, n1, g0, g1, g2⟩ := joinRaw_ok heps M hj C2.lo
  rw [A2.hi] at j1 j3
  refine ⟨A, B, C, J, A1, B1, C1, j1, glued hv hc A2 C2 j2, j3, n1, g0, g1, fun k => ?_⟩
  have hx : ∀ b, b ≠ a → N.lo b ≤ hullHi A C b ∧ hullHi A C b ≤ N.hi b := fun b hb => by
    rw [(piece_hull A2 C2 hb).2]
    exact ⟨(Nrb.lo_lt_hi hv b).le, le_rfl⟩
  have hu : Function.update (hullHi A C) a u = Function.update N.hi a u := by
    funext b
    by_cases hb : b = a
    · subst hb; rw [Function.update_self, Function.update_self]
    · rw [Function.update_of_ne hb, Function.update_of_ne hb, (piece_hull A2 C2 hb).2]
  rw [g2, A2.hi, C2.lo, piece_first hv A2 C2 hx hc.first.lt.le le_rfl,
    piece_second hv A2 C2 hx le_rfl (sub_nonneg.mpr hc.second.lt.le), add_zero, hu]
  ring

/-- C88: an object cut in two and joined again is the object, up to the tolerance of the removal of knots: `degree - 1`
times the deviation times the absolute value of the last coordinate at the end of the cut.  The result has the domain
and the degrees of the object; away from the cut and the ends of the domain its knots are those of the object. -/
theorem C88_rejoin {eps : ℝ} (heps : 0 < eps) (jk jk' : ℤ → ℝ) (je je' : ℤ → (Fin d → ℤ) → ℕ → ℝ) (M : Cad.JoinMem ℝ d)
    {N : Nrb ℝ (d + 1)} (hv : N.Valid) {a : Fin (d + 1)} {u : ℝ} (hc : N.CanCut eps a u) :
    ∃ A B C R, N.slice eps jk je (a : ℤ) none (some u) = .ok A ∧ N.slice eps jk' je' (a : ℤ) (some u) none = .ok B ∧
      B.remap (a : ℤ) (some 0) (some (N.hi a - u)) = .ok C ∧ Cad.join eps M A C (a : ℤ) = .ok R ∧
      R.Valid ∧ R.nc = N.nc ∧ (∀ b, R.degree b = N.degree b ∧ R.lo b = N.lo b ∧ R.hi b = N.hi b) ∧
      (∀ b, b ≠ a → R.knots b = N.knots b) ∧
      (∀ x, N.lo a < x → x < N.hi a → x ≠ u → R.multOf a x = N.multOf a x) ∧
      1 ≤ R.multOf a u ∧ (R.multOf a u : ℤ) ≤ N.degree a ∧
      ∀ x, N.InDom x → ∀ c, c < N.nc → |R.eval x c - N.eval x c| ≤
        (N.degree a - 1) * (1 / 10 ^ 9 * |N.eval (Function.update N.hi a u) (N.nc - 1)|) := by
  obtain ⟨A, B, C, J, A1, B1, C1, J1, hG, hs, n1, n0, n2, hrow⟩ := rejoin_glued heps jk jk' je je' M hv hc
  have hlt := hc.first.lt
  have hgt := hc.second.lt
  have hp := (hv a).one_le
  obtain ⟨t, ht⟩ := Int.eq_ofNat_of_zero_le (by omega : 0 ≤ N.degree a - 1)
  obtain ⟨R, k, r1, r2, r3, r4, r5, r6, r7, r8, r9, r10, -⟩ := C17_remove_deviation heps M.remove hG.valid (normAxis_self a)
    (by rw [hG.map.lo]; exact hlt) (by rw [hG.map.hi]; exact hgt) hs (by rw [hG.map.degree]; exact hG.at_cut.le) t (1 / 10 ^ 9)
  have hR : Cad.join eps M A C (a : ℤ) = .ok R := by
    unfold Cad.join
    rw [J1, res_ok_bind, normAxis_self, res_ok_bind]
    dsimp only
    rw [hG.map.degree, ht, r1]
  have hat : J.multOf a u = R.multOf a u + k := by
    rw [multOf_eq_count, multOf_eq_count, r7, Multiset.count_add, Multiset.count_replicate_self]
  have hcut := hG.at_cut
  refine ⟨A, B, C, R, A1, B1, C1, hR, r4, by rw [r5, hG.map.nc], fun b => ⟨?_, ?_, ?_⟩, fun b hb => ?_, fun x x0 x1 xu => ?_, by omega, by omega,
    fun x hx c hcn => ?_⟩
  · rw [(r9 b).1, hG.map.degree]
  · rw [(r9 b).2.1, hG.map.lo]
  · rw [(r9 b).2.2, hG.map.hi]
  · rw [← hG.others b hb]
    unfold Nrb.knots
    rw [len_of_degree (r9 b).1 (by rw [r6, Function.update_of_ne hb]), r8 b hb]
  · have e : J.multOf a x = R.multOf a x := by
      rw [multOf_eq_count, multOf_eq_count, r7, Multiset.count_add, Multiset.count_replicate, if_neg (Ne.symm xu), add_zero]
    rw [← e, hG.knots x xu, if_neg (by rintro (h | h) <;> linarith), if_pos ⟨x0, x1⟩]
  · have g := removeTol_le (N := J) (a := a) (dev := 1 / 10 ^ 9) (by positivity) n0 n2
    rw [hrow, hG.map.nc] at g
    have hd := r10 x (fun b => by rw [hG.map.lo, hG.map.hi]; exact hx b) c (by rw [hG.map.nc]; exact hcn)
    rw [hG.map.eval x hx] at hd
    have e : (N.degree a : ℝ) - 1 = (t : ℝ) := by
      have := congrArg (fun z : ℤ => (z : ℝ)) ht
      push_cast at this
      exact this
    rw [e]
    refine hd.trans ?_
    calc (k : ℝ) * J.removeTol a (1 / 10 ^ 9) ≤ k * _ := mul_le_mul_of_nonneg_left g (by positivity)
      _ ≤ _ := mul_le_mul_of_nonneg_right (by exact_mod_cast r2) (by positivity)

/-- a control net with a nonnegative last column keeps it when the pieces are put together -/
theorem glued_nonneg {N J : Nrb ℝ (d + 1)} {a : Fin (d + 1)} {u eps : ℝ} (heps : 0 < eps) (hv : N.Valid) (hc : N.CanCut eps a u)
    (hl : ClampedL (N.degree a) (N.U a)) (hr : ClampedR (N.n a) (N.degree a) (N.U a)) (hG : N.Glued a u J)
    (hw : ∀ idx, N.InNet idx → 0 ≤ N.P idx (N.nc - 1)) : ∀ idx, J.InNet idx → 0 ≤ J.P idx (J.nc - 1) := by
  have hlt := hc.first.lt
  have hgt := hc.second.lt
  have hmu := hc.inner a u hlt hgt
  obtain ⟨t, ht⟩ := Int.eq_ofNat_of_zero_le (by omega : 0 ≤ N.degree a - N.multOf a u)
  obtain ⟨Q, q1, q2, q3, q4, q5, q6⟩ := C07_insert heps (fun _ => 0) (fun _ _ _ => 0) hv (normAxis_self a) hlt hgt
    hc.first.sep1 (t := t) (by push_cast; omega)
  obtain ⟨a', hmore⟩ := insert_more heps hv hc.inner (fun b hb => by
    obtain rfl := Except.ok.inj ((normAxis_self a).symm.trans hb)
    exact ⟨hlt.ne', hgt.ne, hc.first.sep1⟩) q1
  have hk : ∀ b, Q.knots b = J.knots b := by
    intro b
    by_cases hb : b = a
    · subst hb
      rw [q5]
      ext x
      rw [Multiset.count_add, ← multOf_eq_count, ← multOf_eq_count, Multiset.count_replicate]
      have hcut := hG.at_cut
      by_cases hx : x = u
      · subst hx; rw [if_pos rfl]; omega
      · rw [if_neg (Ne.symm hx), add_zero, hG.knots x hx]
        exact clamped_count hv hl hr x
    · rw [hG.others b hb]
      unfold Nrb.knots
      rw [q6 b hb, len_of_degree (q3.degree b) (by rw [q4, Function.update_of_ne hb])]
  have hiJ : ∀ b, J.InnerMult b := fun b x x0 x1 => by
    have := hmore.inner b x (by rw [q3.lo, ← hG.map.lo]; exact x0) (by rw [q3.hi, ← hG.map.hi]; exact x1)
    rwa [multOf_eq_count, hk, ← multOf_eq_count, q3.degree, ← hG.map.degree] at this
  have hsd : J.SameData Q := sameData_of_knots hG.valid q2 hiJ (by rw [q3.nc, hG.map.nc])
    (fun b => by rw [q3.degree, hG.map.degree]) hk fun x hx _ => by
      have hxN : N.InDom x := fun b => by rw [← hG.map.lo, ← hG.map.hi]; exact hx b
      rw [q3.eval x hxN, hG.map.eval x hxN]
  have hav := hmore.averages hv
  intro idx hidx
  rw [← hsd.net idx hidx, hG.map.nc]
  refine hav {v | 0 ≤ v (N.nc - 1)} ?_ hw idx fun b => ?_
  · intro v hv w hw s t hs ht _
    exact add_nonneg (mul_nonneg hs hv) (mul_nonneg ht hw)
  · rw [hsd.shape]; exact hidx b

/-- the object with `m` copies of the knot is a coarser description of the pieces put together -/
theorem glued_coarser {N J N' : Nrb ℝ (d + 1)} {a : Fin (d + 1)} {u eps : ℝ} (hv : N.Valid) (hc : N.CanCut eps a u)
    (hl : ClampedL (N.degree a) (N.U a)) (hr : ClampedR (N.n a) (N.degree a) (N.U a)) (hG : N.Glued a u J) {t r : ℕ}
    (hN : N'.Valid) (hS : N.SameMap N') (hs : N'.shape = Function.update N.shape a (N.shape a + t))
    (hk : N'.knots a = N.knots a + Multiset.replicate t u) (hU : ∀ b, b ≠ a → N'.U b = N.U b)
    (hr' : (N.multOf a u + t + r : ℤ) = N.degree a) : J.Coarser N' a u r := by
  refine ⟨hN, by rw [hS.nc, hG.map.nc], fun b => by rw [hS.degree, hG.map.degree], fun b => by rw [hS.lo, hG.map.lo],
    fun b => by rw [hS.hi, hG.map.hi], ?_, fun b hb => ?_, fun x hx c _ => ?_⟩
  · rw [hk]
    ext x
    rw [Multiset.count_add, Multiset.count_add, ← multOf_eq_count, ← multOf_eq_count, Multiset.count_replicate,
      Multiset.count_replicate]
    have hcut := hG.at_cut
    by_cases hx : x = u
    · subst hx; rw [if_pos rfl, if_pos rfl]; omega
    · rw [if_neg (Ne.symm hx), if_neg (Ne.symm hx), add_zero, add_zero, hG.knots x hx]
      exact (clamped_count hv hl hr x).symm
  · rw [hG.others b hb]
    unfold Nrb.knots
    rw [hU b hb, len_of_degree (hS.degree b) (by rw [hs, Function.update_of_ne hb])]
  · have hxN : N.InDom x := fun b => by rw [← hG.map.lo, ← hG.map.hi]; exact hx b
    rw [hS.eval x hxN, hG.map.eval x hxN]

theorem glued_inner {N J : Nrb ℝ (d + 1)} {a : Fin (d + 1)} {u eps : ℝ} (hc : N.CanCut eps a u) (hG : N.Glued a u J)
    (b : Fin (d + 1)) (x : ℝ) (x0 : J.lo b < x) (x1 : x < J.hi b) : (J.multOf b x : ℤ) ≤ J.degree b + 1 := by
  rw [hG.map.lo] at x0
  rw [hG.map.hi] at x1
  rw [hG.map.degree]
  by_cases hb : b = a
  · subst hb
    by_cases hx : x = u
    · subst hx; rw [hG.at_cut]; omega
    · rw [hG.knots x hx, if_neg (by rintro (h | h) <;> linarith), if_pos ⟨x0, x1⟩]
      have := hc.inner b x x0 x1
      omega
  · have := hc.inner b x x0 x1
    rw [multOf_eq_count, hG.others b hb, ← multOf_eq_count]
    omega

/-- C88: a clamped object whose last coordinates are not negative, cut at a value that is no knot or a simple knot and
joined again, is restored: the knots and control points are those of the object with the cut inserted as a simple
knot, if it was none. -/
theorem C88_restored {eps : ℝ} (heps : 0 < eps) (jk jk' ji : ℤ → ℝ) (je je' je'' : ℤ → (Fin d → ℤ) → ℕ → ℝ) (M : Cad.JoinMem ℝ d)
    {N : Nrb ℝ (d + 1)} (hv : N.Valid) {a : Fin (d + 1)} {u : ℝ} (hc : N.CanCut eps a u) (hl : ClampedL (N.degree a) (N.U a))
    (hr : ClampedR (N.n a) (N.degree a) (N.U a)) (hw : ∀ idx, N.InNet idx → 0 ≤ N.P idx (N.nc - 1)) (hu : N.multOf a u ≤ 1) :
    ∃ A B C R N', N.slice eps jk je (a : ℤ) none (some u) = .ok A ∧ N.slice eps jk' je' (a : ℤ) (some u) none = .ok B ∧
      B.remap (a : ℤ) (some 0) (some (N.hi a - u)) = .ok C ∧ Cad.join eps M A C (a : ℤ) = .ok R ∧
      N.insert eps ji je'' (a : ℤ) u (some (1 - N.multOf a u)) = .ok N' ∧ N'.SameKnots R ∧ R.nc = N'.nc ∧
      ∀ idx c, N'.InNet idx → c < N'.nc → R.P idx c = N'.P idx c := by
  obtain ⟨A, B, C, J, A1, B1, C1, J1, hG, hs, -⟩ := rejoin_glued heps jk jk' je je' M hv hc
  have hlt := hc.first.lt
  have hgt := hc.second.lt
  have hp := (hv a).one_le
  obtain ⟨t, ht⟩ := Int.eq_ofNat_of_zero_le (by omega : 0 ≤ (1 : ℤ) - N.multOf a u)
  obtain ⟨N', q1, q2, q3, q4, q5, q6⟩ := C07_insert heps ji je'' hv (normAxis_self a) hlt hgt hc.first.sep1 (t := t)
    (by push_cast; omega)
  obtain ⟨r, hr'⟩ := Int.eq_ofNat_of_zero_le (by omega : 0 ≤ N.degree a - 1)
  have hco : J.Coarser N' a u r := glued_coarser hv hc hl hr hG q2 q3 q4 q5 q6 (by omega)
  have hjoin : Cad.join eps M A C (a : ℤ) = J.remove eps M.remove (a : ℤ) u (some r) (1 / 10 ^ 9) := by
    unfold Cad.join
    rw [J1, res_ok_bind, normAxis_self, res_ok_bind]
    dsimp only
    rw [hG.map.degree, hr']
  have h1 : J.lo a < u := by rw [hG.map.lo]; exact hlt
  have h2 : u < J.hi a := by rw [hG.map.hi]; exact hgt
  have hmu : (J.multOf a u : ℤ) ≤ J.degree a := by rw [hG.map.degree]; exact hG.at_cut.le
  have hinn := glued_inner hc hG
  rw [ht]
  rcases Nat.eq_zero_or_pos r with h0 | hpos
  · subst h0
    obtain ⟨R, k, r1, r2, -, -, -, -, -, -, -, -, r3⟩ := C17_remove_deviation heps M.remove hG.valid (normAxis_self a) h1 h2 hs hmu 0 (1 / 10 ^ 9)
    obtain rfl := r3 (by omega)
    have hiN : ∀ b, N'.InnerMult b := fun b x x0 x1 => by
      by_cases hb : b = a
      · subst hb
        have hcut := hG.at_cut
        have hk := hco.knots
        rw [Multiset.replicate_zero, add_zero] at hk
        rw [multOf_eq_count, ← hk, ← multOf_eq_count, q3.degree]
        by_cases hx : x = u
        · subst hx; omega
        · rw [hG.knots x hx, if_neg (by rw [q3.lo] at x0; rw [q3.hi] at x1; rintro (h | h) <;> linarith),
            if_pos ⟨by rw [q3.lo] at x0; exact x0, by rw [q3.hi] at x1; exact x1⟩]
          exact hc.inner b x (by rw [q3.lo] at x0; exact x0) (by rw [q3.hi] at x1; exact x1)
      · rw [multOf_eq_count, hco.others b hb, hG.others b hb, ← multOf_eq_count, q3.degree]
        exact hc.inner b x (by rw [q3.lo] at x0; exact x0) (by rw [q3.hi] at x1; exact x1)
    have hsd : N'.SameData R := sameData_of_knots q2 hG.valid hiN (by rw [q3.nc, hG.map.nc])
      (fun b => by rw [q3.degree, hG.map.degree]) (fun b => by
        by_cases hb : b = a
        · subst hb; have := hco.knots; rwa [Multiset.replicate_zero, add_zero] at this
        · exact (hco.others b hb).symm) fun x hx _ => by
        have hxN : N.InDom x := fun b => by rw [← q3.lo, ← q3.hi]; exact hx b
        rw [q3.eval x hxN, hG.map.eval x hxN]
    exact ⟨A, B, C, R, N', A1, B1, C1, by rw [hjoin]; exact r1, q1, hsd.toSameKnots, hsd.nc, fun idx c hi _ => by rw [hsd.net idx hi]⟩
  · obtain ⟨R, r1, r2, r3, r4⟩ := C60_restores heps M.remove hG.valid (normAxis_self a) h1 h2 hs hmu hinn hpos hco
      (deviation := 1 / 10 ^ 9) (by positivity) (glued_nonneg heps hv hc hl hr hG hw)
    exact ⟨A, B, C, R, N', A1, B1, C1, by rw [hjoin, r1], q1, r2, by rw [r3, hG.map.nc, q3.nc],
      fun idx c hi hcn => r4 idx c hi (by rw [hG.map.nc, ← q3.nc]; exact hcn)⟩

/-- C88: in general no more copies of the cut stay than the object has, and one if it has none: joining recovers the
smoothness of the object at the cut. -/
theorem C88_smooth {eps : ℝ} (heps : 0 < eps) (jk jk' : ℤ → ℝ) (je je' : ℤ → (Fin d → ℤ) → ℕ → ℝ) (M : Cad.JoinMem ℝ d)
    {N : Nrb ℝ (d + 1)} (hv : N.Valid) {a : Fin (d + 1)} {u : ℝ} (hc : N.CanCut eps a u) (hl : ClampedL (N.degree a) (N.U a))
    (hr : ClampedR (N.n a) (N.degree a) (N.U a)) (hw : ∀ idx, N.InNet idx → 0 ≤ N.P idx (N.nc - 1)) :
    ∃ A B C R, N.slice eps jk je (a : ℤ) none (some u) = .ok A ∧ N.slice eps jk' je' (a : ℤ) (some u) none = .ok B ∧
      B.remap (a : ℤ) (some 0) (some (N.hi a - u)) = .ok C ∧ Cad.join eps M A C (a : ℤ) = .ok R ∧
      1 ≤ R.multOf a u ∧ R.multOf a u ≤ max 1 (N.multOf a u) := by
  obtain ⟨A, B, C, J, A1, B1, C1, J1, hG, hs, -⟩ := rejoin_glued heps jk jk' je je' M hv hc
  have hlt := hc.first.lt
  have hgt := hc.second.lt
  have hp := (hv a).one_le
  have hin := hc.inner a u hlt hgt
  obtain ⟨r, hr'⟩ := Int.eq_ofNat_of_zero_le (by omega : 0 ≤ N.degree a - 1)
  have h1 : J.lo a < u := by rw [hG.map.lo]; exact hlt
  have h2 : u < J.hi a := by rw [hG.map.hi]; exact hgt
  have hmu : (J.multOf a u : ℤ) ≤ J.degree a := by rw [hG.map.degree]; exact hG.at_cut.le
  have hcut := hG.at_cut
  obtain ⟨N', q1, q2, q3, q4, q5, q6⟩ := C07_insert heps (fun _ => 0) (fun _ _ _ => 0) hv (normAxis_self a) hlt hgt hc.first.sep1
    (t := 1 - N.multOf a u) (by push_cast; omega)
  obtain ⟨R, k, r1, r2, r3, r4⟩ := C60_remove heps M.remove hG.valid (normAxis_self a) h1 h2 hs hmu (glued_inner hc hG)
    (deviation := 1 / 10 ^ 9) (by positivity) (glued_nonneg heps hv hc hl hr hG hw) (some r)
  obtain ⟨R', k', e1, e2, -, -, -, -, e3, -⟩ := C17_remove_deviation heps M.remove hG.valid (normAxis_self a) h1 h2 hs hmu r (1 / 10 ^ 9)
  have hRR : R = R' := Except.ok.inj (r1.symm.trans e1)
  subst hRR
  have hk : (N.degree a - max 1 (N.multOf a u)).toNat ≤ k :=
    r4 N' _ (glued_coarser hv hc hl hr hG q2 q3 q4 q5 q6 (by push_cast; omega)) fun t ht => by
      obtain rfl := Option.some.inj ht
      omega
  have hat : J.multOf a u = R.multOf a u + k := by
    rw [multOf_eq_count, multOf_eq_count, r3, Multiset.count_add, Multiset.count_replicate_self]
  have hat' : J.multOf a u = R.multOf a u + k' := by
    rw [multOf_eq_count, multOf_eq_count, e3, Multiset.count_add, Multiset.count_replicate_self]
  refine ⟨A, B, C, R, A1, B1, C1, ?_, by omega, by omega⟩
  unfold Cad.join
  rw [J1, res_ok_bind, normAxis_self, res_ok_bind]
  dsimp only
  rw [hG.map.degree, hr', ← r1]
  rfl

end Rejoin

end Igakit
