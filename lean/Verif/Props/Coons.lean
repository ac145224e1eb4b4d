import Verif.Model.Coons
import Verif.Props.Ruled
import Verif.Props.Nurbs

/-! # C37: Coons patches -/

set_option linter.unusedSectionVars false

namespace Igakit
open Spec

variable {K : Type} [Field K] [LinearOrder K] [IsStrictOrderedRing K] {d m : ℕ}

/-! ## compatibility of results of `compat` -/

/-- every knot of the results is a stretched knot of one of the arguments -/
theorem merged_knot {N R : Fin m → Nrb K d} {a : Fin d} {c e : K} (hv : ∀ i, (N i).Valid) (hvR : ∀ i, (R i).Valid)
    (hM : Merged N R a c e) {i : Fin m} {x : K} (hx : 0 < ((R i).axis a).mult x) :
    ∃ j k, 0 ≤ k ∧ k < (N j).len a ∧ x = affMap ((N j).lo a) ((N j).hi a) c e ((N j).U a k) := by
  obtain ⟨h1, h2⟩ := Ax.mult_range (A := (R i).axis a) (hvR i a) (hM.left i) (hM.right i) hx
  rw [axis_lo, hM.lo] at h1
  rw [axis_hi, hM.hi] at h2
  have hlen : ∀ j, (N j).len a = (N j).n a + (N j).degree a + 2 := fun j => ((N j).axis a).len_eq
  have hlt := fun j => Nrb.lo_lt_hi (hv j) a
  rcases h1.eq_or_lt with h | h
  · refine ⟨i, (N i).degree a, ?_, ?_, ?_⟩
    · have := (hv i a).one_le; omega
    · have := (hv i a).one_le; have := (hv i a).le; have := hlen i; omega
    · rw [← Nrb.lo_eq, affMap_left (hlt i)]; exact h.symm
  rcases h2.eq_or_lt with h' | h'
  · refine ⟨i, (N i).n a + 1, ?_, ?_, ?_⟩
    · have := (hv i a).one_le; have := (hv i a).le; omega
    · have := (hv i a).one_le; have := (hv i a).le; have := hlen i; omega
    · rw [← Nrb.hi_eq, affMap_right (hlt i)]; exact h'
  · obtain ⟨j, hj⟩ := (hM.mult i x h h').1
    have hce : c < e := h.trans h'
    rw [axis_mult] at hx
    have hs : (N j).multOf a (affMap c e ((N j).lo a) ((N j).hi a) x) ≠ 0 := by
      intro h0
      unfold raisedMult at hj
      dsimp only at hj
      rw [if_pos h0] at hj
      omega
    obtain ⟨k, k0, k1, k2⟩ := Ax.mult_pos (A := (N j).axis a) |>.mp (Nat.pos_of_ne_zero hs)
    refine ⟨j, k, k0, k1, ?_⟩
    rw [← axis_U, k2, affMap_inv hce (hlt j)]

theorem merged_level {eps : K} {N R : Fin m → Nrb K d} {a : Fin d} {c e : K} (hv : ∀ i, (N i).Valid)
    (hvR : ∀ i, (R i).Valid) (hC : Compatible eps N a c e) (hM : Merged N R a c e) (i0 : Fin m) :
    Level eps ((R i0).degree a) c e (fun i => (R i).axis a) := by
  have hdeg : ∀ i, (R i).degree a = (R i0).degree a := fun i => (hM.degree i).unique (hM.degree i0)
  refine ⟨fun i => hvR i a, hdeg, fun i => ?_, fun i => ?_, hM.left, hM.right, fun i x h1 h2 => ?_,
    fun i j x y hx hy => ?_⟩
  · rw [axis_lo]; exact hM.lo i
  · rw [axis_hi]; exact hM.hi i
  · obtain ⟨j, hj⟩ := (hM.mult i x h1 h2).1
    rw [axis_mult, ← hj, ← hdeg i]
    have hce : c < e := h1.trans h2
    have hlt := Nrb.lo_lt_hi (hv j) a
    unfold raisedMult
    dsimp only
    have hp := (hvR i a).one_le
    split_ifs with h0
    · omega
    · have h3 : (N j).lo a < affMap c e ((N j).lo a) ((N j).hi a) x := by
        have := (affMap_lt hce hlt).mpr h1
        rwa [affMap_left hce] at this
      have h4 : affMap c e ((N j).lo a) ((N j).hi a) x < (N j).hi a := by
        have := (affMap_lt hce hlt).mpr h2
        rwa [affMap_right hce] at this
      have := hC.mult j _ (by rw [← Nrb.lo_eq]; exact h3) (by rw [← Nrb.hi_eq]; exact h4)
      rw [← Nrb.multOf_eq] at this
      omega
  · obtain ⟨i', k, k0, k1, rfl⟩ := merged_knot hv hvR hM hx
    obtain ⟨j', l, l0, l1, rfl⟩ := merged_knot hv hvR hM hy
    exact hC.sep i' j' k l k0 k1 l0 l1

theorem level_compatible {eps c e : K} {q : ℤ} {R : Fin m → Nrb K d} {a : Fin d}
    (hL : Level eps q c e (fun i => (R i).axis a)) : Compatible eps R a c e := by
  have hlo : ∀ i, (R i).lo a = c := fun i => by rw [← axis_lo]; exact hL.lo i
  have hhi : ∀ i, (R i).hi a = e := fun i => by rw [← axis_hi]; exact hL.hi i
  refine ⟨hL.left, hL.right, fun i x h1 h2 => ?_, fun i j k l k0 k1 l0 l1 => ?_, fun i j _ h => ?_⟩
  · rw [← Nrb.lo_eq, hlo] at h1
    rw [← Nrb.hi_eq, hhi] at h2
    have := hL.mult i x h1 h2
    rw [axis_mult, Nrb.multOf_eq] at this
    have hd := hL.degree i
    rw [axis_degree] at hd
    omega
  · have hce : c < e := by
      have := Ax.lo_lt_hi (hL.valid i)
      rwa [hL.lo, hL.hi] at this
    rw [hlo, hhi, hlo, hhi, affMap_id hce, affMap_id hce]
    exact hL.sep i j _ _ (Ax.mult_pos.mpr ⟨k, k0, k1, rfl⟩) (Ax.mult_pos.mpr ⟨l, l0, l1, rfl⟩)
  · have h1 := hL.degree i
    have h2 := hL.degree j
    rw [axis_degree] at h1 h2
    omega

/-- clamped axis whose knots are equal or more than `eps` apart and at most as often as the degree -/
structure Ax.Good (A : Ax K) (eps : K) : Prop where
  left : ClampedL A.degree A.U
  right : ClampedR A.n A.degree A.U
  mult : MultLe A.n A.degree A.U
  sep : ∀ k l, 0 ≤ k → k < A.len → 0 ≤ l → l < A.len → A.U k = A.U l ∨ eps < |A.U k - A.U l|

/-- clamped axis without interior knots -/
structure Ax.Bare (A : Ax K) : Prop where
  left : ClampedL A.degree A.U
  right : ClampedR A.n A.degree A.U
  ends : ∀ k, 0 ≤ k → k < A.len → A.U k = A.lo ∨ A.U k = A.hi

theorem Level.good {eps c e : K} {q : ℤ} {B : Fin m → Ax K} (hL : Level eps q c e B) (i : Fin m) : (B i).Good eps := by
  refine ⟨hL.left i, hL.right i, fun x h1 h2 => ?_, fun k l k0 k1 l0 l1 => ?_⟩
  · have := hL.mult i x (by rw [← hL.lo i]; exact h1) (by rw [← hL.hi i]; exact h2)
    rw [← hL.degree i] at this
    rw [← Ax.mult_eq]
    exact this
  · exact hL.sep i i _ _ (Ax.mult_pos.mpr ⟨k, k0, k1, rfl⟩) (Ax.mult_pos.mpr ⟨l, l0, l1, rfl⟩)

/-- an axis with knots `0, 0, 1, 1` -/
theorem bare_unit {V : ℤ → K} (h0 : V 0 = 0) (h1 : V 1 = 0) (h2 : V 2 = 1) (h3 : V 3 = 1) : (Ax.mk 2 4 V).Bare := by
  refine ⟨?_, ?_, ?_⟩
  · intro j j0 j1
    change j ≤ 1 at j1
    have : j = 0 ∨ j = 1 := by omega
    rcases this with rfl | rfl
    · exact h0.trans h1.symm
    · rfl
  · intro j j0 j1
    change 2 ≤ j at j0
    change j ≤ 3 at j1
    have : j = 2 ∨ j = 3 := by omega
    rcases this with rfl | rfl
    · rfl
    · exact h3.trans h2.symm
  · intro k k0 k1
    change k < 4 at k1
    show V k = V 1 ∨ V k = V 2
    rw [h1, h2]
    have : k = 0 ∨ k = 1 ∨ k = 2 ∨ k = 3 := by omega
    rcases this with rfl | rfl | rfl | rfl
    · exact Or.inl h0
    · exact Or.inl h1
    · exact Or.inr h2
    · exact Or.inr h3

/-- objects that have no interior knots are compatible with any object of at least their degree -/
theorem compatible_bare {eps : K} {N : Fin m → Nrb K d} {a : Fin d} {c e : K} (i1 : Fin m)
    (hv : ∀ i, (N i).Valid) (hc : ∀ i, c ≤ (N i).lo a) (he : ∀ i, (N i).hi a ≤ e)
    (hgood : ((N i1).axis a).Good eps) (hbr : ∀ i, i ≠ i1 → ((N i).axis a).Bare)
    (hdeg : ∀ i, (N i).degree a ≤ (N i1).degree a) (h9 : ∀ i, i ≠ i1 → (N i).degree a ≤ 9) :
    Compatible eps N a c e := by
  have hl : ∀ i, ClampedL ((N i).degree a) ((N i).U a) := by
    intro i
    by_cases h : i = i1
    · rw [h]; exact hgood.left
    · exact (hbr i h).left
  have hr : ∀ i, ClampedR ((N i).n a) ((N i).degree a) ((N i).U a) := by
    intro i
    by_cases h : i = i1
    · rw [h]; exact hgood.right
    · exact (hbr i h).right
  have hm : MultLe ((N i1).n a) ((N i1).degree a) ((N i1).U a) := hgood.mult
  have hsep : ∀ k l, 0 ≤ k → k < (N i1).len a → 0 ≤ l → l < (N i1).len a →
      (N i1).U a k = (N i1).U a l ∨ eps < |(N i1).U a k - (N i1).U a l| := hgood.sep
  have hbare : ∀ i, i ≠ i1 → ∀ k, 0 ≤ k → k < (N i).len a → (N i).U a k = (N i).lo a ∨ (N i).U a k = (N i).hi a := by
    intro i hi k k0 k1
    rw [← axis_hi]
    exact (hbr i hi).ends k k0 k1
  have hlt := fun i => Nrb.lo_lt_hi (hv i) a
  have hce : c < e := lt_of_le_of_lt (hc i1) (lt_of_lt_of_le (hlt i1) (he i1))
  have hlen : ∀ j, (N j).len a = (N j).n a + (N j).degree a + 2 := fun j => ((N j).axis a).len_eq
  refine ⟨hl, hr, fun i => ?_, fun i j k l k0 k1 l0 l1 => ?_, fun i j hj h => ?_⟩
  · by_cases hi : i = i1
    · rw [hi]; exact hm
    · intro x h1 h2
      rw [← Nrb.lo_eq] at h1
      rw [← Nrb.hi_eq] at h2
      have : (N i).multOf a x = 0 := by
        by_contra hne
        obtain ⟨k, k0, k1, k2⟩ := Ax.mult_pos (A := (N i).axis a) |>.mp (Nat.pos_of_ne_zero hne)
        rcases hbare i hi k k0 k1 with h | h
        · rw [axis_U, h] at k2; exact absurd k2 h1.ne
        · rw [axis_U, h] at k2; exact absurd k2 h2.ne'
      rw [Nrb.multOf_eq] at this
      rw [this]
      have := (hv i a).one_le
      push_cast
      omega
  · have hrep : ∀ i k, 0 ≤ k → k < (N i).len a → ∃ k', 0 ≤ k' ∧ k' < (N i1).len a ∧
        affMap ((N i).lo a) ((N i).hi a) c e ((N i).U a k) =
          affMap ((N i1).lo a) ((N i1).hi a) c e ((N i1).U a k') := by
      intro i k k0 k1
      have hp := (hv i1 a).one_le
      have hn := (hv i1 a).le
      have hl1 := hlen i1
      by_cases hi : i = i1
      · subst hi; exact ⟨k, k0, k1, rfl⟩
      · rcases hbare i hi k k0 k1 with h | h
        · refine ⟨(N i1).degree a, by omega, by omega, ?_⟩
          rw [h, ← Nrb.lo_eq, affMap_left (hlt i), affMap_left (hlt i1)]
        · refine ⟨(N i1).n a + 1, by omega, by omega, ?_⟩
          rw [h, ← Nrb.hi_eq, affMap_right (hlt i), affMap_right (hlt i1)]
    obtain ⟨k', a0, a1, a2⟩ := hrep i k k0 k1
    obtain ⟨l', b0, b1, b2⟩ := hrep j l l0 l1
    rw [a2, b2]
    rcases hsep k' l' a0 a1 b0 b1 with h | h
    · exact Or.inl (by rw [h])
    · right
      rw [affMap_sub (hlt i1), abs_mul]
      have hpos : 0 < (N i1).hi a - (N i1).lo a := sub_pos.mpr (hlt i1)
      have hs : 1 ≤ (e - c) / ((N i1).hi a - (N i1).lo a) := by
        rw [le_div_iff₀ hpos]
        have := hc i1
        have := he i1
        linarith
      rw [abs_of_pos (lt_of_lt_of_le one_pos hs)]
      exact lt_of_lt_of_le h (le_mul_of_one_le_right (abs_nonneg _) hs)
  · left
    apply h9
    intro hi
    subst hi
    exact absurd (hdeg j) (not_le.mpr h)

/-! ## the sum of the three surfaces -/

theorem addSub_ok (h1 : 1 ≤ d) (h3 : d ≤ 3) {R0 R1 B : Nrb K d} (hv : B.Valid) (hs0 : B.SameAxes R0)
    (hs1 : B.SameAxes R1) :
    ∃ R, Cad.addSub R0 R1 B = .ok R ∧ R.Valid ∧ R.nc = 4 ∧ (∀ a, R.lo a = B.lo a) ∧ (∀ a, R.hi a = B.hi a) ∧
      (∀ a, R.degree a = B.degree a) ∧ (∀ a, R.U a = B.U a) ∧
      ∀ x, ∀ k < 4, R.eval x k = R0.eval x k + R1.eval x k - B.eval x k := by
  unfold Cad.addSub
  rw [if_pos ⟨funext hs0.shape, funext hs1.shape⟩]
  refine ⟨_, ctor_points (W := none) (sh := B.shape) (len := B.len) (s := 4) h1 h3 (fun _ => rfl) (valid_len hv) rfl
    (by norm_num) (fun w h => by cases h) (fun a => ?_) (Or.inl ⟨rfl, rfl⟩), hv, rfl, fun _ => rfl, fun _ => rfl,
    fun _ => rfl, fun _ => rfl, fun x k hk => ?_⟩
  · have := (hv a).one_le
    unfold Nrb.degree at this
    omega
  · rw [← congrFun (tensor_sameAxes hv hs0 x) k, ← congrFun (tensor_sameAxes hv hs1 x) k]
    unfold Nrb.eval tensor
    simp only [Finset.sum_apply, Pi.smul_apply, smul_eq_mul]
    rw [← Finset.sum_add_distrib, ← Finset.sum_sub_distrib]
    apply Finset.sum_congr rfl
    intro idx _
    rw [← mul_add, ← mul_sub]
    congr 1
    unfold homog
    rw [if_pos rfl]
    dsimp only
    have e1 : (fun a : Fin d => (List.ofFn idx ++ [(k : ℤ)]).getD a 0) = idx := by
      funext a
      rw [List.getD_eq_getElem?_getD, List.getElem?_append_left (by simp)]
      simp
    have e2 : ((List.ofFn idx ++ [(k : ℤ)]).getD d 0).toNat = k := by
      rw [List.getD_eq_getElem?_getD, List.getElem?_append_right (by simp)]
      simp
    rw [e1, e2]

/-! ## the ends of a curve -/

/-- the parameter of the end `i` of a curve -/
def Nrb.endParam (N : Nrb K 1) (i : Fin 2) : Fin 1 → K := fun _ => if i = 0 then N.lo 0 else N.hi 0

theorem Nrb.endParam_inDom {N : Nrb K 1} (hv : N.Valid) (i : Fin 2) : N.InDom (N.endParam i) := by
  intro a
  have ha : a = 0 := Subsingleton.elim _ _
  subst ha
  have := (Nrb.lo_lt_hi hv 0).le
  unfold Nrb.endParam
  split_ifs
  · exact ⟨le_rfl, this⟩
  · exact ⟨this, le_rfl⟩

theorem affine_end {N R : Nrb K 1} (hv : N.Valid) (hvR : R.Valid) (h : N.AffineOf R) (i : Fin 2) :
    R.eval (R.endParam i) = N.eval (N.endParam i) := by
  rw [h.eval _ (Nrb.endParam_inDom hvR i)]
  congr 1
  funext b
  have hb : b = 0 := Subsingleton.elim _ _
  subst hb
  unfold Nrb.endParam
  split_ifs
  · exact affMap_left (Nrb.lo_lt_hi hvR 0) _ _
  · exact affMap_right (Nrb.lo_lt_hi hvR 0) _ _

theorem callPoint_ok (jk : ℤ → K) (je : ℤ → ℕ → K) {N : Nrb K 1} (hv : N.Valid) (i : Fin 2) {u : K}
    (hu : u = N.endParam i 0) : Cad.callPoint jk je N u = .ok (N.proj (N.endParam i)) := by
  subst hu
  have hin := Nrb.endParam_inDom hv i
  obtain ⟨C, h1, h2⟩ := C05_call jk je (by norm_num) hv (r := fun _ => 0) (X := fun _ _ => N.endParam i 0)
    (fun _ => le_rfl) (fun a _ _ _ => by
      have ha : a = 0 := Subsingleton.elim _ _
      subst ha
      exact hin 0)
  unfold Cad.callPoint
  rw [h1, res_ok_bind, res_pure]
  congr 1
  funext c
  rw [(h2 (fun _ => 0) (fun _ => ⟨le_rfl, le_rfl⟩) c).1]
  congr 1

theorem endPoints_ok (jk : ℤ → K) (je : ℤ → ℕ → K) {R : Fin 2 → Nrb K 1} (hv : ∀ i, (R i).Valid)
    (hlo : (R 1).lo 0 = (R 0).lo 0) (hhi : (R 1).hi 0 = (R 0).hi 0) :
    ∃ P, Cad.endPoints jk je (R 0) (R 1) = .ok P ∧ ∀ i j, P i j = (R i).proj ((R i).endParam j) := by
  unfold Cad.endPoints
  rw [callPoint_ok jk je (hv 0) 0 (u := (R 0).lo 0) rfl, res_ok_bind, callPoint_ok jk je (hv 0) 1 (u := (R 0).hi 0) rfl, res_ok_bind,
    callPoint_ok jk je (hv 1) 0 (u := (R 0).lo 0) hlo.symm, res_ok_bind, callPoint_ok jk je (hv 1) 1 (u := (R 0).hi 0) hhi.symm, res_ok_bind]
  refine ⟨_, rfl, fun i j => ?_⟩
  fin_cases i <;> fin_cases j <;> rfl

/-! ## the patch -/

/-- two curves made compatible and ruled -/
theorem pair_ok {eps : K} (heps : 0 < eps) (M1 M2 M3 M4 : Fin 2 → Fin 1 → Mem K 0) {C : Fin 2 → Nrb K 1}
    (hv : ∀ i, (C i).Valid) {c e : K} (hc : c = min ((C 0).lo 0) ((C 1).lo 0)) (he : e = max ((C 0).hi 0) ((C 1).hi 0))
    (hC : Compatible eps C 0 c e) :
    ∃ (R : Fin 2 → Nrb K 1) (S : Nrb K 2), Cad.compat eps M1 M2 C none = .ok R ∧ (∀ i, (R i).Valid) ∧
      (∀ i, (C i).AffineOf (R i)) ∧ (∀ i, (R i).lo 0 = c) ∧ (∀ i, (R i).hi 0 = e) ∧
      Cad.ruled eps M3 M4 (R 0) (R 1) = .ok S ∧ S.Valid ∧ (S.axis 0).Good eps ∧ (S.axis 0).lo = c ∧ (S.axis 0).hi = e ∧
      S.axis 1 = ⟨2, 4, uk⟩ ∧
      ∀ x, S.InDom x → S.eval x = (1 - x 1) • (C 0).eval (fun _ => affMap c e ((C 0).lo 0) ((C 0).hi 0) (x 0)) +
        x 1 • (C 1).eval (fun _ => affMap c e ((C 1).lo 0) ((C 1).hi 0) (x 0)) := by
  obtain ⟨R, hR, hvR, haff, hmer, _⟩ := C39_compat_partial heps M1 M2 (N := C) le_rfl hv (axes := none)
    (A := List.finRange 1) rfl (List.nodup_finRange _) (c := fun _ => c) (e := fun _ => e)
    (fun a => by
      have ha : a = 0 := Subsingleton.elim (α := Fin 1) _ _
      subst ha
      rw [hc]; exact isLeast_two _)
    (fun a => by
      have ha : a = 0 := Subsingleton.elim (α := Fin 1) _ _
      subst ha
      rw [he]; exact isGreatest_two _)
    (fun a _ => by
      have ha : a = 0 := Subsingleton.elim (α := Fin 1) _ _
      subst ha
      exact hC)
  have hmer : Merged C R 0 c e := hmer 0 (List.mem_finRange _)
  have hL := merged_level hv hvR hC hmer 0
  have hvec : ![R 0, R 1] = R := by funext i; fin_cases i <;> rfl
  have hC' : ∀ a : Fin 1, Compatible eps ![R 0, R 1] a c e := by
    intro a
    have ha : a = 0 := Subsingleton.elim (α := Fin 1) _ _
    subst ha
    rw [hvec]
    exact level_compatible hL
  have hlo0 := hmer.lo 0
  have hlo1 := hmer.lo 1
  have hhi0 := hmer.hi 0
  have hhi1 := hmer.hi 1
  obtain ⟨T, hvT, hmerT, hT0, hT1, hok⟩ := ruled_ok heps M3 M4 (d := 0) (by norm_num) (hvR 0) (hvR 1)
    (c := fun _ => c) (e := fun _ => e)
    (fun a => by
      have ha : a = 0 := Subsingleton.elim (α := Fin 1) _ _
      subst ha
      rw [hlo0, hlo1, min_self])
    (fun a => by
      have ha : a = 0 := Subsingleton.elim (α := Fin 1) _ _
      subst ha
      rw [hhi0, hhi1, max_self]) hC'
  have hLT := merged_level (N := ![R 0, R 1]) (fun i => by rw [hvec]; exact hvR i) hvT (hC' 0) (hmerT 0) 0
  have hce : c < e := by
    have := Nrb.lo_lt_hi (hvR 0) 0
    rwa [hlo0, hhi0] at this
  refine ⟨R, _, hR, hvR, haff, hmer.lo, hmer.hi, hok, Nrb.stack_valid _ _ _ _ _ (hvT 0) (by exact uk_valid), ?_, ?_, ?_,
    rfl, fun x hx => ?_⟩
  · exact hLT.good 0
  · exact hLT.lo 0
  · exact hLT.hi 0
  · rw [ruled_eval hvT hmerT hT0 hT1 hx]
    have hx0 : c ≤ x 0 ∧ x 0 ≤ e := by
      have := hx 0
      have h1 := (hmerT 0).lo 0
      have h2 := (hmerT 0).hi 0
      exact ⟨by rw [← h1]; exact this.1, by rw [← h2]; exact this.2⟩
    have key : ∀ i, (R i).eval (fun a : Fin 1 => affMap c e ((R i).lo a) ((R i).hi a) (x a.castSucc)) =
        (C i).eval (fun _ => affMap c e ((C i).lo 0) ((C i).hi 0) (x 0)) := by
      intro i
      have e1 : (fun a : Fin 1 => affMap c e ((R i).lo a) ((R i).hi a) (x a.castSucc)) = fun _ => x 0 := by
        funext a
        have ha : a = 0 := Subsingleton.elim (α := Fin 1) _ _
        subst ha
        rw [hmer.lo, hmer.hi, affMap_id hce]
        rfl
      rw [e1, (haff i).eval _ (fun a => by
        have ha : a = 0 := Subsingleton.elim (α := Fin 1) _ _
        subst ha
        rw [hmer.lo, hmer.hi]
        exact hx0)]
      congr 1
      funext a
      have ha : a = 0 := Subsingleton.elim (α := Fin 1) _ _
      subst ha
      rw [hmer.lo, hmer.hi]
    rw [← key 0, ← key 1]
    rfl

/-- coordinate `k` of the homogeneous form, with weight one, of the end `i` of the curve `C` -/
def Nrb.endCoord (C : Nrb K 1) (i : Fin 2) (k : ℕ) : K := if k = 3 then 1 else C.proj (C.endParam i) k

theorem multilin_two (f : (Fin 2 → Fin 2) → K) (x : Fin 2 → K) :
    multilin f x = (1 - x 0) * (1 - x 1) * f ![0, 0] + (1 - x 0) * x 1 * f ![0, 1] + x 0 * (1 - x 1) * f ![1, 0] +
      x 0 * x 1 * f ![1, 1] := by
  unfold multilin
  rw [← (finTwoArrowEquiv (Fin 2)).symm.sum_comp, Fintype.sum_prod_type]
  simp only [Fin.sum_univ_two, Fin.prod_univ_two, finTwoArrowEquiv_symm_apply]
  simp
  ring

theorem unit_good_axis {N : Nrb K d} {a : Fin d} (h : N.axis a = ⟨2, 4, uk⟩) :
    (N.axis a).Bare ∧ N.degree a = 1 ∧ N.lo a = 0 ∧ N.hi a = 1 := by
  refine ⟨?_, ?_, ?_, ?_⟩
  · rw [h]; exact bare_unit rfl rfl rfl rfl
  · rw [← axis_degree, h]; rfl
  · rw [← axis_lo, h]; rfl
  · rw [← axis_hi, h]; rfl

theorem coons_formula {eps : K} (heps : 0 < eps) (M : Cad.CoonsMem K) {C0 C1 : Fin 2 → Nrb K 1}
    (hv0 : ∀ i, (C0 i).Valid) (hv1 : ∀ i, (C1 i).Valid) {c0 e0 c1 e1 : K}
    (hc0 : c0 = min ((C0 0).lo 0) ((C0 1).lo 0)) (he0 : e0 = max ((C0 0).hi 0) ((C0 1).hi 0))
    (hc1 : c1 = min ((C1 0).lo 0) ((C1 1).lo 0)) (he1 : e1 = max ((C1 0).hi 0) ((C1 1).hi 0))
    (hC0 : Compatible eps C0 0 c0 e0) (hC1 : Compatible eps C1 0 c1 e1)
    (hcorner : ∀ i j : Fin 2, ∀ k < 3, |(C1 j).proj ((C1 j).endParam i) k - (C0 i).proj ((C0 i).endParam j) k| ≤ 1 / 10 ^ 15) :
    ∃ R, Cad.coons eps M (C0 0) (C0 1) (C1 0) (C1 1) = .ok R ∧ R.Valid ∧ R.nc = 4 ∧
      R.lo 0 = min 0 c1 ∧ R.hi 0 = max 1 e1 ∧ R.lo 1 = min 0 c0 ∧ R.hi 1 = max 1 e0 ∧
      ∀ x, R.InDom x → ∀ s t, s = affMap (R.lo 0) (R.hi 0) 0 1 (x 0) → t = affMap (R.lo 1) (R.hi 1) 0 1 (x 1) →
        ∀ k < 4, R.eval x k =
          (1 - s) * (C0 0).eval (fun a => affMap (R.lo 1) (R.hi 1) ((C0 0).lo a) ((C0 0).hi a) (x 1)) k +
          s * (C0 1).eval (fun a => affMap (R.lo 1) (R.hi 1) ((C0 1).lo a) ((C0 1).hi a) (x 1)) k +
          ((1 - t) * (C1 0).eval (fun a => affMap (R.lo 0) (R.hi 0) ((C1 0).lo a) ((C1 0).hi a) (x 0)) k +
          t * (C1 1).eval (fun a => affMap (R.lo 0) (R.hi 0) ((C1 1).lo a) ((C1 1).hi a) (x 0)) k) -
          ((1 - s) * (1 - t) * (C1 0).endCoord 0 k + (1 - s) * t * (C1 1).endCoord 0 k +
            s * (1 - t) * (C1 0).endCoord 1 k + s * t * (C1 1).endCoord 1 k) := by
  have hvec0 : ![C0 0, C0 1] = C0 := by funext i; fin_cases i <;> rfl
  have hvec1 : ![C1 0, C1 1] = C1 := by funext i; fin_cases i <;> rfl
  obtain ⟨A, SA, hA, hvA, haffA, hloA, hhiA, hSA, hvSA, hgA, hlA, hhA, huA, heA⟩ :=
    pair_ok heps (M.pair 0 0) (M.pair 0 1) (M.pair 2 0) (M.pair 2 1) hv0 hc0 he0 hC0
  obtain ⟨B, SB, hB, hvB, haffB, hloB, hhiB, hSB, hvSB, hgB, hlB, hhB, huB, heB⟩ :=
    pair_ok heps (M.pair 1 0) (M.pair 1 1) (M.pair 3 0) (M.pair 3 1) hv1 hc1 he1 hC1
  obtain ⟨P, hP, hPe⟩ := endPoints_ok M.k M.e hvB ((hloB 1).trans (hloB 0).symm) ((hhiB 1).trans (hhiB 0).symm)
  obtain ⟨Q, hQ, hQe⟩ := endPoints_ok M.k M.e hvA ((hloA 1).trans (hloA 0).symm) ((hhiA 1).trans (hhiA 0).symm)
  have hPc : ∀ i j k, P j i k = (C1 j).proj ((C1 j).endParam i) k := fun i j k => by
    rw [hPe]; unfold Nrb.proj; rw [affine_end (hv1 j) (hvB j) (haffB j)]
  have hQc : ∀ i j k, Q i j k = (C0 i).proj ((C0 i).endParam j) k := fun i j k => by
    rw [hQe]; unfold Nrb.proj; rw [affine_end (hv0 i) (hvA i) (haffA i)]
  obtain ⟨T, hT, hperm⟩ := C20_transpose_default SA
  obtain ⟨L, hL, hunit, hLe⟩ := C34_multilinear (K := K) (d := 2) (by norm_num) (by norm_num)
    (C := Cad.cornerNd (fun i j => P j i)) (s := 3) rfl (Or.inr rfl)
  have hax : ∀ i, T.axis i = SA.axis (Fin.revPerm i) := fun i =>
    Ax.ext (hperm.shape i) (hperm.len i) (hperm.U i)
  have hax0 : T.axis 0 = ⟨2, 4, uk⟩ := (hax 0).trans huA
  have hax1 : T.axis 1 = SA.axis 0 := hax 1
  have hvT : T.Valid := by
    intro a
    have : (T.axis a).Valid := by rw [hax]; exact hvSA _
    exact this
  obtain ⟨hT0b, hT0d, hT0l, hT0h⟩ := unit_good_axis hax0
  obtain ⟨hB1b, hB1d, hB1l, hB1h⟩ := unit_good_axis huB
  have hLb : ∀ a, (L.axis a).Bare := by
    intro a
    have hd := hunit.degree a
    have hs := hunit.shape a
    have hlen : L.len a = 4 := by unfold Nrb.degree at hd; omega
    have h1 : L.U a 1 = 0 := by have := hunit.lo a; rwa [Nrb.lo_eq, hd] at this
    have h2 : L.U a 2 = 1 := by
      have := hunit.hi a
      rw [Nrb.hi_eq] at this
      unfold Nrb.n at this
      rw [hs] at this
      exact this
    have : L.axis a = ⟨2, 4, L.U a⟩ := Ax.ext hs hlen rfl
    rw [this]
    exact bare_unit (hunit.first a) h1 h2 (hunit.last a)
  have hT1l : T.lo 1 = c0 := by rw [← axis_lo, hax1]; exact hlA
  have hT1h : T.hi 1 = e0 := by rw [← axis_hi, hax1]; exact hhA
  have hB0l : SB.lo 0 = c1 := by rw [← axis_lo]; exact hlB
  have hB0h : SB.hi 0 = e1 := by rw [← axis_hi]; exact hhB
  have hvN : ∀ i, (![T, SB, L] i).Valid := by
    intro i; fin_cases i
    exacts [hvT, hvSB, hunit.valid]
  obtain ⟨R, hR, hvR, haff, hmer, _⟩ := C39_compat_partial heps (M.three 0) (M.three 1) (N := ![T, SB, L]) (by norm_num) hvN
    (axes := none) (A := List.finRange 2) rfl (List.nodup_finRange _) (c := ![min 0 c1, min 0 c0])
    (e := ![max 1 e1, max 1 e0])
    (fun a => by
      fin_cases a
      · refine ⟨?_, ?_⟩
        · rcases min_choice 0 c1 with h | h
          · exact ⟨0, hT0l.trans h.symm⟩
          · exact ⟨1, hB0l.trans h.symm⟩
        · rintro _ ⟨i, rfl⟩
          fin_cases i
          · exact (min_le_left _ _).trans hT0l.ge
          · exact (min_le_right _ _).trans hB0l.ge
          · exact (min_le_left _ _).trans (hunit.lo 0).ge
      · refine ⟨?_, ?_⟩
        · rcases min_choice 0 c0 with h | h
          · exact ⟨1, hB1l.trans h.symm⟩
          · exact ⟨0, hT1l.trans h.symm⟩
        · rintro _ ⟨i, rfl⟩
          fin_cases i
          · exact (min_le_right _ _).trans hT1l.ge
          · exact (min_le_left _ _).trans hB1l.ge
          · exact (min_le_left _ _).trans (hunit.lo 1).ge)
    (fun a => by
      fin_cases a
      · refine ⟨?_, ?_⟩
        · rcases max_choice 1 e1 with h | h
          · exact ⟨0, hT0h.trans h.symm⟩
          · exact ⟨1, hB0h.trans h.symm⟩
        · rintro _ ⟨i, rfl⟩
          fin_cases i
          · exact hT0h.le.trans (le_max_left _ _)
          · exact hB0h.le.trans (le_max_right _ _)
          · exact (hunit.hi 0).le.trans (le_max_left _ _)
      · refine ⟨?_, ?_⟩
        · rcases max_choice 1 e0 with h | h
          · exact ⟨1, hB1h.trans h.symm⟩
          · exact ⟨0, hT1h.trans h.symm⟩
        · rintro _ ⟨i, rfl⟩
          fin_cases i
          · exact hT1h.le.trans (le_max_right _ _)
          · exact hB1h.le.trans (le_max_left _ _)
          · exact (hunit.hi 1).le.trans (le_max_left _ _))
    (fun a _ => by
      fin_cases a
      · refine compatible_bare 1 hvN (fun i => ?_) (fun i => ?_) hgB (fun i hi => ?_) (fun i => ?_) (fun i hi => ?_)
        · fin_cases i
          · exact (min_le_left _ _).trans hT0l.ge
          · exact (min_le_right _ _).trans hB0l.ge
          · exact (min_le_left _ _).trans (hunit.lo 0).ge
        · fin_cases i
          · exact hT0h.le.trans (le_max_left _ _)
          · exact hB0h.le.trans (le_max_right _ _)
          · exact (hunit.hi 0).le.trans (le_max_left _ _)
        · fin_cases i
          · exact hT0b
          · exact absurd rfl hi
          · exact hLb 0
        · have h1 := (hvSB 0).one_le
          fin_cases i
          · exact hT0d.le.trans h1
          · exact le_rfl
          · exact (hunit.degree 0).le.trans h1
        · fin_cases i
          · exact hT0d.le.trans (by norm_num)
          · exact absurd rfl hi
          · exact (hunit.degree 0).le.trans (by norm_num)
      · refine compatible_bare 0 hvN (fun i => ?_) (fun i => ?_) ?_ (fun i hi => ?_) (fun i => ?_) (fun i hi => ?_)
        · fin_cases i
          · exact (min_le_right _ _).trans hT1l.ge
          · exact (min_le_left _ _).trans hB1l.ge
          · exact (min_le_left _ _).trans (hunit.lo 1).ge
        · fin_cases i
          · exact hT1h.le.trans (le_max_right _ _)
          · exact hB1h.le.trans (le_max_left _ _)
          · exact (hunit.hi 1).le.trans (le_max_left _ _)
        · have : (T.axis 1).Good eps := by rw [hax1]; exact hgA
          exact this
        · fin_cases i
          · exact absurd rfl hi
          · exact hB1b
          · exact hLb 1
        · have h1 := (hvT 1).one_le
          fin_cases i
          · exact le_rfl
          · exact hB1d.le.trans h1
          · exact (hunit.degree 1).le.trans h1
        · fin_cases i
          · exact absurd rfl hi
          · exact hB1d.le.trans (by norm_num)
          · exact (hunit.degree 1).le.trans (by norm_num))
  have hmer : ∀ a, Merged ![T, SB, L] R a (![min 0 c1, min 0 c0] a) (![max 1 e1, max 1 e0] a) :=
    fun a => hmer a (List.mem_finRange _)
  have hsame : ∀ i, (R 2).SameAxes (R i) := fun i =>
    ⟨fun a => (hmer a).shape i 2, fun a => (hmer a).len i 2, fun a j h0 h1 => ((hmer a).knots 2 i j h0 h1).symm⟩
  obtain ⟨Z, hZ, hvZ, hnc, hZl, hZh, hZd, hZU, hZe⟩ := addSub_ok (by norm_num) (by norm_num) (hvR 2) (hsame 0) (hsame 1)
  have l0 : Z.lo 0 = min 0 c1 := by rw [hZl]; exact (hmer 0).lo 2
  have l1 : Z.lo 1 = min 0 c0 := by rw [hZl]; exact (hmer 1).lo 2
  have h0 : Z.hi 0 = max 1 e1 := by rw [hZh]; exact (hmer 0).hi 2
  have h1 : Z.hi 1 = max 1 e0 := by rw [hZh]; exact (hmer 1).hi 2
  refine ⟨Z, ?_, hvZ, hnc, l0, h0, l1, h1, fun x hx s t hs ht k hk => ?_⟩
  · unfold Cad.coons
    rw [hvec0, hA, res_ok_bind, hvec1, hB, res_ok_bind, hP, res_ok_bind, hQ, res_ok_bind, pyAssert_ok, res_ok_bind,
      hSA, res_ok_bind, hT, res_ok_bind, hSB, res_ok_bind, hL, res_ok_bind, hR, res_ok_bind, hZ]
    intro i j c
    rw [hPc, hQc]
    exact hcorner i j c c.2
  · rw [hZe x k hk]
    have hin : ∀ i, (R i).InDom x := by
      intro i a
      have := hx a
      rw [hZl, hZh, (hmer a).lo 2, (hmer a).hi 2, ← (hmer a).lo i, ← (hmer a).hi i] at this
      exact this
    have hRl : ∀ i a, (R i).lo a = Z.lo a := fun i a => by rw [hZl, (hmer a).lo i, (hmer a).lo 2]
    have hRh : ∀ i a, (R i).hi a = Z.hi a := fun i a => by rw [hZh, (hmer a).hi i, (hmer a).hi 2]
    have hZlt := Nrb.lo_lt_hi hvZ
    have hs01 : 0 ≤ s ∧ s ≤ 1 := by rw [hs]; exact affMap_mem (hZlt 0) one_pos (hx 0).1 (hx 0).2
    have ht01 : 0 ≤ t ∧ t ≤ 1 := by rw [ht]; exact affMap_mem (hZlt 1) one_pos (hx 1).1 (hx 1).2
    have hce0 : c0 < e0 := by have := Nrb.lo_lt_hi hvT 1; rwa [hT1l, hT1h] at this
    have hce1 : c1 < e1 := by have := Nrb.lo_lt_hi hvSB 0; rwa [hB0l, hB0h] at this
    have E0 : (R 0).eval x = SA.eval ![affMap (Z.lo 1) (Z.hi 1) c0 e0 (x 1), s] := by
      rw [(haff 0).eval x (hin 0)]
      change T.eval _ = _
      rw [← hperm.eval]
      congr 1
      funext b
      rw [hRl, hRh]
      fin_cases b
      · change affMap _ _ (T.lo 0) (T.hi 0) _ = s
        rw [hT0l, hT0h, hs]
        rfl
      · change affMap _ _ (T.lo 1) (T.hi 1) _ = _
        rw [hT1l, hT1h]
        rfl
    have E1 : (R 1).eval x = SB.eval ![affMap (Z.lo 0) (Z.hi 0) c1 e1 (x 0), t] := by
      rw [(haff 1).eval x (hin 1)]
      change SB.eval _ = _
      congr 1
      funext b
      rw [hRl, hRh]
      fin_cases b
      · change affMap _ _ (SB.lo 0) (SB.hi 0) _ = _
        rw [hB0l, hB0h]
        rfl
      · change affMap _ _ (SB.lo 1) (SB.hi 1) _ = t
        rw [hB1l, hB1h, ht]
        rfl
    have E2 : (R 2).eval x = L.eval ![s, t] := by
      rw [(haff 2).eval x (hin 2)]
      change L.eval _ = _
      congr 1
      funext b
      rw [hRl, hRh]
      change affMap _ _ (L.lo b) (L.hi b) _ = _
      rw [hunit.lo, hunit.hi]
      fin_cases b
      · exact hs.symm
      · exact ht.symm
    have hSA1 := unit_good_axis huA
    rw [E0, E1, E2, heA _ (fun b => by
      fin_cases b
      · change SA.lo 0 ≤ _ ∧ _ ≤ SA.hi 0
        rw [← axis_lo SA, ← axis_hi SA, hlA, hhA]
        exact affMap_mem (hZlt 1) hce0 (hx 1).1 (hx 1).2
      · change SA.lo 1 ≤ _ ∧ _ ≤ SA.hi 1
        rw [hSA1.2.2.1, hSA1.2.2.2]
        exact hs01), heB _ (fun b => by
      fin_cases b
      · change SB.lo 0 ≤ _ ∧ _ ≤ SB.hi 0
        rw [hB0l, hB0h]
        exact affMap_mem (hZlt 0) hce1 (hx 0).1 (hx 0).2
      · change SB.lo 1 ≤ _ ∧ _ ≤ SB.hi 1
        rw [hB1l, hB1h]
        exact ht01)]
    have EL : L.eval ![s, t] k = (1 - s) * (1 - t) * (C1 0).endCoord 0 k + (1 - s) * t * (C1 1).endCoord 0 k +
            s * (1 - t) * (C1 0).endCoord 1 k + s * t * (C1 1).endCoord 1 k := by
      obtain ⟨g3, gk⟩ := hLe ![s, t] (fun b => by
        rw [hunit.lo, hunit.hi]
        fin_cases b
        exacts [hs01, ht01])
      by_cases hk3 : k = 3
      · subst hk3
        rw [g3]
        simp only [Nrb.endCoord, if_pos]
        ring
      · have := gk ⟨k, by omega⟩
        unfold Nrb.point Nrb.proj at this
        rw [g3, div_one] at this
        rw [this, multilin_two]
        have hcor : ∀ i j : Fin 2, (if (((⟨k, by omega⟩ : Fin 3) : ℕ) : ℤ) < 3 then
            (Cad.cornerNd (fun i j => P j i)).corner ![i, j] k else 0) = (C1 j).endCoord i k := by
          intro i j
          rw [if_pos (by dsimp only; omega)]
          unfold Nrb.endCoord
          rw [if_neg hk3, ← hPc]
          unfold Nd.corner Cad.cornerNd
          fin_cases i <;> fin_cases j <;> simp
        rw [hcor, hcor, hcor, hcor]
        rfl
    rw [EL]
    have hsub : ∀ (g : Fin 1 → K) (v : K), (fun _ : Fin 1 => v) = (fun a : Fin 1 => g a) ↔ g 0 = v := by
      intro g v
      constructor
      · intro h; exact (congrFun h 0).symm
      · intro h; funext a
        have ha : a = 0 := Subsingleton.elim (α := Fin 1) _ _
        rw [ha, h]
    have hcomp0 : ∀ i, (fun _ : Fin 1 => affMap c0 e0 ((C0 i).lo 0) ((C0 i).hi 0)
        ((![affMap (Z.lo 1) (Z.hi 1) c0 e0 (x 1), s] : Fin 2 → K) 0)) =
        fun a => affMap (Z.lo 1) (Z.hi 1) ((C0 i).lo a) ((C0 i).hi a) (x 1) := by
      intro i
      rw [hsub]
      exact (affMap_comp (hZlt 1) hce0 _ _ _).symm
    have hcomp1 : ∀ i, (fun _ : Fin 1 => affMap c1 e1 ((C1 i).lo 0) ((C1 i).hi 0)
        ((![affMap (Z.lo 0) (Z.hi 0) c1 e1 (x 0), t] : Fin 2 → K) 0)) =
        fun a => affMap (Z.lo 0) (Z.hi 0) ((C1 i).lo a) ((C1 i).hi a) (x 0) := by
      intro i
      rw [hsub]
      exact (affMap_comp (hZlt 0) hce1 _ _ _).symm
    rw [hcomp0, hcomp0, hcomp1, hcomp1]
    rfl

/-- what `coons([[C00, C01], [C10, C11]])` asks of its curves: each pair can be made compatible on the hull of
the two domains -/
structure CoonsCurves (eps : K) (C0 C1 : Fin 2 → Nrb K 1) : Prop where
  valid0 : ∀ i, (C0 i).Valid
  valid1 : ∀ i, (C1 i).Valid
  pair0 : Compatible eps C0 0 (min ((C0 0).lo 0) ((C0 1).lo 0)) (max ((C0 0).hi 0) ((C0 1).hi 0))
  pair1 : Compatible eps C1 0 (min ((C1 0).lo 0) ((C1 1).lo 0)) (max ((C1 0).hi 0) ((C1 1).hi 0))

/-- distance, in coordinate `k`, between the end `i` of curve `C1 j` and the end `j` of curve `C0 i` -/
def cornerGap (C0 C1 : Fin 2 → Nrb K 1) (i j : Fin 2) (k : ℕ) : K :=
  |(C1 j).proj ((C1 j).endParam i) k - (C0 i).proj ((C0 i).endParam j) k|

/-- the parameters of a surface on side `i` of axis `a`, at the parameter `v` of the other axis -/
def Nrb.sideParam (R : Nrb K 2) (a i : Fin 2) (v : K) : Fin 2 → K :=
  fun b => if b = a then (if i = 0 then R.lo a else R.hi a) else v

/-- `u` is the parameter of the curve `C` corresponding to the parameter `v` of axis `b` of the surface `R` -/
def Nrb.along (R : Nrb K 2) (b : Fin 2) (C : Nrb K 1) (v : K) : Fin 1 → K :=
  fun a => affMap (R.lo b) (R.hi b) (C.lo a) (C.hi a) v

theorem endCoord_eval {C : Nrb K 1} {i : Fin 2} (h : C.eval (C.endParam i) 3 = 1) {k : ℕ} :
    C.endCoord i k = C.eval (C.endParam i) k := by
  unfold Nrb.endCoord Nrb.proj
  split_ifs with hk
  · rw [hk, h]
  · rw [h, div_one]

/-- C37: when the curves have weight one at the corners, the patch restricted to the sides of its first
parameter is the first pair of curves, exactly; restricted to the sides of its second parameter it is the
second pair up to the error in the corners, and exactly if the corners match exactly.  (Homogeneous coordinates.)
Missing: curves that cannot be made compatible. -/
theorem C37_coons_partial {eps : K} (heps : 0 < eps) (M : Cad.CoonsMem K) {C0 C1 : Fin 2 → Nrb K 1}
    (hC : CoonsCurves eps C0 C1) (hgap : ∀ i j : Fin 2, ∀ k < 3, cornerGap C0 C1 i j k ≤ 1 / 10 ^ 15)
    (hw0 : ∀ i j, (C0 i).eval ((C0 i).endParam j) 3 = 1) (hw1 : ∀ i j, (C1 i).eval ((C1 i).endParam j) 3 = 1) :
    ∃ R, Cad.coons eps M (C0 0) (C0 1) (C1 0) (C1 1) = .ok R ∧ R.Valid ∧
      (∀ i v, R.lo 1 ≤ v → v ≤ R.hi 1 → ∀ k < 4,
        R.eval (R.sideParam 0 i v) k = (C0 i).eval (R.along 1 (C0 i) v) k) ∧
      ∀ j v, R.lo 0 ≤ v → v ≤ R.hi 0 →
        R.eval (R.sideParam 1 j v) 3 = (C1 j).eval (R.along 0 (C1 j) v) 3 ∧
        ∀ k < 3, |R.eval (R.sideParam 1 j v) k - (C1 j).eval (R.along 0 (C1 j) v) k| ≤
          max (cornerGap C0 C1 0 j k) (cornerGap C0 C1 1 j k) := by
  obtain ⟨R, hok, hv, _, _, _, _, _, hR⟩ := coons_formula heps M hC.valid0 hC.valid1 rfl rfl rfl rfl hC.pair0 hC.pair1 hgap
  have hlt := Nrb.lo_lt_hi hv
  have hdom : ∀ a b, b ≠ a → ∀ i v, R.lo b ≤ v → v ≤ R.hi b → R.InDom (R.sideParam a i v) := by
    intro a b hab i v h1 h2 x
    unfold Nrb.sideParam
    split_ifs with h3 h4
    · subst h3; exact ⟨le_rfl, (hlt _).le⟩
    · subst h3; exact ⟨(hlt _).le, le_rfl⟩
    · have : x = b := (by decide : ∀ a b x : Fin 2, b ≠ a → ¬ x = a → x = b) a b x hab h3
      subst this
      exact ⟨h1, h2⟩
  have hend : ∀ (C : Nrb K 1) (b : Fin 2),
      C.eval (fun a => affMap (R.lo b) (R.hi b) (C.lo a) (C.hi a) (R.lo b)) = C.eval (C.endParam 0) ∧
      C.eval (fun a => affMap (R.lo b) (R.hi b) (C.lo a) (C.hi a) (R.hi b)) = C.eval (C.endParam 1) := by
    intro C b
    constructor
    all_goals
      congr 1
      funext a
      have ha : a = 0 := Subsingleton.elim (α := Fin 1) _ _
      subst ha
    · exact affMap_left (hlt b) _ _
    · exact affMap_right (hlt b) _ _
  refine ⟨R, hok, hv, fun i v h1 h2 k hk => ?_, fun j v h1 h2 => ?_⟩
  · have h := hR _ (hdom 0 1 (by decide) i v h1 h2) _ _ rfl rfl k hk
    have e1 : R.sideParam 0 i v 1 = v := rfl
    rw [e1] at h
    fin_cases i
    · have e0 : R.sideParam 0 ((fun i => i) ⟨0, by decide⟩) v 0 = R.lo 0 := rfl
      rw [e0, affMap_left (hlt 0), (hend _ _).1, (hend _ _).1, endCoord_eval (hw1 0 0), endCoord_eval (hw1 1 0)] at h
      rw [h]
      show _ = (C0 0).eval (R.along 1 (C0 0) v) k
      unfold Nrb.along
      ring
    · have e0 : R.sideParam 0 ((fun i => i) ⟨1, by decide⟩) v 0 = R.hi 0 := rfl
      rw [e0, affMap_right (hlt 0), (hend _ _).2, (hend _ _).2, endCoord_eval (hw1 0 1), endCoord_eval (hw1 1 1)] at h
      rw [h]
      show _ = (C0 1).eval (R.along 1 (C0 1) v) k
      unfold Nrb.along
      ring
  · have e0 : R.sideParam 1 j v 0 = v := rfl
    have hs := affMap_mem (hlt 0) (one_pos (α := K)) h1 h2
    have key : ∀ k < 4, ∃ s : K, 0 ≤ s ∧ s ≤ 1 ∧
        R.eval (R.sideParam 1 j v) k - (C1 j).eval (R.along 0 (C1 j) v) k =
          (1 - s) * ((C0 0).eval ((C0 0).endParam j) k - (C1 j).eval ((C1 j).endParam 0) k) +
          s * ((C0 1).eval ((C0 1).endParam j) k - (C1 j).eval ((C1 j).endParam 1) k) := by
      intro k hk
      refine ⟨affMap (R.lo 0) (R.hi 0) 0 1 v, hs.1, hs.2, ?_⟩
      have h := hR _ (hdom 1 0 (by decide) j v h1 h2) _ _ rfl rfl k hk
      rw [e0] at h
      fin_cases j
      · have e1 : R.sideParam 1 ((fun i => i) ⟨0, by decide⟩) v 1 = R.lo 1 := rfl
        rw [e1, affMap_left (hlt 1), (hend _ _).1, (hend _ _).1, endCoord_eval (hw1 0 0), endCoord_eval (hw1 0 1)] at h
        rw [h]
        show _ - (C1 0).eval (R.along 0 (C1 0) v) k = _ * ((C0 0).eval ((C0 0).endParam 0) k - (C1 0).eval ((C1 0).endParam 0) k) +
          _ * ((C0 1).eval ((C0 1).endParam 0) k - (C1 0).eval ((C1 0).endParam 1) k)
        unfold Nrb.along
        ring
      · have e1 : R.sideParam 1 ((fun i => i) ⟨1, by decide⟩) v 1 = R.hi 1 := rfl
        rw [e1, affMap_right (hlt 1), (hend _ _).2, (hend _ _).2, endCoord_eval (hw1 1 0), endCoord_eval (hw1 1 1)] at h
        rw [h]
        show _ - (C1 1).eval (R.along 0 (C1 1) v) k = _ * ((C0 0).eval ((C0 0).endParam 1) k - (C1 1).eval ((C1 1).endParam 0) k) +
          _ * ((C0 1).eval ((C0 1).endParam 1) k - (C1 1).eval ((C1 1).endParam 1) k)
        unfold Nrb.along
        ring
    refine ⟨?_, fun k hk => ?_⟩
    · obtain ⟨s, _, _, h⟩ := key 3 (by norm_num)
      rw [hw0, hw0, hw1, hw1] at h
      linear_combination h
    · obtain ⟨s, s0, s1, h⟩ := key k (by omega)
      rw [h]
      have hg : ∀ i, |(C0 i).eval ((C0 i).endParam j) k - (C1 j).eval ((C1 j).endParam i) k| = cornerGap C0 C1 i j k := by
        intro i
        unfold cornerGap Nrb.proj
        rw [hw0, hw1, div_one, div_one, abs_sub_comm]
      calc _ ≤ |(1 - s) * ((C0 0).eval ((C0 0).endParam j) k - (C1 j).eval ((C1 j).endParam 0) k)| +
            |s * ((C0 1).eval ((C0 1).endParam j) k - (C1 j).eval ((C1 j).endParam 1) k)| := abs_add_le _ _
        _ = (1 - s) * cornerGap C0 C1 0 j k + s * cornerGap C0 C1 1 j k := by
          rw [abs_mul, abs_mul, hg, hg, abs_of_nonneg s0, abs_of_nonneg (sub_nonneg.mpr s1)]
        _ ≤ _ := by
          have m0 := le_max_left (cornerGap C0 C1 0 j k) (cornerGap C0 C1 1 j k)
          have m1 := le_max_right (cornerGap C0 C1 0 j k) (cornerGap C0 C1 1 j k)
          have := mul_le_mul_of_nonneg_left m0 (sub_nonneg.mpr s1)
          have := mul_le_mul_of_nonneg_left m1 s0
          linarith

/-- C37: curves whose ends are further apart than `1e-15` in some coordinate are rejected -/
theorem C37_rejects {eps : K} (heps : 0 < eps) (M : Cad.CoonsMem K) {C0 C1 : Fin 2 → Nrb K 1}
    (hC : CoonsCurves eps C0 C1) {i j : Fin 2} {k : ℕ} (hk : k < 3) (hgap : 1 / 10 ^ 15 < cornerGap C0 C1 i j k) :
    Cad.coons eps M (C0 0) (C0 1) (C1 0) (C1 1) = .error .assertion := by
  have hvec0 : ![C0 0, C0 1] = C0 := by funext i; fin_cases i <;> rfl
  have hvec1 : ![C1 0, C1 1] = C1 := by funext i; fin_cases i <;> rfl
  obtain ⟨A, SA, hA, hvA, haffA, hloA, hhiA, -⟩ :=
    pair_ok heps (M.pair 0 0) (M.pair 0 1) (M.pair 2 0) (M.pair 2 1) hC.valid0 rfl rfl hC.pair0
  obtain ⟨B, SB, hB, hvB, haffB, hloB, hhiB, -⟩ :=
    pair_ok heps (M.pair 1 0) (M.pair 1 1) (M.pair 3 0) (M.pair 3 1) hC.valid1 rfl rfl hC.pair1
  obtain ⟨P, hP, hPe⟩ := endPoints_ok M.k M.e hvB ((hloB 1).trans (hloB 0).symm) ((hhiB 1).trans (hhiB 0).symm)
  obtain ⟨Q, hQ, hQe⟩ := endPoints_ok M.k M.e hvA ((hloA 1).trans (hloA 0).symm) ((hhiA 1).trans (hhiA 0).symm)
  unfold Cad.coons
  rw [hvec0, hA, res_ok_bind, hvec1, hB, res_ok_bind, hP, res_ok_bind, hQ, res_ok_bind, pyAssert_err]
  · rfl
  · intro h
    have h := h i j ⟨k, hk⟩
    rw [hPe, hQe] at h
    unfold cornerGap at hgap
    unfold Nrb.proj at h hgap
    rw [affine_end (hC.valid1 j) (hvB j) (haffB j), affine_end (hC.valid0 i) (hvA i) (haffA i)] at h
    exact absurd hgap (not_lt.mpr h)

/-! ## examples -/

namespace Ex

/-- a curve from (0,0) to (0,1), bulging to the right; all weights are `w` -/
def bulge (w : ℚ) : Nrb ℚ 1 where
  shape := ![3]
  nc := 4
  len := ![6]
  U := ![vec [0, 0, 0, 1, 1, 1]]
  P := fun idx c => if c = 0 then (if idx 0 = 1 then w else 0) else if c = 1 then w * idx 0 / 2 else if c = 3 then w else 0

/-- the segment from (x0,y0) to (x1,y1), on `[a,b]`; all weights are `w` -/
def segment (w a b x0 y0 x1 y1 : ℚ) : Nrb ℚ 1 where
  shape := ![2]
  nc := 4
  len := ![4]
  U := ![vec [a, a, b, b]]
  P := fun idx c => if c = 0 then (if idx 0 = 0 then w * x0 else w * x1) else
    if c = 1 then (if idx 0 = 0 then w * y0 else w * y1) else if c = 3 then w else 0

/-- left and right side -/
def bd0 (w : ℚ) : Fin 2 → Nrb ℚ 1 := ![bulge w, segment w 0 1 1 0 1 1]
/-- lower and upper side -/
def bd1 (w y : ℚ) : Fin 2 → Nrb ℚ 1 := ![segment w 0 2 0 y 1 0, segment w 1 2 0 1 1 1]

/-- what is checked of concrete clamped curves -/
theorem compatible_of {C : Fin 2 → Nrb ℚ 1} {c e : ℚ}
    (hl : ∀ i, ∀ k ∈ Finset.Icc 0 ((C i).degree 0), (C i).U 0 k = (C i).U 0 ((C i).degree 0))
    (hr : ∀ i, ∀ k ∈ Finset.Icc ((C i).n 0 + 1) ((C i).n 0 + (C i).degree 0 + 1), (C i).U 0 k = (C i).U 0 ((C i).n 0 + 1))
    (hin : ∀ i, ∀ k ∈ Finset.Ico 0 ((C i).len 0), (C i).U 0 k = (C i).lo 0 ∨ (C i).U 0 k = (C i).hi 0)
    (h9 : ∀ i, 0 ≤ (C i).degree 0 ∧ (C i).degree 0 ≤ 9)
    (hs : ∀ i j, ∀ k ∈ Finset.Ico 0 ((C i).len 0), ∀ l ∈ Finset.Ico 0 ((C j).len 0),
        affMap ((C i).lo 0) ((C i).hi 0) c e ((C i).U 0 k) = affMap ((C j).lo 0) ((C j).hi 0) c e ((C j).U 0 l) ∨
        1 / 1000 < |affMap ((C i).lo 0) ((C i).hi 0) c e ((C i).U 0 k) -
          affMap ((C j).lo 0) ((C j).hi 0) c e ((C j).U 0 l)|) :
    Compatible (1 / 1000) C 0 c e := by
  refine ⟨fun i k h1 h2 => hl i k (Finset.mem_Icc.mpr ⟨h1, h2⟩), fun i k h1 h2 => hr i k (Finset.mem_Icc.mpr ⟨h1, h2⟩),
    fun i x h1 h2 => ?_, fun i j k l h1 h2 h3 h4 => hs i j k (Finset.mem_Ico.mpr ⟨h1, h2⟩) l (Finset.mem_Ico.mpr ⟨h3, h4⟩),
    fun i j _ _ => Or.inl (h9 i).2⟩
  have : (C i).multOf 0 x = 0 := by
    by_contra hne
    obtain ⟨k, k0, k1, k2⟩ := Ax.mult_pos (A := (C i).axis 0) |>.mp (Nat.pos_of_ne_zero hne)
    rw [← Nrb.lo_eq] at h1
    rw [← Nrb.hi_eq] at h2
    rcases hin i k (Finset.mem_Ico.mpr ⟨k0, k1⟩) with h | h
    · rw [axis_U, h] at k2; exact absurd k2 h1.ne
    · rw [axis_U, h] at k2; exact absurd k2 h2.ne'
  rw [Nrb.multOf_eq] at this
  rw [this]
  exact_mod_cast (h9 i).1

theorem valid_of {N : Nrb ℚ 1} (h1 : 1 ≤ N.degree 0) (h2 : N.degree 0 ≤ N.n 0)
    (h3 : ∀ k ∈ Finset.Ico 0 (N.n 0 + N.degree 0 + 1), N.U 0 k ≤ N.U 0 (k + 1))
    (h4 : N.U 0 (N.degree 0) < N.U 0 (N.degree 0 + 1)) (h5 : N.U 0 (N.n 0) < N.U 0 (N.n 0 + 1)) : N.Valid := by
  intro a
  have ha : a = 0 := Subsingleton.elim (α := Fin 1) _ _
  subst ha
  exact ⟨h1, h2, sortedOn_of_steps fun i i0 i1 => h3 i (Finset.mem_Ico.mpr ⟨i0, i1⟩), h4, h5⟩

theorem bd_curves1 : CoonsCurves (1 / 1000) (bd0 1) (bd1 1 0) := by
  refine ⟨fun i => ?_, fun i => ?_, ?_, ?_⟩
  · apply valid_of <;> revert i <;> decide +kernel
  · apply valid_of <;> revert i <;> decide +kernel
  · apply compatible_of <;> decide +kernel
  · apply compatible_of <;> decide +kernel

theorem bd_curves2 : CoonsCurves (1 / 1000) (bd0 2) (bd1 2 0) := by
  refine ⟨fun i => ?_, fun i => ?_, ?_, ?_⟩
  · apply valid_of <;> revert i <;> decide +kernel
  · apply valid_of <;> revert i <;> decide +kernel
  · apply compatible_of <;> decide +kernel
  · apply compatible_of <;> decide +kernel

theorem bd_curves3 : CoonsCurves (1 / 1000) (bd0 1) (bd1 1 1) := by
  refine ⟨fun i => ?_, fun i => ?_, ?_, ?_⟩
  · apply valid_of <;> revert i <;> decide +kernel
  · apply valid_of <;> revert i <;> decide +kernel
  · apply compatible_of <;> decide +kernel
  · apply compatible_of <;> decide +kernel

theorem bd_gap1 : ∀ i j : Fin 2, ∀ k < 3, cornerGap (bd0 1) (bd1 1 0) i j k = 0 := by decide +kernel

theorem bd_gap2 : ∀ i j : Fin 2, ∀ k < 3, cornerGap (bd0 2) (bd1 2 0) i j k = 0 := by decide +kernel

example (M : Cad.CoonsMem ℚ) := C37_coons_partial (by norm_num) M bd_curves1
  (fun i j k hk => by rw [bd_gap1 i j k hk]; norm_num) (by decide +kernel) (by decide +kernel)

example (M : Cad.CoonsMem ℚ) := C37_rejects (by norm_num) M bd_curves3 (i := 0) (j := 0) (k := 1) (by norm_num)
  (by decide +kernel)

end Ex

/-- C37 fails for corner weights other than one: the curves meet exactly at the corners, but at parameter
`(0, 1/2)` the patch has a point different from the point of the left curve -/
theorem C37_corner_weights (M : Cad.CoonsMem ℚ) :
    CoonsCurves (1 / 1000) (Ex.bd0 2) (Ex.bd1 2 0) ∧
    (∀ i j : Fin 2, ∀ k < 3, cornerGap (Ex.bd0 2) (Ex.bd1 2 0) i j k = 0) ∧
    (∀ i, ∀ k ∈ Finset.Icc 0 ((Ex.bd0 2 i).n 0), (Ex.bd0 2 i).P (fun _ => k) 3 = 2) ∧
    (∀ i, ∀ k ∈ Finset.Icc 0 ((Ex.bd1 2 0 i).n 0), (Ex.bd1 2 0 i).P (fun _ => k) 3 = 2) ∧
    ∃ R, Cad.coons (1 / 1000) M (Ex.bd0 2 0) (Ex.bd0 2 1) (Ex.bd1 2 0 0) (Ex.bd1 2 0 1) = .ok R ∧
      R.lo 1 ≤ 1 / 2 ∧ 1 / 2 ≤ R.hi 1 ∧
      R.point (R.sideParam 0 0 (1 / 2)) 0 ≠ (Ex.bd0 2 0).point (R.along 1 (Ex.bd0 2 0) (1 / 2)) 0 := by
  refine ⟨Ex.bd_curves2, Ex.bd_gap2, by decide +kernel, by decide +kernel, ?_⟩
  · obtain ⟨R, hok, hv, _, l0, h0, l1, h1, hR⟩ := coons_formula (by norm_num) M Ex.bd_curves2.valid0 Ex.bd_curves2.valid1
      rfl rfl rfl rfl Ex.bd_curves2.pair0 Ex.bd_curves2.pair1 (fun i j k hk => by
        exact (Ex.bd_gap2 i j k hk).le.trans (by norm_num))
    have l0 : R.lo 0 = 0 := l0.trans (by decide +kernel)
    have l1 : R.lo 1 = 0 := l1.trans (by decide +kernel)
    have h0 : R.hi 0 = 2 := h0.trans (by decide +kernel)
    have h1 : R.hi 1 = 1 := h1.trans (by decide +kernel)
    refine ⟨R, hok, by rw [l1]; norm_num, by rw [h1]; norm_num, ?_⟩
    have h := hR (R.sideParam 0 0 (1 / 2)) (fun a => by
      fin_cases a
      · change R.lo 0 ≤ R.lo 0 ∧ R.lo 0 ≤ R.hi 0
        rw [l0, h0]; norm_num
      · change R.lo 1 ≤ 1 / 2 ∧ 1 / 2 ≤ R.hi 1
        rw [l1, h1]; norm_num) _ _ rfl rfl
    have e0 : R.sideParam 0 0 (1 / 2) 0 = 0 := l0
    have e1 : R.sideParam 0 0 (1 / 2) 1 = 1 / 2 := rfl
    rw [e0, e1, l0, l1, h0, h1] at h
    unfold Nrb.point Nrb.proj Nrb.along
    rw [h _ (by norm_num), h _ (by norm_num), l1, h1]
    decide +kernel

end Igakit
