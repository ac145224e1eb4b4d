import Verif.Props.Compat
import Verif.Props.Cad

/-! # C35: ruled surfaces and volumes -/

set_option linter.unusedSectionVars false

namespace Igakit
open Spec

variable {K : Type} [Field K] [LinearOrder K] [IsStrictOrderedRing K] {d : ℕ}

/-- the objects have the same axes -/
structure Nrb.SameAxes (N N' : Nrb K d) : Prop where
  shape : ∀ a, N'.shape a = N.shape a
  len : ∀ a, N'.len a = N.len a
  knots : ∀ a j, 0 ≤ j → j < N.len a → N'.U a j = N.U a j

theorem tensor_sameAxes {N N' : Nrb K d} (hv : N.Valid) (h : N.SameAxes N') (x : Fin d → K) :
    tensor N.n (fun a => (N.degree a).toNat) N.U N'.P x = N'.eval x := by
  have h1 : N'.n = N.n := by funext a; unfold Nrb.n; rw [h.shape]
  have h2 : N'.degree = N.degree := by funext a; unfold Nrb.degree; rw [h.shape, h.len]
  unfold Nrb.eval
  rw [h1, h2]
  refine tensor_congr (fun a j h0 hj => ?_) (fun _ _ => rfl) x
  have hl : N.len a = N.n a + N.degree a + 2 := (N.axis a).len_eq
  have := (hv a).one_le
  exact (h.knots a j h0 (by omega)).symm

theorem isLeast_two {α : Type} [LinearOrder α] (f : Fin 2 → α) : IsLeast (Set.range f) (min (f 0) (f 1)) := by
  refine ⟨?_, ?_⟩
  · rcases min_choice (f 0) (f 1) with h | h
    · exact ⟨0, h.symm⟩
    · exact ⟨1, h.symm⟩
  · rintro _ ⟨i, rfl⟩
    fin_cases i
    · exact min_le_left _ _
    · exact min_le_right _ _

theorem isGreatest_two {α : Type} [LinearOrder α] (f : Fin 2 → α) : IsGreatest (Set.range f) (max (f 0) (f 1)) :=
  isLeast_two (α := αᵒᵈ) f

/-- the object built by `ruled` -/
theorem ruled_ok {eps : K} (heps : 0 < eps) (M1 M2 : Fin 2 → Fin (d + 1) → Mem K d) (hd : d + 1 ≤ 2)
    {N1 N2 : Nrb K (d + 1)} (hv1 : N1.Valid) (hv2 : N2.Valid) {c e : Fin (d + 1) → K}
    (hc : ∀ a, c a = min (N1.lo a) (N2.lo a)) (he : ∀ a, e a = max (N1.hi a) (N2.hi a))
    (hcomp : ∀ a, Compatible eps ![N1, N2] a (c a) (e a)) :
    ∃ R : Fin 2 → Nrb K (d + 1), (∀ i, (R i).Valid) ∧ (∀ a, Merged ![N1, N2] R a (c a) (e a)) ∧
      N1.AffineOf (R 0) ∧ N2.AffineOf (R 1) ∧
      Cad.ruled eps M1 M2 N1 N2 = .ok ((R 0).stack 2 4 uk
        (fun idx j c => if j = 0 then (R 0).P idx c else (R 1).P idx c)) := by
  obtain ⟨R, hR, hvR, haff, hmer, _⟩ := C39_compat_partial heps M1 M2 (N := ![N1, N2]) le_rfl
    (fun i => by fin_cases i; exacts [hv1, hv2]) (axes := none) (A := List.finRange (d + 1)) rfl
    (List.nodup_finRange _) (c := c) (e := e) (fun a => by rw [hc]; exact isLeast_two _)
    (fun a => by rw [he]; exact isGreatest_two _) (fun a _ => hcomp a)
  refine ⟨R, hvR, fun a => hmer a (List.mem_finRange a), haff 0, haff 1, ?_⟩
  unfold Cad.ruled
  rw [pyAssert_ok hd, res_ok_bind, hR, res_ok_bind]
  exact ctor_netWith (R 0) hd (valid_len (hvR 0)) (fun a => (hvR 0 a).one_le) rfl (fun _ => rfl) (by norm_num)
    (by norm_num) _

theorem ruled_eval {N1 N2 : Nrb K d} {R : Fin 2 → Nrb K d} (hvR : ∀ i, (R i).Valid)
    {c e : Fin d → K} (hmer : ∀ a, Merged ![N1, N2] R a (c a) (e a)) (h0 : N1.AffineOf (R 0))
    (h1 : N2.AffineOf (R 1)) {x : Fin (d + 1) → K} (hx : ((R 0).stack 2 4 uk
      (fun idx j c => if j = 0 then (R 0).P idx c else (R 1).P idx c)).InDom x) :
    ((R 0).stack 2 4 uk (fun idx j c => if j = 0 then (R 0).P idx c else (R 1).P idx c)).eval x =
      (1 - x (Fin.last d)) • N1.eval (fun a => affMap (c a) (e a) (N1.lo a) (N1.hi a) (x a.castSucc)) +
      x (Fin.last d) • N2.eval (fun a => affMap (c a) (e a) (N2.lo a) (N2.hi a) (x a.castSucc)) := by
  have hsame : (R 0).SameAxes (R 1) :=
    ⟨fun a => (hmer a).shape 1 0, fun a => (hmer a).len 1 0, fun a j h0 h1 => ((hmer a).knots 0 1 j h0 h1).symm⟩
  obtain ⟨hin, hx0, hx1⟩ := stack_inDom hx
  have hin1 : (R 1).InDom (Fin.init x) := by
    intro a
    have := hin a
    rwa [(hmer a).lo 0, (hmer a).hi 0, ← (hmer a).lo 1, ← (hmer a).hi 1] at this
  rw [stack_uk_eval (R 0) (R 0).P (R 1).P (x := x) hx0 hx1, tensor_sameAxes (hvR 0) hsame, ← Nrb.eval,
    h0.eval _ hin, h1.eval _ hin1]
  simp only [(hmer _).lo, (hmer _).hi]
  rfl

/-- C35: `ruled(n1, n2)` is the linear interpolation, in homogeneous coordinates, between the two objects, each
at the parameter of its own domain that corresponds affinely to the parameter of the result. -/
theorem C35_ruled_partial {eps : K} (heps : 0 < eps) (M1 M2 : Fin 2 → Fin (d + 1) → Mem K d) (hd : d + 1 ≤ 2)
    {N1 N2 : Nrb K (d + 1)} (hv1 : N1.Valid) (hv2 : N2.Valid) {c e : Fin (d + 1) → K}
    (hc : ∀ a, c a = min (N1.lo a) (N2.lo a)) (he : ∀ a, e a = max (N1.hi a) (N2.hi a))
    (hcomp : ∀ a, Compatible eps ![N1, N2] a (c a) (e a)) :
    ∃ R, Cad.ruled eps M1 M2 N1 N2 = .ok R ∧ R.Valid ∧
      R.lo (Fin.last (d + 1)) = 0 ∧ R.hi (Fin.last (d + 1)) = 1 ∧ R.degree (Fin.last (d + 1)) = 1 ∧
      (∀ a : Fin (d + 1), R.lo a.castSucc = c a ∧ R.hi a.castSucc = e a ∧
        R.degree a.castSucc = max (N1.degree a) (N2.degree a)) ∧
      ∀ x, R.InDom x → ∀ k < 4, R.eval x k =
        (1 - x (Fin.last (d + 1))) *
          N1.eval (fun a => affMap (c a) (e a) (N1.lo a) (N1.hi a) (x a.castSucc)) k +
        x (Fin.last (d + 1)) *
          N2.eval (fun a => affMap (c a) (e a) (N2.lo a) (N2.hi a) (x a.castSucc)) k := by
  obtain ⟨R, hvR, hmer, haff0, haff1, hok⟩ := ruled_ok heps M1 M2 hd hv1 hv2 hc he hcomp
  refine ⟨_, hok, (stack_extends (m := 2) (l := 4) (V := uk) (hvR 0) (fun idx j c =>
    if j = 0 then (R 0).P idx c else (R 1).P idx c) (by exact uk_valid)).valid, ?_, ?_, ?_, ?_, ?_⟩
  · rw [Nrb.stack_lo_last]; rfl
  · rw [Nrb.stack_hi_last]; rfl
  · rw [Nrb.stack_degree_last]; rfl
  · intro a
    refine ⟨?_, ?_, ?_⟩
    · rw [Nrb.stack_lo_cast]; exact (hmer a).lo 0
    · rw [Nrb.stack_hi_cast]; exact (hmer a).hi 0
    · rw [Nrb.stack_degree_cast]
      exact ((hmer a).degree 0).unique (isGreatest_two _)
  · intro x hx k _
    rw [ruled_eval hvR hmer haff0 haff1 hx]
    rfl

/-- C35: on the two sides `v = 0` and `v = 1` of `ruled(n1, n2)` are the points of the two objects -/
theorem C35_ruled_sides_partial {eps : K} (heps : 0 < eps) (M1 M2 : Fin 2 → Fin (d + 1) → Mem K d) (hd : d + 1 ≤ 2)
    {N1 N2 : Nrb K (d + 1)} (hv1 : N1.Valid) (hv2 : N2.Valid) {c e : Fin (d + 1) → K}
    (hc : ∀ a, c a = min (N1.lo a) (N2.lo a)) (he : ∀ a, e a = max (N1.hi a) (N2.hi a))
    (hcomp : ∀ a, Compatible eps ![N1, N2] a (c a) (e a)) :
    ∃ R, Cad.ruled eps M1 M2 N1 N2 = .ok R ∧ ∀ x : Fin (d + 2) → K, R.InDom x →
      (x (Fin.last (d + 1)) = 0 →
        R.point x = N1.point (fun a => affMap (c a) (e a) (N1.lo a) (N1.hi a) (x a.castSucc))) ∧
      (x (Fin.last (d + 1)) = 1 →
        R.point x = N2.point (fun a => affMap (c a) (e a) (N2.lo a) (N2.hi a) (x a.castSucc))) := by
  obtain ⟨R, h1, _, _, _, _, _, h2⟩ := C35_ruled_partial heps M1 M2 hd hv1 hv2 hc he hcomp
  refine ⟨R, h1, fun x hx => ⟨fun h => ?_, fun h => ?_⟩⟩
  · funext k
    unfold Nrb.point Nrb.proj
    rw [h2 x hx k (by omega), h2 x hx 3 (by omega), h]
    ring
  · funext k
    unfold Nrb.point Nrb.proj
    rw [h2 x hx k (by omega), h2 x hx 3 (by omega), h]
    ring

/-! ## examples -/

namespace Ex

/-- a rational curve of degree 2 on `[0, 3]` -/
def K1 : Nrb ℚ 1 where
  shape := ![6]
  nc := 4
  len := ![9]
  U := ![U]
  P := fun idx c => if c = 3 then 1 + idx 0 else idx 0 * idx 0 + c

/-- a curve of degree 1 on `[1, 2]` -/
def K2 : Nrb ℚ 1 where
  shape := ![3]
  nc := 4
  len := ![5]
  U := ![vec [1, 1, 3 / 2, 2, 2]]
  P := fun idx c => if c = 3 then 1 else 5 - idx 0 + c

theorem K1_valid : K1.Valid := by
  intro a
  fin_cases a
  exact U_valid

theorem K2_valid : K2.Valid := by
  intro a
  fin_cases a
  refine ⟨by decide +kernel, by decide +kernel, sortedOn_of_steps ?_, by decide +kernel, by decide +kernel⟩
  intro i h1 h2
  have h2 : i < 4 := h2
  interval_cases i <;> decide +kernel

theorem K_compatible : Compatible (1 / 1000) ![K1, K2] 0 0 3 := by
  refine ⟨fun i => ?_, fun i => ?_, fun i => ?_, fun i j k l h1 h2 h3 h4 => ?_, fun i j _ h => ?_⟩
  · fin_cases i <;> exact clampedL_of_list (by decide +kernel)
  · fin_cases i <;> exact clampedR_of_list (by decide +kernel)
  · fin_cases i <;> exact multLe_of_list (by decide +kernel) (by decide +kernel)
  · have key : ∀ i j : Fin 2, ∀ k ∈ Finset.Ico 0 ((![K1, K2] i).len 0), ∀ l ∈ Finset.Ico 0 ((![K1, K2] j).len 0),
        affMap ((![K1, K2] i).lo 0) ((![K1, K2] i).hi 0) 0 3 ((![K1, K2] i).U 0 k) =
          affMap ((![K1, K2] j).lo 0) ((![K1, K2] j).hi 0) 0 3 ((![K1, K2] j).U 0 l) ∨
        1 / 1000 < |affMap ((![K1, K2] i).lo 0) ((![K1, K2] i).hi 0) 0 3 ((![K1, K2] i).U 0 k) -
          affMap ((![K1, K2] j).lo 0) ((![K1, K2] j).hi 0) 0 3 ((![K1, K2] j).U 0 l)| := by
      decide +kernel
    exact key i j k (Finset.mem_Ico.mpr ⟨h1, h2⟩) l (Finset.mem_Ico.mpr ⟨h3, h4⟩)
  · left
    fin_cases i <;> decide +kernel

example := C35_ruled_sides_partial (eps := 1 / 1000) (by norm_num) (fun _ _ => ⟨fun _ => 7, fun _ _ _ => 9, fun _ _ => 5⟩)
  (fun _ _ => ⟨fun _ => 8, fun _ _ _ => 10, fun _ _ => 11⟩) (d := 0) (by norm_num) K1_valid K2_valid
  (c := fun _ => 0) (e := fun _ => 3) (by decide +kernel) (by decide +kernel)
  (fun a => by fin_cases a; exact K_compatible)

example := C39_compat_partial (eps := 1 / 1000) (by norm_num) (fun _ _ => ⟨fun _ => 7, fun _ _ _ => 9, fun _ _ => 5⟩)
  (fun _ _ => ⟨fun _ => 8, fun _ _ _ => 10, fun _ _ => 11⟩) (N := ![K1, K2]) le_rfl
  (fun i => by fin_cases i; exacts [K1_valid, K2_valid]) (axes := some [-1]) (A := [0])
  (.cons (Or.inr rfl) .nil) (by decide) (c := fun _ => 0) (e := fun _ => 3)
  (fun a => by
    fin_cases a
    exact ⟨⟨0, by decide +kernel⟩, by rintro _ ⟨i, rfl⟩; fin_cases i <;> decide +kernel⟩)
  (fun a => by
    fin_cases a
    exact ⟨⟨0, by decide +kernel⟩, by rintro _ ⟨i, rfl⟩; fin_cases i <;> decide +kernel⟩)
  (fun a _ => by fin_cases a; exact K_compatible)

/-- unclamped segment on `[0, 1]` -/
def L1 : Nrb ℚ 1 where
  shape := ![2]
  nc := 4
  len := ![4]
  U := ![vec [-1, 0, 1, 2]]
  P := fun idx c => if c = 3 then 1 else idx 0

/-- clamped segment on `[0, 1]` -/
def L2 : Nrb ℚ 1 where
  shape := ![2]
  nc := 4
  len := ![4]
  U := ![vec [0, 0, 1, 1]]
  P := fun idx c => if c = 3 then 1 else idx 0 + 1

theorem L_valid : ∀ i, (![L1, L2] i).Valid := by
  intro i a
  fin_cases a
  fin_cases i
  all_goals
    refine ⟨by decide +kernel, by decide +kernel, sortedOn_of_steps ?_, by decide +kernel, by decide +kernel⟩
    intro i h1 h2
    have h2 : i < 3 := h2
    interval_cases i <;> decide +kernel

end Ex

/-- C39 fails without clamping: knots outside of the domain are not merged -/
theorem C39_unclamped (M1 M2 : Fin 2 → Fin 1 → Mem ℚ 0) :
    (∀ i, (![Ex.L1, Ex.L2] i).Valid) ∧
    ∃ R, Cad.compat (1 / 1000) M1 M2 ![Ex.L1, Ex.L2] none = .ok R ∧ (R 0).U 0 0 ≠ (R 1).U 0 0 := by
  refine ⟨Ex.L_valid, ![Ex.L1, Ex.L2], ?_, by decide +kernel⟩
  unfold Cad.compat
  rw [if_neg (by norm_num)]
  show (do
    let N1 ← Cad.sameBounds ![Ex.L1, Ex.L2] [0]
    let N2 ← Cad.sameDegree (1 / 1000) M1 N1 [0]
    Cad.mergeKnots (1 / 1000) M2 N2 [0]) = _
  have h1 : Cad.sameBounds ![Ex.L1, Ex.L2] [0] = .ok ![Ex.L1, Ex.L2] := by
    unfold Cad.sameBounds
    apply seqFin_ok
    intro i
    have hm : ∀ (X : Nrb ℚ 1) (s t : ℚ), s = X.lo 0 → t = X.hi 0 → X.remap ((0 : Fin 1) : ℤ) (some s) (some t) = .ok X := by
      intro X s t hs ht
      unfold Nrb.remap
      rw [normAxis_self, res_ok_bind]
      dsimp only [Option.getD]
      rw [if_pos ⟨hs.symm, ht.symm⟩]
      rfl
    rw [List.foldlM_cons, hm, res_ok_bind]
    · rfl
    · revert i; decide +kernel
    · revert i; decide +kernel
  have h2 : Cad.sameDegree (1 / 1000) M1 ![Ex.L1, Ex.L2] [0] = .ok ![Ex.L1, Ex.L2] := by
    unfold Cad.sameDegree
    apply seqFin_ok
    intro i
    have : Cad.degMax ![Ex.L1, Ex.L2] 0 - (![Ex.L1, Ex.L2] i).degree 0 = 0 := by
      revert i; decide +kernel
    rw [List.foldlM_cons, this, (C16_elevate_trivial _ _ _ _ _ _).2.1, res_ok_bind]
    rfl
  rw [h1, res_ok_bind, h2, res_ok_bind]
  obtain ⟨bs, hb, hbs⟩ := innerBreaks_ok (eps := 1 / 1000) (by norm_num) (a := 0) Ex.L_valid (fun i => by
    fin_cases i
    · exact ⟨Ex.sepFrom_of_list (by decide +kernel) (by decide +kernel), Ex.sepFrom_of_list (by decide +kernel) (by decide +kernel)⟩
    · exact ⟨Ex.sepFrom_of_list (by decide +kernel) (by decide +kernel), Ex.sepFrom_of_list (by decide +kernel) (by decide +kernel)⟩)
  have hz : ∀ i x, Cad.multIn (bs i) x = 0 := by
    intro i x
    rw [hbs]
    split_ifs with h
    · rw [Nrb.multOf_eq, Int.natCast_eq_zero]
      by_contra hc
      obtain ⟨k, k1, k2, k3⟩ := (mult_pos_iff (Ex.L_valid i 0) (by rw [← Nrb.lo_eq]; exact h.1)
        (by rw [← Nrb.hi_eq]; exact h.2)).mp (Nat.pos_of_ne_zero hc)
      have : k = 1 ∨ k = 2 := by
        fin_cases i
        · change 1 ≤ k at k1; change k ≤ 2 at k2; omega
        · change 1 ≤ k at k1; change k ≤ 2 at k2; omega
      subst k3
      rcases this with rfl | rfl
      · exact absurd h.1 (by fin_cases i <;> decide +kernel)
      · exact absurd h.2 (by fin_cases i <;> decide +kernel)
    · rfl
  have hnil : ∀ i, Cad.mergeVals bs i = [] := by
    intro i
    rw [List.eq_nil_iff_forall_not_mem]
    intro x hx
    have h1 := List.count_pos_iff.mpr hx
    have h2 := mergeVals_count bs i x
    simp only [hz] at h2
    have h3 : (List.ofFn (fun _ : Fin 2 => (0 : ℤ))).foldl max 0 = 0 := by decide
    rw [h3] at h2
    omega
  unfold Cad.mergeKnots
  rw [mapM_res_ok (g := fun a => (a, Cad.mergeVals bs)) (by
    intro a ha
    rw [List.mem_singleton] at ha
    subst ha
    rw [hb, res_ok_bind, res_pure])]
  rw [res_ok_bind]
  apply seqFin_ok
  intro i
  rw [List.map_cons, List.map_nil, List.foldlM_cons]
  dsimp only
  rw [hnil]
  rfl

end Igakit
