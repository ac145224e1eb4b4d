import Verif.Spec.Curve
import Verif.Proofs.Eval
import Verif.Proofs.InsertCurve

/-! # Helper lemmas about `Spec.curve` and `Spec.knotMS` -/

set_option linter.unusedSectionVars false

namespace Igakit
open Spec

variable {K : Type*} [Field K] [LinearOrder K]
variable {E : Type*} [AddCommGroup E] [Module K E]

theorem knotMS_eq_kn (U : ℤ → K) (m : ℤ) : knotMS U m = kn U (-1) (m + 1).toNat := by
  rcases lt_or_ge m 0 with h | h
  · have e : (m + 1).toNat = 0 := by omega
    rw [e, kn_zero, knotMS, Finset.Icc_eq_empty (by omega)]; rfl
  · obtain ⟨d, rfl⟩ := Int.eq_ofNat_of_zero_le h
    have e : ((d : ℤ) + 1).toNat = d + 1 := by omega
    rw [e]
    clear h e
    induction d with
    | zero =>
      simp [knotMS, kn_succ_last]
    | succ d ih =>
      have e2 : Finset.Icc (0 : ℤ) ((d + 1 : ℕ) : ℤ) =
          insert ((d : ℤ) + 1) (Finset.Icc (0 : ℤ) d) := by
        ext x; simp only [Finset.mem_insert, Finset.mem_Icc]; push_cast; omega
      rw [kn_succ_last, ← ih, knotMS, e2, Finset.insert_val_of_notMem (by simp), Multiset.map_cons]
      congr 2
      push_cast; ring

theorem count_knotMS (U : ℤ → K) (m : ℤ) (x : K) : (knotMS U m).count x = mult U 0 m x := by
  rw [knotMS, Multiset.count_map, mult]
  rw [← Finset.filter_val, Finset.card_val]
  congr 1
  ext i
  simp [eq_comm]

variable [IsStrictOrderedRing K]

theorem curvePoint_eq_curve (jk : ℤ → K) {n : ℤ} {p : ℕ} {U : ℤ → K} (hv : ValidKnots n p U)
    {u : K} (h1 : U p ≤ u) (h2 : u ≤ U (n + 1)) (P : ℤ → E) :
    curvePoint jk n p U P u = curve n p U P u := by
  rw [curvePoint_eq_bsplineD jk hv h1 h2]; rfl

theorem coxDB_congr_knots {U U' : ℤ → K} {lo hi : ℤ} (hU : ∀ j, lo ≤ j → j ≤ hi → U' j = U j)
    (χ : ℤ → K) (x : K) : ∀ (q : ℕ) (i : ℤ), lo ≤ i → i + q + 1 ≤ hi →
      coxDB U' χ x q i = coxDB U χ x q i := by
  intro q
  induction q with
  | zero => intros; rfl
  | succ q ih =>
    intro i a b
    push_cast at b
    rw [coxDB, coxDB, ih i a (by omega), ih (i + 1) (by omega) (by omega),
      hU i (by omega) (by omega), hU (i + q + 1) (by omega) (by omega),
      hU (i + q + 2) (by omega) (by omega), hU (i + 1) (by omega) (by omega)]

theorem bsplineD_congr {n : ℤ} {p : ℕ} {U U' : ℤ → K}
    (hU : ∀ j, 0 ≤ j → j ≤ n + p + 1 → U' j = U j) {i : ℤ} (h1 : 0 ≤ i) (h2 : i ≤ n) (u : K) :
    bsplineD n U' p i u = bsplineD n U p i u := by
  have hc : ∀ j, i ≤ j → j ≤ i + p → U' j = U j ∧ U' (j + 1) = U (j + 1) := fun j x y =>
    ⟨hU _ (by omega) (by omega), hU _ (by omega) (by omega)⟩
  unfold bsplineD
  rw [hU (n + 1) (by omega) (by omega)]
  split_ifs
  · unfold bspline
    rw [coxDB_congr_knots hU _ _ p i h1 (by omega)]
    apply coxDB_congr_chi
    intro j x y
    rw [(hc j x y).1, (hc j x y).2]
  · unfold bsplineL
    rw [coxDB_congr_knots hU _ _ p i h1 (by omega)]
    apply coxDB_congr_chi
    intro j x y
    rw [(hc j x y).1, (hc j x y).2]

theorem curve_congr {n : ℤ} {p : ℕ} {U U' : ℤ → K} {P P' : ℤ → E}
    (hU : ∀ j, 0 ≤ j → j ≤ n + p + 1 → U' j = U j) (hP : ∀ j, 0 ≤ j → j ≤ n → P' j = P j) (u : K) :
    curve n p U' P' u = curve n p U P u := by
  unfold curve
  apply Finset.sum_congr rfl
  intro i hi
  have hi := Finset.mem_Icc.mp hi
  rw [bsplineD_congr hU hi.1 hi.2, hP i hi.1 hi.2]

theorem validKnots_congr {n : ℤ} {p : ℤ} {U U' : ℤ → K} (hv : ValidKnots n p U)
    (hU : ∀ j, 0 ≤ j → j ≤ n + p + 1 → U' j = U j) : ValidKnots n p U' := by
  have hp := hv.one_le
  have hle := hv.le
  refine ⟨hp, hle, fun i j a b c => ?_, ?_, ?_⟩
  · rw [hU i a (by omega), hU j (by omega) c]; exact hv.sorted i j a b c
  · rw [hU _ (by omega) (by omega), hU _ (by omega) (by omega)]; exact hv.first
  · rw [hU _ (by omega) (by omega), hU _ (by omega) (by omega)]; exact hv.last

theorem knotMS_congr {m : ℤ} {U U' : ℤ → K} (hU : ∀ j, 0 ≤ j → j ≤ m → U' j = U j) :
    knotMS U' m = knotMS U m :=
  Multiset.map_congr rfl (fun i hi => by
    have hi := Finset.mem_Icc.mp (Finset.mem_def.mpr hi)
    exact hU i hi.1 hi.2)

theorem insertKnotV_knotMS (jk : ℤ → K) {n p : ℤ} (U : ℤ → K) (uu : K) {k r : ℤ} (hr : 0 ≤ r)
    (hk : 0 ≤ k) (hkn : k ≤ n + p + 1) :
    knotMS (insertKnotV jk n p U uu k r) (n + r + p + 1) =
      knotMS U (n + p + 1) + Multiset.replicate r.toNat uu := by
  rw [knotMS_eq_kn, knotMS_eq_kn]
  have e1 : (n + r + p + 1 + 1).toNat = (k + 1).toNat + (r.toNat + (n + p + 1 - k).toNat) := by omega
  have e2 : (n + p + 1 + 1).toNat = (k + 1).toNat + (n + p + 1 - k).toNat := by omega
  rw [e1, e2, kn_add, kn_add, kn_add]
  have a1 : kn (insertKnotV jk n p U uu k r) (-1) (k + 1).toNat = kn U (-1) (k + 1).toNat :=
    kn_congr (fun l a b => insertKnotV_lo _ _ _ _ _ _ _ hr _ (by omega) (by omega))
  have a2 : kn (insertKnotV jk n p U uu k r) (-1 + ((k + 1).toNat : ℤ)) r.toNat =
      Multiset.replicate r.toNat uu :=
    kn_const (fun l a b => insertKnotV_mid _ _ _ _ _ _ _ _ (by omega) (by omega))
  have a3 : kn (insertKnotV jk n p U uu k r) (-1 + ((k + 1).toNat : ℤ) + (r.toNat : ℤ))
      (n + p + 1 - k).toNat = kn U (-1 + ((k + 1).toNat : ℤ)) (n + p + 1 - k).toNat := by
    apply kn_congr
    intro l a b
    rw [insertKnotV_hi _ _ _ _ _ _ _ _ (by omega) (by omega)]
    congr 1; omega
  rw [a1, a2, a3]
  rw [add_comm (Multiset.replicate r.toNat uu) (kn U _ _)]
  exact (add_assoc _ _ _).symm

theorem rt_zero {U : ℤ → K} {P : ℤ → E} {p : ℕ} {uu : K} {k : ℤ} :
    ∀ (j : ℕ) (i : ℤ), (∀ l, k - p + i ≤ l → l ≤ k - p + i + j → P l = 0) → rt U P p uu k j i = 0 := by
  intro j
  induction j with
  | zero => intro i h; exact h _ (le_refl _) (by simp)
  | succ j ih =>
    intro i h
    rw [rt, ih i (fun l a b => h l a (by push_cast; omega)),
      ih (i + 1) (fun l a b => h l (by omega) (by push_cast; omega))]
    simp

theorem piece_last_pos {U : ℤ → K} {k : ℤ} {u : K} (h1 : U k < u) :
    ∀ q : ℕ, (∀ j, k < j → j ≤ k + q → U k < U j) → 0 < piece U k q k u := by
  intro q
  induction q with
  | zero => intro _; simp [piece, coxDB]
  | succ q ih =>
    intro hw
    have e : piece U k (q + 1) k u = (u - U k) / (U (k + q + 1) - U k) * piece U k q k u +
        (U (k + q + 2) - u) / (U (k + q + 2) - U (k + 1)) * piece U k q (k + 1) u := rfl
    rw [e, piece_zero_of_gt U k u q (k + 1) (by omega), mul_zero, add_zero]
    exact mul_pos (div_pos (sub_pos.mpr h1) (sub_pos.mpr (hw _ (by omega) (by push_cast; omega))))
      (ih (fun j a b => hw j a (by push_cast; omega)))

end Igakit
