import Verif.Props.Remove
import Verif.Proofs.RemoveAff
import Verif.Proofs.Data

/-!
# C17: what `deviation` means for the points
-/

set_option linter.unusedSectionVars false

namespace Igakit
open Spec

variable {d : ℕ}

/-- length of the first three components -/
noncomputable def ptSem : Seminorm ℝ (ℕ → ℝ) :=
  (normSeminorm ℝ (EuclideanSpace ℝ (Fin 3))).comp (σ₁₂ := RingHom.id ℝ)
    { toFun := fun v => WithLp.toLp 2 (fun c : Fin 3 => v c)
      map_add' := fun _ _ => rfl
      map_smul' := fun _ _ => rfl }

theorem ptSem_eq (v : ℕ → ℝ) : ptSem v = Real.sqrt (v 0 ^ 2 + v 1 ^ 2 + v 2 ^ 2) := by
  unfold ptSem
  rw [Seminorm.comp_apply, coe_normSeminorm, EuclideanSpace.norm_eq, Fin.sum_univ_three]
  simp only [Real.norm_eq_abs, sq_abs]
  rfl

theorem ptSem_le_rowSem {sz : Fin d → ℤ} {nc : ℕ} (P : (Fin d → ℤ) → ℕ → ℝ) {o : Fin d → ℤ}
    (ho : ∀ a, 0 ≤ o a ∧ o a < sz a) (hc : 3 ≤ nc) : ptSem (P o) ≤ rowSem sz nc P := by
  have e := rowSem_sub sz nc P 0
  rw [sub_zero] at e
  rw [e, ptSem_eq]
  unfold rowDist
  apply Real.sqrt_le_sqrt
  have hm : o ∈ Fintype.piFinset (fun a => Finset.Ico 0 (sz a)) := by
    rw [Fintype.mem_piFinset]; intro a; rw [Finset.mem_Ico]; exact ho a
  refine le_trans ?_ (Finset.single_le_sum (f := fun o => ∑ c ∈ Finset.range nc,
    (P o c - (0 : (Fin d → ℤ) → ℕ → ℝ) o c) * (P o c - (0 : (Fin d → ℤ) → ℕ → ℝ) o c))
    (fun o _ => Finset.sum_nonneg fun c _ => mul_self_nonneg _) hm)
  refine le_trans ?_ (Finset.sum_le_sum_of_subset_of_nonneg (s := Finset.range 3) (Finset.range_mono hc)
    fun c _ _ => mul_self_nonneg _)
  simp only [Finset.sum_range_succ, Finset.sum_range_zero, Pi.zero_apply, sub_zero]
  exact le_of_eq (by ring)

/-- as `setAxis_dev`, for the length of the first three components -/
theorem setAxis_dev3 {N : Nrb ℝ (d + 1)} (hv : N.Valid) {a : Fin (d + 1)} {s l : ℤ} {V : ℤ → ℝ}
    {Q : ℤ → (Fin d → ℤ) → ℕ → ℝ} {x : Fin (d + 1) → ℝ} (hx : N.InDom x) {C : ℝ}
    (h : rowSem (a.removeNth N.shape) N.nc (curve (s - 1) (l - s - 1).toNat V Q (x a) -
      curve (N.n a) (N.degree a).toNat (N.U a) (N.row a) (x a)) ≤ C) (hc : 3 ≤ N.nc) :
    ptSem ((N.setAxis a s l V Q).eval x - N.eval x) ≤ C := by
  rw [Nrb.setAxis_eval, N.eval_split a]
  unfold tensor
  rw [← Finset.sum_sub_distrib]
  set w : (Fin d → ℤ) → ℝ := fun o => ∏ b, bsplineD (a.removeNth N.n b) (a.removeNth N.U b)
    (a.removeNth (fun b => (N.degree b).toNat) b) (o b) (a.removeNth x b) with hw
  have hax : ∀ b : Fin d, ValidKnots (N.n (a.succAbove b)) (((N.degree (a.succAbove b)).toNat : ℕ) : ℤ)
      (N.U (a.succAbove b)) ∧ N.U (a.succAbove b) (((N.degree (a.succAbove b)).toNat : ℕ) : ℤ) ≤ x (a.succAbove b) ∧
      x (a.succAbove b) ≤ N.U (a.succAbove b) (N.n (a.succAbove b) + 1) := by
    intro b
    rw [hv.degNat, ← Nrb.hi_eq]
    exact ⟨hv _, hx _⟩
  have hw0 : ∀ o ∈ Fintype.piFinset (fun b => Finset.Icc 0 (a.removeNth N.n b)), 0 ≤ w o := by
    intro o ho
    rw [Fintype.mem_piFinset] at ho
    refine Finset.prod_nonneg fun b _ => ?_
    have hb := Finset.mem_Icc.mp (ho b)
    obtain ⟨k1, k2, k3⟩ := hax b
    exact bsplineD_nonneg k1 k2 k3 hb.1 hb.2
  have hw1 : ∑ o ∈ Fintype.piFinset (fun b => Finset.Icc 0 (a.removeNth N.n b)), w o = 1 := by
    rw [hw, ← Finset.prod_univ_sum (fun b => Finset.Icc 0 (a.removeNth N.n b))
      (fun b i => bsplineD (a.removeNth N.n b) (a.removeNth N.U b) (a.removeNth (fun b => (N.degree b).toNat) b) i
        (a.removeNth x b))]
    refine Finset.prod_eq_one fun b _ => ?_
    obtain ⟨k1, k2, k3⟩ := hax b
    exact bsplineD_sum_one k1 k2 k3
  refine (Finset.le_sum_of_subadditive ptSem (map_zero ptSem).le (map_add_le_add ptSem) _ _).trans ?_
  calc _ ≤ ∑ o ∈ Fintype.piFinset (fun b => Finset.Icc 0 (a.removeNth N.n b)), w o * C := by
        refine Finset.sum_le_sum fun o ho => ?_
        rw [← smul_sub, map_smul_eq_mul, Real.norm_eq_abs, abs_of_nonneg (hw0 o ho)]
        refine mul_le_mul_of_nonneg_left (le_trans ?_ h) (hw0 o ho)
        rw [Fintype.mem_piFinset] at ho
        refine ptSem_le_rowSem (sz := a.removeNth N.shape) (nc := N.nc) (_ - _) (o := o) ?_ hc
        intro b
        have hb := Finset.mem_Icc.mp (ho b)
        have : a.removeNth N.n b = a.removeNth N.shape b - 1 := rfl
        omega
    _ = C := by rw [← Finset.sum_mul, hw1, one_mul]

theorem minUpTo_const {n : ℤ} {f : ℤ → ℝ} {v : ℝ} (hn : 0 ≤ n) (h : ∀ i, 0 ≤ i → i ≤ n → f i = v) : minUpTo n f = v := by
  unfold minUpTo
  refine forUp_inv (lo := 1) (hi := n) (s := f 0) (f := fun i m => min m (f i)) (I := fun _ m => m = v)
    (by omega) (h 0 le_rfl hn) ?_
  intro i m a b g
  rw [g, h i (by omega) (by omega), min_self]

theorem removeTol_le_dev {N : Nrb ℝ (d + 1)} (hv : N.Valid) (a : Fin (d + 1)) {deviation : ℝ} (hd : 0 ≤ deviation) (hnc : N.nc = 4)
    (hw : ∀ idx, N.InNet idx → N.P idx 3 = 1) : N.removeTol a deviation ≤ deviation := by
  have h1 := fun b => (hv b).one_le
  have h2 := fun b => (hv b).le
  unfold Nrb.removeTol
  dsimp only
  have := maxUpTo_nonneg (n := N.n a) (f := fun i => rowNorm (a.removeNth N.shape) N.nc (N.row a i))
    (by have := h1 a; have := h2 a; omega) (Real.sqrt_nonneg _)
  rw [minUpTo_const (v := 1) (by have := h1 a; have := h2 a; omega), mul_one]
  · exact div_le_self hd (by linarith)
  · intro i i0 i1
    rw [hnc]
    refine hw _ fun b => ?_
    rcases Fin.eq_self_or_eq_succAbove a b with rfl | ⟨c, rfl⟩
    · rw [Fin.insertNth_apply_same]
      unfold Nrb.n at i1
      omega
    · rw [Fin.insertNth_apply_succAbove]
      have := h1 (a.succAbove c)
      have := h2 (a.succAbove c)
      unfold Nrb.n at this
      show 0 ≤ N.shape (a.succAbove c) - 1 ∧ N.shape (a.succAbove c) - 1 < _
      omega

/-- C17: for objects without weights and fields, `remove` leaves the weights 1, and no point of the object moves by
more than `deviation` times the number of removed knots -/
theorem C17_remove_points {eps : ℝ} (heps : 0 < eps) (jt : ℤ → (Fin d → ℤ) → ℕ → ℝ) {N : Nrb ℝ (d + 1)}
    (hv : N.Valid) {axis : ℤ} {a : Fin (d + 1)} (ha : normAxis (d + 1) axis = .ok a) {u : ℝ} (h1 : N.lo a < u)
    (h2 : u < N.hi a) (hsep : N.Sep eps a u) (hm : (N.multOf a u : ℤ) ≤ N.degree a) (t : ℕ) {deviation : ℝ}
    (hd : 0 ≤ deviation) (hnc : N.nc = 4) (hw : ∀ idx, N.InNet idx → N.P idx 3 = 1) :
    ∃ (N' : Nrb ℝ (d + 1)) (k : ℕ), N.remove eps jt axis u (some t) deviation = .ok N' ∧ k ≤ t ∧
      N.knots a = N'.knots a + Multiset.replicate k u ∧
      (∀ idx, N'.InNet idx → N'.P idx 3 = 1) ∧
      ∀ x, N.InDom x → ∑ c : Fin 3, (N'.point x c - N.point x c) ^ 2 ≤ (k * deviation) ^ 2 := by
  have hTOL := removeTol_le_dev hv a hd hnc hw
  obtain ⟨p, hp, hk, e⟩ := deg_nat hv a
  unfold Nrb.remove
  rw [ha, res_ok_bind]
  dsimp only
  rw [pyAssert_ok ⟨h1.le, h2.le⟩, res_ok_bind, findMult_res heps hv h1 h2 hsep hm, res_ok_bind,
    min_eq_left hm, Option.getD_some, pyAssert_ok (by omega), res_ok_bind]
  by_cases h0 : min (t : ℤ) (N.multOf a u) = 0
  · rw [if_pos h0]
    exact ⟨N, 0, rfl, by omega, by simp, hw, fun x _ => by simp⟩
  rw [if_neg h0, if_neg (not_le.mpr h1), if_neg (not_le.mpr h2)]
  unfold Nrb.Sep at hsep
  have hmo : N.multOf a u = mult (N.U a) 0 (N.n a + p + 1) u := by unfold Nrb.multOf; rw [e]
  rw [e] at hsep
  have hlo : N.U a p < u := by rw [← hp]; exact h1
  have hhi : u < N.U a (N.n a + 1) := by rw [← N.hi_eq]; exact h2
  obtain ⟨k, V, Q, g1, g2, g3, g4, g5, g6, g7, g8⟩ := C17_RemoveKnot_deviation heps jt
    (rowSem (a.removeNth N.shape) N.nc) (N.removeTol a deviation) hk (N.row a)
    hlo hhi hsep (r := min t (N.multOf a u)) (by omega) (by omega)
  have hone : ∀ o : Fin d → ℤ, (∀ b, 0 ≤ o b ∧ o b < N.shape (a.succAbove b)) → ∀ i, 0 ≤ i → i ≤ N.n a - k → Q i o 3 = 1 := by
    intro o ho
    exact removeKnot_aff heps jt _ hk (N.row a) hlo hhi hsep (by omega) (by omega)
      ((LinearMap.proj 3 : (ℕ → ℝ) →ₗ[ℝ] ℝ).comp (LinearMap.proj o : ((Fin d → ℤ) → ℕ → ℝ) →ₗ[ℝ] (ℕ → ℝ))) 1 (by
        intro i i0 i1
        refine hw _ fun b => ?_
        rcases Fin.eq_self_or_eq_succAbove a b with rfl | ⟨c, rfl⟩
        · rw [Fin.insertNth_apply_same]
          unfold Nrb.n at i1
          omega
        · rw [Fin.insertNth_apply_succAbove]
          exact ho c) g1
  have hnear : (fun P1 P2 => rowDist (a.removeNth N.shape) N.nc P1 P2 ≤ N.removeTol a deviation) =
      (fun a_1 b => rowSem (a.removeNth N.shape) N.nc (a_1 - b) ≤ N.removeTol a deviation) := by
    funext P1 P2; rw [rowSem_sub]
  have hmin : min (t : ℤ) (N.multOf a u) = ((min t (N.multOf a u) : ℕ) : ℤ) := by simp
  have hpn : (N.degree a).toNat = p := by omega
  rw [← hp] at g1 g3 g4 g6
  rw [hnear, hmin, g1, res_ok_bind]
  dsimp only
  have es : N.shape a - k - 1 = N.n a - k := by unfold Nrb.n; ring
  have ed : N.len a - k - (N.shape a - k) - 1 = N.degree a := by unfold Nrb.degree; ring
  have hval : (N.setAxis a (N.shape a - k) (N.len a - k) V Q).Valid := by
    apply Nrb.setAxis_valid _ _ _ _ _ _ (fun b _ => hv b)
    rw [es, ed]; exact g3
  have hw' : ∀ idx, (N.setAxis a (N.shape a - k) (N.len a - k) V Q).InNet idx →
      (N.setAxis a (N.shape a - k) (N.len a - k) V Q).P idx 3 = 1 := by
    intro idx hidx
    have q1 := hidx a
    have q2 : (N.setAxis a (N.shape a - k) (N.len a - k) V Q).shape a = N.shape a - k := Function.update_self ..
    refine hone (a.removeNth idx) (fun b => ?_) (idx a) q1.1 (by unfold Nrb.n; omega)
    have q3 := hidx (a.succAbove b)
    have q4 : (N.setAxis a (N.shape a - k) (N.len a - k) V Q).shape (a.succAbove b) = N.shape (a.succAbove b) :=
      Function.update_of_ne (Fin.succAbove_ne a b) ..
    rw [q4] at q3
    exact q3
  have wt : ∀ (L : Nrb ℝ (d + 1)), L.Valid → (∀ idx, L.InNet idx → L.P idx 3 = 1) → ∀ x, L.InDom x → L.eval x 3 = 1 := by
    intro L hL hw x hx
    rw [Nrb.eval_apply, ← Nrb.wt_sum hL hx]
    refine Finset.sum_congr rfl fun idx h => ?_
    rw [hw idx, mul_one]
    intro a
    have := Finset.mem_Icc.1 (Fintype.mem_piFinset.1 h a)
    unfold Nrb.n at this
    omega
  refine ⟨_, k, rfl, by omega, ?_, hw', fun x hx => ?_⟩
  · unfold Nrb.knots
    rw [Nrb.setAxis_U_self, Nrb.setAxis_len, Function.update_self,
      show N.len a - 1 = N.n a + N.degree a + 1 by rw [N.len_eq]; ring,
      show N.len a - k - 1 = N.n a - k + N.degree a + 1 by rw [N.len_eq]; ring, g6]
  · have hx' : (N.setAxis a (N.shape a - k) (N.len a - k) V Q).InDom x := by
      intro b
      by_cases hb : b = a
      · subst hb
        have y := hx b
        rw [Nrb.lo_eq, Nrb.setAxis_degree_self, ed, Nrb.setAxis_U_self, g4, Nrb.hi_eq, Nrb.setAxis_n_self, es,
          Nrb.setAxis_U_self, g5]
        rw [N.hi_eq, N.lo_eq] at y
        exact y
      · rw [Nrb.setAxis_lo_ne _ _ _ _ _ _ hb, Nrb.setAxis_hi_ne _ _ _ _ _ _ hb]
        exact hx b
    have h3 : ptSem ((N.setAxis a (N.shape a - k) (N.len a - k) V Q).eval x - N.eval x) ≤ k * N.removeTol a deviation := by
      refine setAxis_dev3 hv hx ?_ (by omega)
      rw [es, ed, hpn]
      exact g7 (x a) (by rw [← hp]; exact (hx a).1) (by rw [← N.hi_eq]; exact (hx a).2)
    rw [ptSem_eq] at h3
    have h4 := (Real.sqrt_le_left (by positivity)).1 (h3.trans (mul_le_mul_of_nonneg_left hTOL (Nat.cast_nonneg k)))
    rw [Fin.sum_univ_three]
    unfold Nrb.point Nrb.proj
    rw [wt _ hv hw x hx, wt _ hval hw' x hx']
    simpa using h4

end Igakit
