import Verif.Props.RemoveAll
import Verif.Props.Periodic
import Verif.Proofs.SmoothCoarse
import Verif.Spec.Smooth

/-!
# C61: knots and smoothness
-/

set_option linter.unusedSectionVars false

namespace Igakit
open Spec Set Filter Topology

variable {d : ℕ}

theorem Nrb.Coarser.refl {N : Nrb ℝ d} (hv : N.Valid) (a : Fin d) (u : ℝ) : N.Coarser N a u 0 :=
  ⟨hv, rfl, fun _ => rfl, fun _ => rfl, fun _ => rfl, by simp, fun _ _ => rfl, fun _ _ _ _ => rfl⟩

/-- C61: a map that is smoother at `u` than the multiplicity of the knot tells can be described with fewer copies -/
theorem C61_coarser {N : Nrb ℝ (d + 1)} (hv : N.Valid) {a : Fin (d + 1)} {u : ℝ} (h1 : N.lo a < u) (h2 : u < N.hi a)
    (hmu : (N.multOf a u : ℤ) ≤ N.degree a)
    (hm : ∀ b, b ≠ a → ∀ x, N.lo b < x → x < N.hi b → (N.multOf b x : ℤ) ≤ N.degree b + 1) {t m : ℕ} (ht : t ≤ N.multOf a u)
    (hmt : (m : ℤ) + N.multOf a u = N.degree a + t) (hs : N.SmoothAlong a u m) : ∃ M, N.Coarser M a u t := by
  rcases Nat.eq_zero_or_pos t with rfl | ht0
  · exact ⟨N, Nrb.Coarser.refl hv a u⟩
  obtain ⟨p, hp, hk, e⟩ := deg_nat hv a
  have hmo : N.multOf a u = mult (N.U a) 0 (N.n a + p + 1) u := by unfold Nrb.multOf; rw [e]
  have hpn : (N.degree a).toNat = p := by omega
  have hR := RemCtx.of_valid hk (uu := u) (by rw [← hp]; exact h1) (by rw [← N.hi_eq]; exact h2) (by omega) (by omega)
  rw [← hmo] at hR
  generalize hr : findSpan (N.n a) p u (N.U a) = r at hR
  generalize hs' : N.multOf a u = s at *
  have q1 := hR.rp
  have q2 := hR.rn
  have q3 := hR.s1
  have q4 := hR.sp
  have hso := hk.sorted
  have wL : Win (N.U a) (r - s) p := Win.of_sorted hso (by
    rw [hR.blk (r - s + 1) (by omega) (by omega)]
    exact hR.left _ (by omega) le_rfl) (by omega) (by omega)
  have wR : Win (N.U a) r p := Win.of_sorted hso (by
    rw [hR.blk r (by omega) le_rfl]
    exact hR.right _ (by omega) (by omega)) (by omega) (by omega)
  obtain ⟨f, hf, hfr⟩ := exists_form (N.row a) wL
  obtain ⟨g, hg, hgr⟩ := exists_form (N.row a) wR
  -- forms contracted with the basis functions of the other axes
  have hlin : ∀ (y : Fin d → ℝ) (c : ℕ) {F : Multiset ℝ → (Fin d → ℤ) → ℕ → ℝ}, IsForm p F →
      IsForm p (fun μ => ({ N.cross a 0 with P := F μ } : Nrb ℝ d).eval y c) := by
    intro y c F hF μ hμ α v w
    have ev : ∀ Q, ({ N.cross a 0 with P := Q } : Nrb ℝ d).eval y c =
        tensor (N.cross a 0).n (fun b => ((N.cross a 0).degree b).toNat) (N.cross a 0).U (fun o => Q o c) y :=
      fun Q => tensor_apply _ _ _
    simp only [ev, hF μ hμ α v w]
    unfold tensor
    simp only [smul_eq_mul, Finset.mul_sum]
    rw [← Finset.sum_add_distrib]
    refine Finset.sum_congr rfl fun o _ => ?_
    simp only [Pi.add_apply, Pi.smul_apply, smul_eq_mul]
    ring
  have hag : ∀ (o : Fin d → ℤ) (c : ℕ), (∀ b, 0 ≤ o b ∧ o b < N.shape (a.succAbove b)) → c < N.nc →
      ∀ μ : Multiset ℝ, μ.card + ((s : ℤ) - t).toNat = p →
      f (μ + Multiset.replicate ((s : ℤ) - t).toNat u) o c = g (μ + Multiset.replicate ((s : ℤ) - t).toNat u) o c := by
    intro o c ho hc μ hμ
    refine (net_unique (N := { N.cross a 0 with P := f (μ + Multiset.replicate ((s : ℤ) - t).toNat u) })
      (M := { N.cross a 0 with P := g (μ + Multiset.replicate ((s : ℤ) - t).toNat u) }) (fun b => hv (a.succAbove b))
      (fun b x x1 x2 => hm _ (Fin.succAbove_ne a b) x x1 x2) ⟨rfl, rfl, fun _ _ _ _ => rfl⟩ (c := c) (fun y hy => ?_)
      (idx := o) ho).symm
    have hlt : N.lo a ≤ N.hi a := (h1.trans h2).le
    have hx : N.InDom (a.insertNth (N.lo a) y) := by
      intro b
      rcases eq_or_ne b a with rfl | hb
      · rw [Fin.insertNth_apply_same]; exact ⟨le_rfl, hlt⟩
      · obtain ⟨b, rfl⟩ := Fin.exists_succAbove_eq hb
        rw [Fin.insertNth_apply_succAbove]
        exact hy b
    have hsm := hs _ hx c hc
    rw [eval_update, Fin.removeNth_insertNth, hpn, show m = p - ((s : ℤ) - t).toNat by omega] at hsm
    refine (smooth_forms hR (t := t) (by omega) (P := fun i => (N.cross a i).eval y c) (hlin y c hf) (fun i i1 i2 => ?_)
      (hlin y c hg) (fun i i1 i2 => ?_) hsm μ hμ).symm
    · rw [← hfr i i1 i2]; rfl
    · rw [← hgr i i1 i2]; rfl
  have hV := hR.validKv (t := t) (by omega) (by omega)
  have es : N.shape a - t - 1 = N.n a - t := by unfold Nrb.n; ring
  have ed : N.len a - t - (N.shape a - t) - 1 = N.degree a := by unfold Nrb.degree; ring
  refine ⟨N.setAxis a (N.shape a - t) (N.len a - t) (remKv (N.U a) r t) (coarsePts p (N.U a) r s t (N.row a) f g),
    ?_, rfl, ?_, ?_, ?_, ?_, ?_, ?_⟩
  · apply Nrb.setAxis_valid _ _ _ _ _ _ (fun b _ => hv b)
    rw [es, ed, hp]; exact hV
  · intro b
    by_cases hb : b = a
    · subst hb; rw [Nrb.setAxis_degree_self, ed]
    · exact Nrb.setAxis_degree_ne _ _ _ _ _ _ hb
  · intro b
    by_cases hb : b = a
    · subst hb; rw [Nrb.lo_eq, Nrb.setAxis_degree_self, ed, Nrb.setAxis_U_self, hp, hR.lo (by omega), N.lo_eq, hp]
    · exact Nrb.setAxis_lo_ne _ _ _ _ _ _ hb
  · intro b
    by_cases hb : b = a
    · subst hb; rw [Nrb.hi_eq, Nrb.setAxis_n_self, es, Nrb.setAxis_U_self, hR.hi, Nrb.hi_eq]
    · exact Nrb.setAxis_hi_ne _ _ _ _ _ _ hb
  · unfold Nrb.knots
    rw [Nrb.setAxis_U_self, Nrb.setAxis_len, Function.update_self,
      show N.len a - 1 = N.n a + p + 1 by rw [N.len_eq, hp]; ring,
      show N.len a - t - 1 = N.n a - t + p + 1 by rw [N.len_eq, hp]; ring, hR.knotMS (t := t) (by omega)]
  · intro b hb
    unfold Nrb.knots
    rw [Nrb.setAxis_U_ne _ _ _ _ _ _ hb, Nrb.setAxis_len, Function.update_of_ne hb]
  · intro x hx c hc
    rw [Nrb.setAxis_eval, N.eval_split a, tensor_apply, tensor_apply, es, ed, hpn]
    refine tensor_congr (fun _ _ _ _ => rfl) (fun o ho => ?_) _
    have ho' : ∀ b, 0 ≤ o b ∧ o b < N.shape (a.succAbove b) := fun b => by
      have := ho b
      simp only [Fin.removeNth] at this
      unfold Nrb.n at this
      omega
    rw [curve_apply, curve_apply, curve_apply, curve_apply]
    have hcomp : ∀ {F : Multiset ℝ → (Fin d → ℤ) → ℕ → ℝ}, IsForm p F → IsForm p (fun μ => F μ o c) := by
      intro F hF μ hμ α v w
      have := congrFun (congrFun (hF μ hμ α v w) o) c
      simpa using this
    have key := coarse_curve hR (t := t) (by omega) (P := fun i => N.row a i o c) (f := fun μ => f μ o c) (g := fun μ => g μ o c)
      (hcomp hf) (fun i i1 i2 => by dsimp only; rw [← hfr i i1 i2]) (hcomp hg) (fun i i1 i2 => by dsimp only; rw [← hgr i i1 i2])
      (hag o c ho' hc) (x := x a) (by rw [← hp]; exact (hx a).1) (by rw [← N.hi_eq]; exact (hx a).2)
    rw [← key]
    congr 1
    funext i
    unfold coarsePts
    split_ifs <;> rfl

/-- C61: a map that can be described with fewer copies of a knot is smoother there -/
theorem C61_smooth {N M : Nrb ℝ (d + 1)} {a : Fin (d + 1)} {u : ℝ} (h1 : N.lo a < u) (h2 : u < N.hi a) {t m : ℕ}
    (hmt : (m : ℤ) + N.multOf a u ≤ N.degree a + t) (hM : N.Coarser M a u t) : N.SmoothAlong a u m := by
  intro x hx c hc
  obtain ⟨p, hp, hk, e⟩ := deg_nat hM.valid a
  have hpn : (M.degree a).toNat = p := by omega
  have hmul : N.multOf a u = M.multOf a u + t := by
    rw [multOf_eq_count, multOf_eq_count, hM.knots, Multiset.count_add, Multiset.count_replicate_self]
  have hmo : M.multOf a u = mult (M.U a) 0 (M.n a + p + 1) u := by unfold Nrb.multOf; rw [e]
  have hd := hM.degree a
  have hlo : M.U a p = N.lo a := by rw [← hM.lo, M.lo_eq, hp]
  have hhi : M.U a (M.n a + 1) = N.hi a := by rw [← hM.hi, M.hi_eq]
  have key := curve_smooth hk (fun i => (M.cross a i).eval (a.removeNth x) c) (u0 := u) (r := m) (by rw [hlo]; exact h1.le)
    (by rw [hhi]; exact h2.le) (fun _ _ => Or.inr (by omega))
  rw [hlo, hhi] at key
  have hn : Icc (N.lo a) (N.hi a) ∈ 𝓝 u := Icc_mem_nhds h1 h2
  refine (key.contDiffAt hn).congr_of_eventuallyEq ?_
  filter_upwards [hn] with v hv
  rw [← hM.eval _ (fun b => ?_) c hc]
  · have := congrFun (eval_update M a x c) v
    rw [hpn] at this
    exact this
  · rcases eq_or_ne b a with rfl | hb
    · rw [Function.update_self]; exact hv
    · rw [Function.update_of_ne hb]; exact hx b

/-- C61: with `deviation=0` the copies of a knot that `remove` takes out are those the smoothness of the map does not
account for: it removes `t` of the copies asked for if and only if the map is `degree - multiplicity + t` times
continuously differentiable -/
theorem C61_remove {eps : ℝ} (heps : 0 < eps) (jt : ℤ → (Fin d → ℤ) → ℕ → ℝ) {N : Nrb ℝ (d + 1)}
    (hv : N.Valid) {axis : ℤ} {a : Fin (d + 1)} (ha : normAxis (d + 1) axis = .ok a) {u : ℝ} (h1 : N.lo a < u)
    (h2 : u < N.hi a) (hsep : N.Sep eps a u) (hmu : (N.multOf a u : ℤ) ≤ N.degree a)
    (hm : ∀ b x, N.lo b < x → x < N.hi b → (N.multOf b x : ℤ) ≤ N.degree b + 1) (times : Option ℕ) :
    ∃ (N' : Nrb ℝ (d + 1)) (k : ℕ), N.remove eps jt axis u (times.map Nat.cast) 0 = .ok N' ∧ N.Coarser N' a u k ∧
      ∀ t m : ℕ, t ≤ N.multOf a u → (∀ t', times = some t' → t ≤ t') → (m : ℤ) + N.multOf a u = N.degree a + t →
        (t ≤ k ↔ N.SmoothAlong a u m) := by
  obtain ⟨N', k, g1, g2, g3⟩ := C60_exact heps jt hv ha h1 h2 hsep hmu hm times
  refine ⟨N', k, g1, g2, fun t m ht htt hmt => ⟨fun h => C61_smooth h1 h2 (by omega) g2, fun h => ?_⟩⟩
  obtain ⟨M, hM⟩ := C61_coarser hv h1 h2 hmu (fun b _ => hm b) ht hmt h
  exact g3 M t hM htt

/-- C61: and for `deviation >= 0` at least those -/
theorem C61_remove_least {eps : ℝ} (heps : 0 < eps) (jt : ℤ → (Fin d → ℤ) → ℕ → ℝ) {N : Nrb ℝ (d + 1)}
    (hv : N.Valid) {axis : ℤ} {a : Fin (d + 1)} (ha : normAxis (d + 1) axis = .ok a) {u : ℝ} (h1 : N.lo a < u)
    (h2 : u < N.hi a) (hsep : N.Sep eps a u) (hmu : (N.multOf a u : ℤ) ≤ N.degree a)
    (hm : ∀ b x, N.lo b < x → x < N.hi b → (N.multOf b x : ℤ) ≤ N.degree b + 1) {deviation : ℝ} (hd : 0 ≤ deviation)
    (hw : ∀ idx, N.InNet idx → 0 ≤ N.P idx (N.nc - 1)) (times : Option ℕ) :
    ∃ (N' : Nrb ℝ (d + 1)) (k : ℕ), N.remove eps jt axis u (times.map Nat.cast) deviation = .ok N' ∧ N'.Valid ∧
      N.knots a = N'.knots a + Multiset.replicate k u ∧
      ∀ t m : ℕ, t ≤ N.multOf a u → (∀ t', times = some t' → t ≤ t') → (m : ℤ) + N.multOf a u = N.degree a + t →
        N.SmoothAlong a u m → t ≤ k := by
  obtain ⟨N', k, g1, g2, g3, g4⟩ := C60_remove heps jt hv ha h1 h2 hsep hmu hm hd hw times
  refine ⟨N', k, g1, g2, g3, fun t m ht htt hmt h => ?_⟩
  obtain ⟨M, hM⟩ := C61_coarser hv h1 h2 hmu (fun b _ => hm b) ht hmt h
  exact g4 M t hM htt

end Igakit
