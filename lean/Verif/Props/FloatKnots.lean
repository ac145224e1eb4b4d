import Verif.Proofs.FloatKnots
import Verif.Proofs.FloatSterbenz
import Verif.Props.Param
import Verif.Props.Float
import Verif.Props.KnotVector

/-! # Properties C74, C75: remapped, reversed and generated knot vectors in floating point arithmetic -/

set_option linter.unusedSectionVars false

namespace Igakit
open Spec

section remap
variable {K : Type} [Field K] [LinearOrder K] [IsStrictOrderedRing K] {d : ℕ}

theorem Nrb.Valid.lo_lt_hi {N : Nrb K d} (hv : N.Valid) (a : Fin d) : N.lo a < N.hi a := by
  obtain ⟨p, hp, hk, _⟩ := deg_nat hv a
  rw [N.hi_eq, N.lo_eq, hp]
  exact lt_of_lt_of_le hk.first (hk.sorted _ _ (by have := hk.one_le; omega) (by have := hk.le; omega) (by omega))

theorem affMap_eq {a b : K} (hab : a < b) (c e u : K) : affMap a b c e u = (u - a) * ((e - c) / (b - a)) + c := by
  have : b - a ≠ 0 := by linarith
  unfold affMap
  field_simp
  ring

/-- the knots of the remapped axis, in both branches -/
theorem remapF_eq {rd : K → K} {N : Nrb K d} (hv : N.Valid) {axis : ℤ} {a : Fin d} (ha : normAxis d axis = .ok a)
    {start stop : Option K} {c e : K} (hc : c = start.getD (N.lo a)) (he : e = stop.getD (N.hi a)) (hce : c < e) :
    ∃ N', N.remapF rd axis start stop = .ok N' ∧ N'.nc = N.nc ∧ N'.shape = N.shape ∧ N'.len = N.len ∧ N'.P = N.P ∧
      (∀ b, b ≠ a → N'.U b = N.U b) ∧
      ((N.lo a = c ∧ N.hi a = e ∧ N' = N) ∨ (N'.U a = fun j => Fp.remapKnot rd (N.lo a) (N.hi a) c e (N.U a j))) := by
  by_cases hsame : N.lo a = c ∧ N.hi a = e
  · refine ⟨N, ?_, rfl, rfl, rfl, rfl, fun _ _ => rfl, Or.inl ⟨hsame.1, hsame.2, rfl⟩⟩
    unfold Nrb.remapF
    rw [ha, res_ok_bind]
    dsimp only
    rw [if_pos (by rw [← hc, ← he]; exact hsame)]
    rfl
  · refine ⟨{ N with U := Function.update N.U a (fun j => Fp.remapKnot rd (N.lo a) (N.hi a) c e (N.U a j)) }, ?_,
      rfl, rfl, rfl, rfl, fun b hb => ?_, Or.inr ?_⟩
    · unfold Nrb.remapF
      rw [ha, res_ok_bind]
      dsimp only
      rw [if_neg (by rw [← hc, ← he]; exact hsame), ← hc, ← he, pyAssert_ok hce, res_ok_bind]
      rfl
    · exact Function.update_of_ne hb _ _
    · exact Function.update_self _ _ _

/-- C74: `nrb.remap(axis, c, e)` in floating point changes the knots of the axis only; they stay floating point numbers in
ascending order, and the domain begins at `c` exactly. -/
theorem C74_remap {F : K → Prop} {rd : K → K} (hr : Rounds F rd) {N : Nrb K d} (hv : N.Valid) {axis : ℤ} {a : Fin d}
    (ha : normAxis d axis = .ok a) (hF : ∀ j, 0 ≤ j → j < N.len a → F (N.U a j))
    {start stop : Option K} {c e : K} (hc : c = start.getD (N.lo a)) (he : e = stop.getD (N.hi a)) (hce : c < e) (hFc : F c) :
    ∃ N', N.remapF rd axis start stop = .ok N' ∧ N'.nc = N.nc ∧ N'.shape = N.shape ∧ N'.len = N.len ∧ N'.P = N.P ∧
      (∀ b, b ≠ a → N'.U b = N.U b) ∧ N'.lo a = c ∧ (∀ j, 0 ≤ j → j < N.len a → F (N'.U a j)) ∧
      SortedOn (N'.U a) 0 (N.len a - 1) ∧
      (F (N.hi a - N.lo a) → F (e - c) → F ((e - c) / (N.hi a - N.lo a)) → F e → N'.hi a = e) := by
  have hlt := hv.lo_lt_hi a
  have hsort : SortedOn (N.U a) 0 (N.len a - 1) := by
    have := (hv a).sorted
    rwa [show N.len a - 1 = N.n a + N.degree a + 1 by unfold Nrb.n Nrb.degree; ring]
  obtain ⟨N', h1, h2, h3, h4, h5, h6, h7⟩ := remapF_eq (rd := rd) hv ha hc he hce
  refine ⟨N', h1, h2, h3, h4, h5, h6, ?_⟩
  have hdeg : N'.degree a = N.degree a := by unfold Nrb.degree; rw [h3, h4]
  have hlo : N'.lo a = N'.U a (N.degree a) := by unfold Nrb.lo; rw [hdeg]
  have hhi : N'.hi a = N'.U a (N.len a + (-N.degree a - 1)) := by unfold Nrb.hi; rw [hdeg, h4]
  rcases h7 with ⟨e1, e2, rfl⟩ | h7
  · exact ⟨e1, hF, hsort, fun _ _ _ _ => e2⟩
  · refine ⟨?_, fun j _ _ => ?_, ?_, fun l1 l2 l3 l4 => ?_⟩
    · rw [hlo, h7]
      exact Fp.remapKnot_start hr hFc
    · rw [h7]
      exact hr.mem _
    · rw [h7]
      exact fun i j x y z => Fp.remapKnot_mono hr hlt.le hce.le (hsort i j x y z)
    · rw [hhi, h7]
      exact Fp.remapKnot_end hr hlt l4 l1 l2 l3

/-- C74: the remapped knots differ from the affine image of the old ones by at most one rounding of their size and six of their
distance to the new start.  If the first and the last span of the new domain are longer than twice that, the object stays valid. -/
theorem C74_remap_error {δ : K} {rd : K → K} (h0 : 0 ≤ δ) (hδ : δ < 1) (hr : RelErr δ rd) {N : Nrb K d} (hv : N.Valid)
    {axis : ℤ} {a : Fin d} (ha : normAxis d axis = .ok a) {start stop : Option K} {c e : K} (hc : c = start.getD (N.lo a))
    (he : e = stop.getD (N.hi a)) (hce : c < e) :
    ∃ N', N.remapF rd axis start stop = .ok N' ∧
      (∀ j, |N'.U a j - affMap (N.lo a) (N.hi a) c e (N.U a j)| ≤ δ * |affMap (N.lo a) (N.hi a) c e (N.U a j)| +
        (growth δ ^ 6 - 1) * |affMap (N.lo a) (N.hi a) c e (N.U a j) - c|) ∧
      (Monotone rd → ∀ M, |c| ≤ M → |e| ≤ M →
        (∀ k, k = N.degree a ∨ k = N.n a → 2 * (δ * M + (growth δ ^ 6 - 1) * (e - c)) <
          (N.U a (k + 1) - N.U a k) * ((e - c) / (N.hi a - N.lo a))) → N'.Valid) := by
  have hlt := hv.lo_lt_hi a
  have hz : rd 0 = 0 := Fp.rd_zero h0 hδ hr
  have hg := Fp.one_le_growth h0 hδ
  have hG : (0 : K) ≤ growth δ ^ 6 - 1 := by linarith [one_le_pow₀ (n := 6) hg]
  obtain ⟨N', h1, h2, h3, h4, h5, h6, h7⟩ := remapF_eq (rd := rd) hv ha hc he hce
  refine ⟨N', h1, ?_⟩
  have hn : ∀ b, N'.n b = N.n b := fun b => by unfold Nrb.n; rw [h3]
  have hdeg : ∀ b, N'.degree b = N.degree b := fun b => by unfold Nrb.degree; rw [h3, h4]
  rcases h7 with ⟨e1, e2, rfl⟩ | h7
  · refine ⟨fun j => ?_, fun _ _ _ _ _ => hv⟩
    have : affMap (N'.lo a) (N'.hi a) c e (N'.U a j) = N'.U a j := by
      have : N'.hi a - N'.lo a ≠ 0 := by linarith
      rw [affMap_eq hlt, ← e1, ← e2, div_self this]
      ring
    rw [this, sub_self, abs_zero]
    exact add_nonneg (mul_nonneg h0 (abs_nonneg _)) (mul_nonneg hG (abs_nonneg _))
  · have err : ∀ j, |N'.U a j - affMap (N.lo a) (N.hi a) c e (N.U a j)| ≤ δ * |affMap (N.lo a) (N.hi a) c e (N.U a j)| +
        (growth δ ^ 6 - 1) * |affMap (N.lo a) (N.hi a) c e (N.U a j) - c| := by
      intro j
      rw [h7, affMap_eq hlt, add_sub_cancel_right]
      exact Fp.remapKnot_err h0 hδ hr hlt hce _
    refine ⟨err, fun hm M m1 m2 hs b => ?_⟩
    rw [hn, hdeg]
    by_cases hb : b = a
    · subst hb
      have hk := hv b
      have hp := hk.one_le
      have hle := hk.le
      have hα : 0 < (e - c) / (N.hi b - N.lo b) := div_pos (by linarith) (by linarith)
      -- error inside the domain
      have inside : ∀ j, N.degree b ≤ j → j ≤ N.n b + 1 →
          |N'.U b j - affMap (N.lo b) (N.hi b) c e (N.U b j)| ≤ δ * M + (growth δ ^ 6 - 1) * (e - c) := by
        intro j j0 j1
        have u0 : N.lo b ≤ N.U b j := by rw [N.lo_eq]; exact hk.sorted _ _ (by omega) j0 (by omega)
        have u1 : N.U b j ≤ N.hi b := by rw [N.hi_eq]; exact hk.sorted _ _ (by omega) j1 (by omega)
        have t0 : 0 ≤ (N.U b j - N.lo b) * ((e - c) / (N.hi b - N.lo b)) := mul_nonneg (by linarith) hα.le
        have t1 : (N.U b j - N.lo b) * ((e - c) / (N.hi b - N.lo b)) ≤ e - c := by
          rw [mul_div_assoc', div_le_iff₀ (by linarith), mul_comm]
          exact mul_le_mul_of_nonneg_left (by linarith) (by linarith)
        have m1' := abs_le.mp m1
        have m2' := abs_le.mp m2
        refine (err j).trans ?_
        rw [affMap_eq hlt, add_sub_cancel_right, abs_of_nonneg t0]
        refine add_le_add (mul_le_mul_of_nonneg_left (abs_le.mpr ⟨by linarith, by linarith⟩) h0)
          (mul_le_mul_of_nonneg_left t1 hG)
      have gap : ∀ k, k = N.degree b ∨ k = N.n b → N'.U b k < N'.U b (k + 1) := by
        intro k hk'
        have a1 := abs_le.mp (inside k (by omega) (by omega))
        have a2 := abs_le.mp (inside (k + 1) (by omega) (by omega))
        have := hs k hk'
        rw [affMap_eq hlt] at a1 a2
        linarith [a1.2, a2.1]
      refine ⟨hp, hle, ?_, gap _ (Or.inl rfl), gap _ (Or.inr rfl)⟩
      rw [h7]
      intro i j x y z
      have h2 : 0 ≤ rd (N.hi b - N.lo b) := by rw [← hz]; exact hm (by linarith)
      have h3 : 0 ≤ rd (e - c) := by rw [← hz]; exact hm (by linarith)
      have h4 : 0 ≤ rd (rd (e - c) / rd (N.hi b - N.lo b)) := by rw [← hz]; exact hm (div_nonneg h3 h2)
      have h5 : rd (N.U b i - N.lo b) ≤ rd (N.U b j - N.lo b) := hm (by linarith [hk.sorted i j x y z])
      exact hm (add_le_add (hm (mul_le_mul_of_nonneg_right h5 h4)) le_rfl)
    · rw [h6 b hb]
      exact hv b

end remap

section reverse
variable {K : Type} [Field K] [LinearOrder K] [IsStrictOrderedRing K] {d : ℕ}

theorem reverseF_single (rd : K → K) (N : Nrb K d) {axis : ℤ} {a : Fin d} (ha : normAxis d axis = .ok a) :
    N.reverseF rd [axis] = .ok (N.reverse1F rd a) := by
  unfold Nrb.reverseF
  dsimp only
  rw [if_neg (by simp), List.foldlM_cons, ha, res_ok_bind]
  rfl

/-- several axes are reversed one after the other -/
theorem C74_reverse_axes (rd : K → K) (N : Nrb K d) {axes : List ℤ} (h : axes ≠ []) :
    N.reverseF rd axes = axes.foldlM (fun N axis => N.reverseF rd [axis]) N := by
  have : ∀ (N : Nrb K d) (axis : ℤ), N.reverseF rd [axis] = (normAxis d axis >>= fun a => pure (N.reverse1F rd a)) := by
    intro N axis
    unfold Nrb.reverseF
    dsimp only
    rw [if_neg (by simp), List.foldlM_cons]
    cases normAxis d axis <;> rfl
  simp only [this]
  unfold Nrb.reverseF
  dsimp only
  rw [if_neg h]

theorem reverse1F_U (rd : K → K) (N : Nrb K d) (a : Fin d) :
    (N.reverse1F rd a).U a = Fp.kntRev rd (N.degree a) (N.len a) (N.U a) := Function.update_self _ _ _

theorem reverse1F_degree (rd : K → K) (N : Nrb K d) (a b : Fin d) : (N.reverse1F rd a).degree b = N.degree b := rfl

/-- C74: `nrb.reverse(axis)` in floating point reverses the control points of the axis and reflects its knots, up to one rounding of
their size and two of the sum of the ends of the domain; the knots stay floating point numbers in ascending order, and the ends of
the domain are kept if their sum is a floating point number. -/
theorem C74_reverse {F : K → Prop} {rd : K → K} (hr : Rounds F rd) {N : Nrb K d} (hv : N.Valid) {axis : ℤ} {a : Fin d}
    (ha : normAxis d axis = .ok a) (hlo : F (N.lo a)) (hhi : F (N.hi a)) :
    ∃ N', N.reverseF rd [axis] = .ok N' ∧ N'.nc = N.nc ∧ N'.shape = N.shape ∧ N'.len = N.len ∧
      (∀ idx, N'.P idx = N.P (Function.update idx a (N.shape a - 1 - idx a))) ∧
      (∀ b, b ≠ a → N'.U b = N.U b) ∧ (∀ j, F (N'.U a j)) ∧ SortedOn (N'.U a) 0 (N.len a - 1) ∧
      (F (N.lo a + N.hi a) → N'.lo a = N.lo a ∧ N'.hi a = N.hi a) ∧
      (∀ δ, 0 ≤ δ → δ < 1 → RelErr δ rd → (∀ j, |N'.U a j - (N.lo a + N.hi a - N.U a (N.len a - 1 - j))| ≤
        δ * |N.lo a + N.hi a - N.U a (N.len a - 1 - j)| + (growth δ ^ 2 - 1) * |N.lo a + N.hi a|) ∧
        (∀ M, (∀ j, 0 ≤ j → j < N.len a → |N.U a j| ≤ M) →
          (∀ k, k = N.degree a ∨ k = N.n a → 10 * δ * M < N.U a (k + 1) - N.U a k) → N'.Valid)) := by
  have hk := hv a
  have hp := hk.one_le
  have hle := hk.le
  have hlen : N.len a = N.n a + N.degree a + 2 := by unfold Nrb.n Nrb.degree; ring
  have hsort : SortedOn (N.U a) 0 (N.len a - 1) := by
    have := hk.sorted
    rwa [show N.len a - 1 = N.n a + N.degree a + 1 by omega]
  have hU := reverse1F_U rd N a
  have el : N.U a (N.degree a) = N.lo a := rfl
  have eh : N.U a (N.len a + (-N.degree a - 1)) = N.hi a := rfl
  have eh' : N.U a (N.len a - 1 - N.degree a) = N.hi a := by rw [← eh]; congr 1; ring
  have hsorted' : SortedOn ((N.reverse1F rd a).U a) 0 (N.len a - 1) := by
    rw [hU]
    exact Fp.kntRev_sorted hr.mono hsort
  refine ⟨_, reverseF_single rd N ha, rfl, rfl, rfl, fun _ => rfl, fun b hb => Function.update_of_ne hb _ _, fun j => ?_,
    hsorted', fun hs => ⟨?_, ?_⟩, fun δ h0 hδ he => ⟨fun j => ?_, fun M hM hgap b => ?_⟩⟩
  · rw [hU]
    exact hr.mem _
  · show (N.reverse1F rd a).U a (N.degree a) = _
    rw [hU]
    unfold Fp.kntRev
    rw [eh, el, eh', hr.exact (N.hi a + N.lo a) (by rwa [add_comm]), add_sub_cancel_left, hr.exact _ hlo]
  · show (N.reverse1F rd a).U a (N.len a + (-N.degree a - 1)) = _
    rw [hU]
    unfold Fp.kntRev
    rw [eh, el, show N.len a - 1 - (N.len a + (-N.degree a - 1)) = N.degree a by ring, el, hr.exact (N.hi a + N.lo a) (by rwa [add_comm]),
      add_sub_cancel_right, hr.exact _ hhi]
  · have := Fp.kntRev_err h0 hδ he (N.degree a) (N.len a) (N.U a) j
    rw [hU]
    rw [eh', el] at this
    rwa [add_comm (N.lo a)]
  · show ValidKnots (N.n b) (N.degree b) ((N.reverse1F rd a).U b)
    by_cases hb : b = a
    · subst hb
      have M0 : 0 ≤ M := (abs_nonneg _).trans (hM 0 le_rfl (by omega))
      have ml : |N.lo b| ≤ M := hM _ (by omega) (by omega)
      have mh : |N.hi b| ≤ M := by rw [← eh']; exact hM _ (by omega) (by omega)
      have hs1 : |N.hi b + N.lo b| ≤ 2 * M := (abs_add_le _ _).trans (by linarith)
      have hs : |rd (N.hi b + N.lo b)| ≤ 4 * M := by
        have e1 := he (N.hi b + N.lo b)
        have e2 := abs_add_le (rd (N.hi b + N.lo b) - (N.hi b + N.lo b)) (N.hi b + N.lo b)
        rw [sub_add_cancel] at e2
        have e3 : δ * |N.hi b + N.lo b| ≤ 1 * (2 * M) := mul_le_mul hδ.le hs1 (abs_nonneg _) (by norm_num)
        linarith
      have key : ∀ k, (N.len b - 1 - (k + 1) = N.degree b ∨ N.len b - 1 - (k + 1) = N.n b) →
          (N.reverse1F rd b).U b k < (N.reverse1F rd b).U b (k + 1) := by
        intro k hk'
        rw [hU]
        unfold Fp.kntRev
        rw [eh, el]
        have g := hgap _ hk'
        rw [show N.len b - 1 - (k + 1) + 1 = N.len b - 1 - k by ring] at g
        have b1 : |N.U b (N.len b - 1 - (k + 1))| ≤ M := hM _ (by omega) (by omega)
        have b2 : |N.U b (N.len b - 1 - k)| ≤ M := hM _ (by omega) (by omega)
        have c1 := abs_sub (rd (N.hi b + N.lo b)) (N.U b (N.len b - 1 - (k + 1)))
        have c2 := abs_sub (rd (N.hi b + N.lo b)) (N.U b (N.len b - 1 - k))
        refine Fp.rd_lt he ?_
        have : δ * (|rd (N.hi b + N.lo b) - N.U b (N.len b - 1 - k)| + |rd (N.hi b + N.lo b) - N.U b (N.len b - 1 - (k + 1))|) ≤
            δ * (10 * M) := mul_le_mul_of_nonneg_left (by linarith) h0
        linarith
      refine ⟨hp, hle, ?_, key _ (Or.inr (by omega)), key _ (Or.inl (by omega))⟩
      rw [show N.n b + N.degree b + 1 = N.len b - 1 by omega]
      exact hsorted'
    · have : (N.reverse1F rd a).U b = N.U b := Function.update_of_ne hb _ _
      rw [this]
      exact hv b

/-- C74: reversing twice need not restore the knots, but when the domain begins at zero it does so in its second half, and reversing
three times is the same as reversing once.  (`hst`: the difference of two numbers within a factor of two is exact.) -/
theorem C74_reverse_again {F : K → Prop} {rd : K → K} (hr : Rounds F rd)
    (hst : ∀ x y, F x → F y → y / 2 ≤ x → x ≤ y → F (y - x)) {N : Nrb K d} (hv : N.Valid) {axis : ℤ} {a : Fin d}
    (ha : normAxis d axis = .ok a) (hF : ∀ j, 0 ≤ j → j < N.len a → F (N.U a j)) (hz : N.lo a = 0) (hh2 : F (N.hi a / 2))
    (hin : ∀ j, 0 ≤ j → j < N.len a → 0 ≤ N.U a j ∧ N.U a j ≤ N.hi a) :
    ∃ N1 N2 N3, N.reverseF rd [axis] = .ok N1 ∧ N1.reverseF rd [axis] = .ok N2 ∧ N2.reverseF rd [axis] = .ok N3 ∧
      N2.shape = N.shape ∧ N2.P = N.P ∧ N3.P = N1.P ∧
      (∀ j, 0 ≤ j → j < N.len a → N.hi a / 2 ≤ N.U a j → N2.U a j = N.U a j) ∧
      (∀ j, 0 ≤ j → j < N.len a → N3.U a j = N1.U a j) := by
  have hk := hv a
  have hp := hk.one_le
  have hle := hk.le
  have hlen : N.len a = N.n a + N.degree a + 2 := by unfold Nrb.n Nrb.degree; ring
  have eh' : N.U a (N.len a + (-N.degree a - 1)) = N.hi a := rfl
  have eh : N.U a (N.len a - 1 - N.degree a) = N.hi a := by rw [← eh']; congr 1; ring
  have el : N.U a (N.degree a) = 0 := hz
  have hFh : F (N.hi a) := by rw [← eh']; exact hF _ (by omega) (by omega)
  -- one reversal of a knot vector with domain `[0, h]`
  have step : ∀ (U : ℤ → K), U (N.degree a) = 0 → U (N.len a + (-N.degree a - 1)) = N.hi a →
      (∀ j, Fp.kntRev rd (N.degree a) (N.len a) U j = rd (N.hi a - U (N.len a - 1 - j))) ∧
      Fp.kntRev rd (N.degree a) (N.len a) U (N.degree a) = 0 ∧
      Fp.kntRev rd (N.degree a) (N.len a) U (N.len a + (-N.degree a - 1)) = N.hi a := by
    intro U u0 u1
    have e : ∀ j, Fp.kntRev rd (N.degree a) (N.len a) U j = rd (N.hi a - U (N.len a - 1 - j)) := by
      intro j
      unfold Fp.kntRev
      rw [u1, u0, add_zero, hr.exact _ hFh]
    refine ⟨e, ?_, ?_⟩
    · rw [e, show N.len a - 1 - N.degree a = N.len a + (-N.degree a - 1) by ring, u1, sub_self, hr.exact 0 hr.zero]
    · rw [e, show N.len a - 1 - (N.len a + (-N.degree a - 1)) = N.degree a by ring, u0, sub_zero, hr.exact _ hFh]
  set N1 := N.reverse1F rd a with hN1
  set N2 := N1.reverse1F rd a with hN2
  set N3 := N2.reverse1F rd a with hN3
  have U1 : N1.U a = Fp.kntRev rd (N.degree a) (N.len a) (N.U a) := reverse1F_U rd N a
  have U2 : N2.U a = Fp.kntRev rd (N.degree a) (N.len a) (N1.U a) := reverse1F_U rd N1 a
  have U3 : N3.U a = Fp.kntRev rd (N.degree a) (N.len a) (N2.U a) := reverse1F_U rd N2 a
  obtain ⟨s1, s1l, s1h⟩ := step (N.U a) el eh'
  rw [← U1] at s1 s1l s1h
  obtain ⟨s2, s2l, s2h⟩ := step (N1.U a) s1l s1h
  rw [← U2] at s2 s2l s2h
  obtain ⟨s3, -, -⟩ := step (N2.U a) s2l s2h
  rw [← U3] at s3
  have hP : N2.P = N.P := by
    funext idx
    show N.P (Function.update (Function.update idx a (N.shape a - 1 - idx a)) a _) = _
    rw [Function.update_idem, Function.update_self]
    congr 1
    funext b
    by_cases hb : b = a
    · subst hb
      rw [Function.update_self]
      show N.shape b - 1 - (N1.shape b - 1 - idx b) = _
      have : N1.shape b = N.shape b := rfl
      rw [this]
      ring
    · rw [Function.update_of_ne hb]
  refine ⟨N1, N2, N3, reverseF_single rd N ha, reverseF_single rd N1 ha, reverseF_single rd N2 ha, rfl, hP, ?_, ?_, ?_⟩
  · funext idx
    show N2.P (Function.update idx a (N2.shape a - 1 - idx a)) = N.P (Function.update idx a (N.shape a - 1 - idx a))
    rw [hP]
    rfl
  · intro j j0 j1 hj
    rw [s2, s1, show N.len a - 1 - (N.len a - 1 - j) = j by ring]
    exact Fp.rev_twice hr hst hFh (hF j j0 j1) hj (hin j j0 j1).2
  · intro j j0 j1
    rw [s3, s2, s1, show N.len a - 1 - (N.len a - 1 - (N.len a - 1 - j)) = N.len a - 1 - j by ring, s1]
    have := hin (N.len a - 1 - j) (by omega) (by omega)
    exact Fp.rev_thrice hr hst hFh hh2 (hF _ (by omega) (by omega)) this.1 this.2

end reverse
end Igakit
