import Verif.Proofs.FloatRefine
import Verif.Props.FloatInsert
import Verif.Props.NrbAxis

/-! # From rounding errors along one axis to rounding errors of the object -/

set_option linter.unusedSectionVars false

namespace Igakit
open Spec

variable {K : Type} [Field K] [LinearOrder K] [IsStrictOrderedRing K] {d : ℕ}

/-- all control points of the machine object are numbers, and it is the object `N` -/
structure FNrb.Is (F : FNrb K d) (N : Nrb K d) : Prop where
  shape : F.shape = N.shape
  nc : F.nc = N.nc
  len : F.len = N.len
  U : F.U = N.U
  P : ∀ idx, (∀ a, 0 ≤ idx a ∧ idx a < N.shape a) → ∀ c, F.P idx c = some (N.P idx c)

namespace Nrb

theorem eval_ge {N : Nrb K d} (hv : N.Valid) {x : Fin d → K} (hx : N.InDom x) {c : ℕ} {l : K}
    (h : ∀ idx, (∀ a, 0 ≤ idx a ∧ idx a ≤ N.n a) → l ≤ N.P idx c) : l ≤ N.eval x c := by
  rw [eval_apply]
  calc l = ∑ idx ∈ Fintype.piFinset (fun a => Finset.Icc 0 (N.n a)), N.wt x idx * l := by
        rw [← Finset.sum_mul, wt_sum hv hx, one_mul]
    _ ≤ _ := by
      refine Finset.sum_le_sum fun idx hi => ?_
      have hi : ∀ a, 0 ≤ idx a ∧ idx a ≤ N.n a := fun a => Finset.mem_Icc.mp (Fintype.mem_piFinset.mp hi a)
      exact mul_le_mul_of_nonneg_left (h idx hi) (wt_nonneg hv hx hi)

/-- `N'` stands for the object `N`, up to `k` combinations of control points: same domain, degrees and components; the control points
are larger by at most `8 k` roundings of the largest old one, and so is the distance of the maps; positive components stay positive
and within their bounds, up to `3 k` roundings -/
structure NearMap (δ : K) (k : ℕ) (N N' : Nrb K d) : Prop where
  valid : N'.Valid
  nc : N'.nc = N.nc
  degree : ∀ a, N'.degree a = N.degree a
  lo : ∀ a, N'.lo a = N.lo a
  hi : ∀ a, N'.hi a = N.hi a
  size : ∀ c A, (∀ idx, (∀ a, 0 ≤ idx a ∧ idx a < N.shape a) → |N.P idx c| ≤ A) →
    ∀ idx, (∀ a, 0 ≤ idx a ∧ idx a < N'.shape a) → |N'.P idx c| ≤ growth δ ^ (8 * k) * A
  dist : ∀ c A, (∀ idx, (∀ a, 0 ≤ idx a ∧ idx a < N.shape a) → |N.P idx c| ≤ A) →
    ∀ x, N.InDom x → |N'.eval x c - N.eval x c| ≤ (growth δ ^ (8 * k) - 1) * A
  box : ∀ c l h, 0 < l → (∀ idx, (∀ a, 0 ≤ idx a ∧ idx a < N.shape a) → l ≤ N.P idx c ∧ N.P idx c ≤ h) →
    ∀ idx, (∀ a, 0 ≤ idx a ∧ idx a < N'.shape a) → l / growth δ ^ (3 * k) ≤ N'.P idx c ∧ N'.P idx c ≤ growth δ ^ (3 * k) * h

theorem NearMap.inDom {δ : K} {k : ℕ} {N N' : Nrb K d} (h : NearMap δ k N N') {x : Fin d → K} (hx : N.InDom x) : N'.InDom x :=
  fun a => by rw [h.lo, h.hi]; exact hx a

theorem NearMap.refl (δ : K) {N : Nrb K d} (hv : N.Valid) : NearMap δ 0 N N := by
  refine ⟨hv, rfl, fun _ => rfl, fun _ => rfl, fun _ => rfl, fun c A h idx hi => ?_, fun c A h x hx => ?_,
    fun c l h hl hb idx hi => ?_⟩
  · simpa using h idx hi
  · simp
  · simpa using hb idx hi

/-- errors of successive operations -/
theorem NearMap.trans {δ : K} (h0 : 0 ≤ δ) (hδ : δ < 1) {k m : ℕ} {N M L : Nrb K d} (h : NearMap δ k N M) (h' : NearMap δ m M L) :
    NearMap δ (k + m) N L := by
  refine ⟨h'.valid, h'.nc.trans h.nc, fun a => (h'.degree a).trans (h.degree a), fun a => (h'.lo a).trans (h.lo a),
    fun a => (h'.hi a).trans (h.hi a), fun c A hA idx hi => ?_, fun c A hA x hx => ?_, fun c l u hl hb idx hi => ?_⟩
  · calc _ ≤ growth δ ^ (8 * m) * (growth δ ^ (8 * k) * A) := h'.size c _ (h.size c A hA) idx hi
      _ = _ := by rw [mul_add, pow_add]; ring
  · calc |L.eval x c - N.eval x c| = |(L.eval x c - M.eval x c) + (M.eval x c - N.eval x c)| := by ring_nf
      _ ≤ |L.eval x c - M.eval x c| + |M.eval x c - N.eval x c| := abs_add_le _ _
      _ ≤ (growth δ ^ (8 * m) - 1) * (growth δ ^ (8 * k) * A) + (growth δ ^ (8 * k) - 1) * A :=
        add_le_add (h'.dist c _ (h.size c A hA) x (h.inDom hx)) (h.dist c A hA x hx)
      _ = _ := by rw [mul_add, pow_add]; ring
  · have hg : 0 < growth δ ^ (3 * k) := by linarith [Fp.growth_pow h0 hδ (3 * k)]
    obtain ⟨q1, q2⟩ := h'.box c _ _ (div_pos hl hg) (h.box c l u hl hb) idx hi
    rw [mul_add, pow_add]
    exact ⟨by rwa [div_div] at q1, by rw [mul_comm (growth δ ^ (3 * k)), mul_assoc]; exact q2⟩

/-- `N'` stands for the object `N`, or a part of it: the point `x` of the domain of `N'` corresponds to `φ x`.  The control points of
`N'` are larger than those of `N` by at most `8 k` roundings of the largest, and so is the distance of the maps; positive components
stay positive and within their bounds, up to `3 k` roundings. -/
structure NearOn {e : ℕ} (δ : K) (k : ℕ) (N : Nrb K d) (φ : (Fin e → K) → Fin d → K) (N' : Nrb K e) : Prop where
  valid : N'.Valid
  nc : N'.nc = N.nc
  dom : ∀ x, N'.InDom x → N.InDom (φ x)
  size : ∀ c A, (∀ idx, (∀ a, 0 ≤ idx a ∧ idx a < N.shape a) → |N.P idx c| ≤ A) →
    ∀ idx, (∀ a, 0 ≤ idx a ∧ idx a < N'.shape a) → |N'.P idx c| ≤ growth δ ^ (8 * k) * A
  dist : ∀ c A, (∀ idx, (∀ a, 0 ≤ idx a ∧ idx a < N.shape a) → |N.P idx c| ≤ A) →
    ∀ x, N'.InDom x → |N'.eval x c - N.eval (φ x) c| ≤ (growth δ ^ (8 * k) - 1) * A
  box : ∀ c l h, 0 < l → (∀ idx, (∀ a, 0 ≤ idx a ∧ idx a < N.shape a) → l ≤ N.P idx c ∧ N.P idx c ≤ h) →
    ∀ idx, (∀ a, 0 ≤ idx a ∧ idx a < N'.shape a) → l / growth δ ^ (3 * k) ≤ N'.P idx c ∧ N'.P idx c ≤ growth δ ^ (3 * k) * h

theorem NearMap.on {δ : K} {k : ℕ} {N N' : Nrb K d} (h : NearMap δ k N N') : NearOn δ k N id N' := by
  have hd : ∀ x, N'.InDom x → N.InDom x := fun x hx a => by rw [← h.lo, ← h.hi]; exact hx a
  exact ⟨h.valid, h.nc, hd, h.size, fun c A hA x hx => h.dist c A hA x (hd x hx), h.box⟩

theorem NearOn.trans {e g : ℕ} {δ : K} (h0 : 0 ≤ δ) (hδ : δ < 1) {k m : ℕ} {N : Nrb K d} {M : Nrb K e} {L : Nrb K g}
    {φ : (Fin e → K) → Fin d → K} {ψ : (Fin g → K) → Fin e → K} (h : NearOn δ k N φ M) (h' : NearOn δ m M ψ L) :
    NearOn δ (k + m) N (φ ∘ ψ) L := by
  refine ⟨h'.valid, h'.nc.trans h.nc, fun x hx => h.dom _ (h'.dom x hx), fun c A hA idx hi => ?_, fun c A hA x hx => ?_,
    fun c l u hl hb idx hi => ?_⟩
  · calc _ ≤ growth δ ^ (8 * m) * (growth δ ^ (8 * k) * A) := h'.size c _ (h.size c A hA) idx hi
      _ = _ := by rw [mul_add, pow_add]; ring
  · calc |L.eval x c - N.eval ((φ ∘ ψ) x) c| = |(L.eval x c - M.eval (ψ x) c) + (M.eval (ψ x) c - N.eval (φ (ψ x)) c)| := by
          rw [Function.comp_apply]; ring_nf
      _ ≤ |L.eval x c - M.eval (ψ x) c| + |M.eval (ψ x) c - N.eval (φ (ψ x)) c| := abs_add_le _ _
      _ ≤ (growth δ ^ (8 * m) - 1) * (growth δ ^ (8 * k) * A) + (growth δ ^ (8 * k) - 1) * A :=
        add_le_add (h'.dist c _ (h.size c A hA) x hx) (h.dist c A hA _ (h'.dom x hx))
      _ = _ := by rw [mul_add, pow_add]; ring
  · have hg : 0 < growth δ ^ (3 * k) := by linarith [Fp.growth_pow h0 hδ (3 * k)]
    obtain ⟨q1, q2⟩ := h'.box c _ _ (div_pos hl hg) (h.box c l u hl hb) idx hi
    rw [mul_add, pow_add]
    exact ⟨by rwa [div_div] at q1, by rw [mul_comm (growth δ ^ (3 * k)), mul_assoc]; exact q2⟩

/-- errors along one axis are errors of the object, or of the part over the domain of the new axis -/
theorem near_part {δ : K} (h0 : 0 ≤ δ) (hδ : δ < 1) {k : ℕ} {N : Nrb K (d + 1)} (hv : N.Valid) (a : Fin (d + 1)) {s l : ℤ} {p : ℕ}
    (hp : N.degree a = p) {V : ℤ → K} {Q : ℤ → (Fin d → ℤ) × ℕ → Fp K} {Q' : ℤ → (Fin d → ℤ) × ℕ → K}
    (hd : l - s - 1 = N.degree a) (hV : ValidKnots (s - 1) p V) (hlo : N.lo a ≤ V p) (hhi : V s ≤ N.hi a)
    (h : NearCurve δ k (N.n a) p (N.U a) (fun i c => N.row a i c.1 c.2) (s - 1) V Q Q') :
    (N.setAxisF a s l V Q).Is (N.setAxis a s l V (fun i o c => Q' i (o, c))) ∧
    NearOn δ k N id (N.setAxis a s l V (fun i o c => Q' i (o, c))) := by
  have hidx : ∀ idx : Fin (d + 1) → ℤ, (∀ b, 0 ≤ idx b ∧ idx b < (N.setAxis a s l V (fun i o c => Q' i (o, c))).shape b) →
      (0 ≤ idx a ∧ idx a ≤ s - 1) ∧ ∀ i, 0 ≤ i → i ≤ N.n a → ∀ b, 0 ≤ a.insertNth i (a.removeNth idx) b ∧
        a.insertNth i (a.removeNth idx) b < N.shape b := by
    intro idx hi
    constructor
    · have := hi a
      rw [setAxis_shape, Function.update_self] at this
      omega
    · intro i i0 i1 b
      refine Fin.succAboveCases a ?_ (fun j => ?_) b
      · rw [Fin.insertNth_apply_same]
        unfold n at i1
        omega
      · rw [Fin.insertNth_apply_succAbove]
        have := hi (a.succAbove j)
        rw [setAxis_shape, Function.update_of_ne (Fin.succAbove_ne a j)] at this
        exact this
  have hdom : ∀ x, (N.setAxis a s l V (fun i o c => Q' i (o, c))).InDom x → N.InDom x ∧ V p ≤ x a ∧ x a ≤ V s := by
    intro x hx
    have hxa := hx a
    rw [lo_eq, setAxis_degree_self, hd, setAxis_U_self, hp, hi_eq, setAxis_n_self, setAxis_U_self,
      show s - 1 + 1 = s by ring] at hxa
    refine ⟨fun b => ?_, hxa⟩
    by_cases hb : b = a
    · subst hb; exact ⟨hlo.trans hxa.1, hxa.2.trans hhi⟩
    · have := hx b
      rwa [setAxis_lo_ne _ _ _ _ _ _ hb, setAxis_hi_ne _ _ _ _ _ _ hb] at this
  refine ⟨⟨rfl, rfl, rfl, rfl, fun idx hi c => ?_⟩, ?_, rfl, fun x hx => (hdom x hx).1, fun c A hA idx hi => ?_,
    fun c A hA x hx' => ?_, fun c l' u hl hb idx hi => ?_⟩
  · exact h.num _ _ (hidx idx hi).1.1 (hidx idx hi).1.2
  · refine setAxis_valid _ _ _ _ _ _ (fun b _ => hv b) ?_
    rw [hd, hp]
    exact hV
  · exact h.size (a.removeNth idx, c) A (fun i i0 i1 => hA _ ((hidx idx hi).2 i i0 i1)) _ (hidx idx hi).1.1 (hidx idx hi).1.2
  · obtain ⟨hx, hx1, hx2⟩ := hdom x hx'
    rw [id, setAxis_eval, N.eval_split a]
    unfold tensor
    rw [Finset.sum_apply, Finset.sum_apply, ← Finset.sum_sub_distrib]
    set w : (Fin d → ℤ) → K := fun o => ∏ b, bsplineD (a.removeNth N.n b) (a.removeNth N.U b)
      (a.removeNth (fun b => (N.degree b).toNat) b) (o b) (a.removeNth x b) with hw
    have hax : ∀ b : Fin d, ValidKnots (N.n (a.succAbove b)) (((N.degree (a.succAbove b)).toNat : ℕ) : ℤ)
        (N.U (a.succAbove b)) ∧ N.U (a.succAbove b) (((N.degree (a.succAbove b)).toNat : ℕ) : ℤ) ≤ x (a.succAbove b) ∧
        x (a.succAbove b) ≤ N.U (a.succAbove b) (N.n (a.succAbove b) + 1) := by
      intro b
      rw [hv.degNat, ← Nrb.hi_eq]
      exact ⟨hv _, hx _⟩
    have hw0 : ∀ o ∈ Fintype.piFinset (fun b => Finset.Icc 0 (a.removeNth N.n b)), 0 ≤ w o := by
      intro o ho
      rw [Fintype.mem_piFinset] at ho
      refine Finset.prod_nonneg fun b _ => ?_
      have hb := Finset.mem_Icc.mp (ho b)
      obtain ⟨k1, k2, k3⟩ := hax b
      exact bsplineD_nonneg k1 k2 k3 hb.1 hb.2
    have hw1 : ∑ o ∈ Fintype.piFinset (fun b => Finset.Icc 0 (a.removeNth N.n b)), w o = 1 := by
      rw [hw, ← Finset.prod_univ_sum (fun b => Finset.Icc 0 (a.removeNth N.n b))
        (fun b i => bsplineD (a.removeNth N.n b) (a.removeNth N.U b) (a.removeNth (fun b => (N.degree b).toNat) b) i
          (a.removeNth x b))]
      refine Finset.prod_eq_one fun b _ => ?_
      obtain ⟨k1, k2, k3⟩ := hax b
      exact bsplineD_sum_one k1 k2 k3
    refine (Finset.abs_sum_le_sum_abs _ _).trans ?_
    calc _ ≤ ∑ o ∈ Fintype.piFinset (fun b => Finset.Icc 0 (a.removeNth N.n b)), w o * ((growth δ ^ (8 * k) - 1) * A) := by
          refine Finset.sum_le_sum fun o ho => ?_
          rw [Pi.smul_apply, Pi.smul_apply, ← smul_sub, smul_eq_mul, abs_mul, abs_of_nonneg (hw0 o ho)]
          refine mul_le_mul_of_nonneg_left ?_ (hw0 o ho)
          rw [Fintype.mem_piFinset] at ho
          have key := h.dist (o, c) A (fun i i0 i1 => hA _ (fun b => by
            refine Fin.succAboveCases a ?_ (fun j => ?_) b
            · rw [Fin.insertNth_apply_same]
              unfold n at i1
              omega
            · rw [Fin.insertNth_apply_succAbove]
              have hb := Finset.mem_Icc.mp (ho j)
              have : a.removeNth N.n j = N.shape (a.succAbove j) - 1 := rfl
              dsimp only
              omega)) (x a) hx1 (by rw [show s - 1 + 1 = s by ring]; exact hx2)
          rw [hd, hp, Int.toNat_natCast]
          have e : ∀ (n' : ℤ) (V' : ℤ → K) (R : ℤ → (Fin d → ℤ) → ℕ → K) (u : K), curve n' p V' R u o c =
              curve n' p V' (fun i => R i o c) u := by
            intro n' V' R u
            unfold curve
            rw [Finset.sum_apply, Finset.sum_apply]
            rfl
          rw [e, e]
          exact key
      _ = _ := by rw [← Finset.sum_mul, hw1, one_mul]
  · exact h.box (a.removeNth idx, c) l' u hl (fun i i0 i1 => hb _ ((hidx idx hi).2 i i0 i1)) _ (hidx idx hi).1.1
      (hidx idx hi).1.2

/-- errors along one axis are errors of the object -/
theorem near_setAxis {δ : K} (h0 : 0 ≤ δ) (hδ : δ < 1) {k : ℕ} {N : Nrb K (d + 1)} (hv : N.Valid) (a : Fin (d + 1)) {s l : ℤ} {p : ℕ}
    (hp : N.degree a = p) {V : ℤ → K} {Q : ℤ → (Fin d → ℤ) × ℕ → Fp K} {Q' : ℤ → (Fin d → ℤ) × ℕ → K}
    (hd : l - s - 1 = N.degree a) (hV : ValidKnots (s - 1) p V) (hlo : V p = N.lo a) (hhi : V s = N.hi a)
    (h : NearCurve δ k (N.n a) p (N.U a) (fun i c => N.row a i c.1 c.2) (s - 1) V Q Q') :
    (N.setAxisF a s l V Q).Is (N.setAxis a s l V (fun i o c => Q' i (o, c))) ∧
    NearMap δ k N (N.setAxis a s l V (fun i o c => Q' i (o, c))) := by
  obtain ⟨h1, h2⟩ := near_part h0 hδ hv a hp hd hV hlo.ge hhi.le h
  have hl : ∀ b, (N.setAxis a s l V (fun i o c => Q' i (o, c))).lo b = N.lo b := by
    intro b
    by_cases hb : b = a
    · subst hb; rw [lo_eq, setAxis_degree_self, hd, setAxis_U_self, hp, hlo]
    · exact setAxis_lo_ne _ _ _ _ _ _ hb
  have hh : ∀ b, (N.setAxis a s l V (fun i o c => Q' i (o, c))).hi b = N.hi b := by
    intro b
    by_cases hb : b = a
    · subst hb; rw [hi_eq, setAxis_n_self, setAxis_U_self, ← hhi]; congr 1; ring
    · exact setAxis_hi_ne _ _ _ _ _ _ hb
  refine ⟨h1, h2.valid, rfl, fun b => ?_, hl, hh, h2.size, fun c A hA x hx => h2.dist c A hA x (fun b => ?_), h2.box⟩
  · by_cases hb : b = a
    · subst hb; rw [setAxis_degree_self, hd]
    · exact setAxis_degree_ne _ _ _ _ _ _ hb
  · rw [hl, hh]
    exact hx b

end Nrb
end Igakit
