import Verif.Proofs.CadRefine

/-!
# C40: `cad.refine`
-/

set_option linter.unusedSectionVars false

namespace Igakit
open Spec

section Steps
variable {K : Type} [Field K] [LinearOrder K] [IsStrictOrderedRing K] {d : ℕ}

/-! ## clamping -/

/-- what `clamp` on both sides does to an axis -/
structure Ax.Clamps (A A' : Ax K) : Prop where
  n : A'.n = A.n
  degree : A'.degree = A.degree
  lo : A'.lo = A.lo
  hi : A'.hi = A.hi
  left : ClampedL A'.degree A'.U
  right : ClampedR A'.n A'.degree A'.U
  inner : ∀ j, A.degree ≤ j → j ≤ A.n + 1 → A'.U j = A.U j
  mult : ∀ x, A.lo < x → x < A.hi → A'.mult x = A.mult x

theorem clamp_both {eps : K} (heps : 0 < eps) (je : ℤ → (Fin d → ℤ) → ℕ → K) {N : Nrb K (d + 1)} {a : Fin (d + 1)}
    (hv : N.Valid) (hsep : N.SepBoth eps a) :
    ∃ X, N.clamp eps je (a : ℤ) none = .ok X ∧ X.Valid ∧ N.AffineOf X ∧ (∀ b, b ≠ a → X.axis b = N.axis b) ∧
      (N.axis a).Clamps (X.axis a) := by
  obtain ⟨X, h1, h2, h3, h4, h5, h6, h7, h8⟩ := C13_clamp heps je hv (normAxis_self a)
    (side := none) (by simp) hsep
  have hp := (hv a).one_le
  have hn := (hv a).le
  have hl : N.len a = N.n a + N.degree a + 2 := (N.axis a).len_eq
  have es : N.shape a = N.n a + 1 := by unfold Nrb.n; ring
  have hXn : X.n a = N.n a := by unfold Nrb.n; rw [h4]
  have hXl : X.len a = N.len a := by
    have : X.len a = X.n a + X.degree a + 2 := (X.axis a).len_eq
    rw [hXn, h3.degree] at this
    omega
  have s0 : selects (none : Option ℤ) 0 := by simp [selects]
  have s1 : selects (none : Option ℤ) 1 := by simp [selects]
  have g5 := h5 s0
  have g6 := h6 s1
  have g7 : ∀ j, N.degree a ≤ j → j ≤ N.n a + 1 → X.U a j = N.U a j :=
    fun j j0 j1 => h7 j (Or.inr j0) (Or.inr (by omega))
  have hlo : N.U a (N.degree a) = N.lo a := (N.lo_eq a).symm
  have hhi : N.U a (N.n a + 1) = N.hi a := (N.hi_eq a).symm
  have hsort := (hv a).sorted
  refine ⟨X, h1, h2, .of_same hv h3.nc h3.lo h3.hi h3.eval, fun b hb => axis_ext (by rw [h4]) (h3.degree b) (h8 b hb),
    hXn, h3.degree a, h3.lo a, by rw [axis_hi, axis_hi]; exact h3.hi a, ?_, ?_, g7, ?_⟩
  · intro j j0 j1
    show X.U a j = X.U a (X.degree a)
    have j1 : j ≤ X.degree a := j1
    rw [h3.degree] at j1 ⊢
    rw [g5 j j0 j1, g5 _ (by omega) le_rfl]
  · intro j j0 j1
    show X.U a j = X.U a (X.n a + 1)
    have j0 : X.n a + 1 ≤ j := j0
    have j1 : j ≤ X.n a + X.degree a + 1 := j1
    rw [h3.degree] at j1
    rw [hXn] at j0 j1 ⊢
    rw [g6 j (by omega) (by omega), g6 _ (by omega) (by omega)]
  · intro x x0 x1
    rw [axis_lo] at x0
    rw [axis_hi] at x1
    show Spec.mult (X.U a) 0 (X.len a - 1) x = Spec.mult (N.U a) 0 (N.len a - 1) x
    rw [hXl]
    unfold Spec.mult
    congr 1
    ext j
    simp only [Finset.mem_filter, Finset.mem_Icc]
    refine and_congr_right (fun hj => ?_)
    by_cases c1 : N.degree a ≤ j
    · by_cases c2 : j ≤ N.n a + 1
      · rw [g7 j c1 c2]
      · rw [g6 j (by omega) (by omega)]
        refine iff_of_false x1.ne' (fun e => ?_)
        have := hsort (N.n a + 1) j (by omega) (by omega) (by omega)
        rw [hhi, e] at this
        exact absurd x1 (not_lt.mpr this)
    · rw [g5 j (by omega) (by omega)]
      refine iff_of_false x0.ne (fun e => ?_)
      have := hsort j (N.degree a) (by omega) (by omega) (by omega)
      rw [hlo, e] at this
      exact absurd x0 (not_lt.mpr this)

/-! ## breaks -/

theorem breaks_apart {eps : K} {l : List K} {f : ℕ → ℤ} (heps : 0 < eps) (hl : l.Pairwise (· < ·))
    (hg : ∀ (i : ℕ) (y z : K), l[i]? = some y → l[i + 1]? = some z → 0 < f i ∧ eps < (z - y) / f i)
    {y z : K} (hy : y ∈ l) (hz : z ∈ l) (hyz : y < z) : y + eps < z := by
  obtain ⟨i, hi, rfl⟩ := List.mem_iff_getElem.mp hy
  obtain ⟨j, hj, rfl⟩ := List.mem_iff_getElem.mp hz
  have hij : i < j := by
    by_contra hc
    have := getD_mono hl (show j ≤ i by omega) hi
    rw [getD_of_lt hi, getD_of_lt hj] at this
    exact absurd hyz (not_lt.mpr this)
  have h1 : l[i + 1] ≤ l[j] := by
    have := getD_mono hl (show i + 1 ≤ j by omega) hj
    rwa [getD_of_lt hj, getD_of_lt (by omega : i + 1 < l.length)] at this
  obtain ⟨h2, h3⟩ := hg i _ _ (List.getElem?_eq_getElem hi) (List.getElem?_eq_getElem (by omega : i + 1 < l.length))
  have hn : (1 : K) ≤ f i := by exact_mod_cast h2
  rw [lt_div_iff₀ (by linarith)] at h3
  nlinarith

/-- the breaks of a clamped axis are its distinct knots -/
theorem clamped_breaks {A : Ax K} (hv : A.Valid) (hl : ClampedL A.degree A.U) (hr : ClampedR A.n A.degree A.U) (x : K) :
    (∃ k, A.degree ≤ k ∧ k ≤ A.n + 1 ∧ A.U k = x) ↔ 0 < A.mult x := by
  have hp := hv.one_le
  have hn := hv.le
  have hlen := A.len_eq
  rw [Ax.mult_pos]
  constructor
  · rintro ⟨k, k0, k1, e⟩
    exact ⟨k, by omega, by omega, e⟩
  · rintro ⟨k, k0, k1, e⟩
    by_cases c1 : A.degree ≤ k
    · by_cases c2 : k ≤ A.n + 1
      · exact ⟨k, c1, c2, e⟩
      · exact ⟨A.n + 1, by omega, le_rfl, by rw [← hr k (by omega) (by omega)]; exact e⟩
    · exact ⟨A.degree, le_rfl, by omega, by rw [← hl k (by omega) (by omega)]; exact e⟩

theorem Ax.Clamps.elev {A A' : Ax K} (hc : A.Clamps A') (hv : A.Valid) {eps : K} (heps : 0 < eps) {l : List K} {f : ℕ → ℤ}
    {t : ℕ} (hl : l.Pairwise (· < ·)) (hm : ∀ x, x ∈ l ↔ ∃ k, A.degree ≤ k ∧ k ≤ A.n + 1 ∧ A.U k = x)
    (hg : ∀ (i : ℕ) (y z : K), l[i]? = some y → l[i + 1]? = some z → 0 < f i ∧ eps < (z - y) / f i)
    (hmul : MultLe A.n A.degree A.U) (hj : 1 ≤ t → A.degree ≤ 9 ∨ NoJump A.n A.degree t A.U) : A'.Elev eps t := by
  have hp := hv.one_le
  have hn := hv.le
  have e1 : A'.U A'.degree = A.lo := hc.lo
  have e2 : A'.U (A'.n + 1) = A.hi := hc.hi
  have em : ∀ x, A.lo < x → x < A.hi → Spec.mult A'.U 0 (A'.n + A'.degree + 1) x =
      Spec.mult A.U 0 (A.n + A.degree + 1) x := by
    intro x x0 x1
    rw [← A'.mult_eq, ← A.mult_eq, hc.mult x x0 x1]
  refine ⟨hc.left, hc.right, ?_, ?_, fun ht => ?_⟩
  · intro x x0 x1
    rw [e1] at x0
    rw [e2] at x1
    rw [em x x0 x1, hc.degree]
    exact hmul x x0 x1
  · intro k k0 k1 hk
    rw [hc.degree] at k0
    rw [hc.n] at k1
    rw [hc.inner k k0 (by omega), hc.inner (k + 1) (by omega) (by omega)] at hk ⊢
    have := breaks_apart heps hl hg ((hm _).mpr ⟨k, k0, by omega, rfl⟩) ((hm _).mpr ⟨k + 1, by omega, by omega, rfl⟩) hk
    linarith
  · rw [hc.degree]
    rcases hj ht with h | h
    · exact Or.inl h
    · right
      intro x y hxy
      have x0 := hxy.lo
      have y1 := hxy.hi
      have ex : A'.U A.degree = A.lo := by rw [← hc.degree]; exact e1
      rw [ex] at x0
      rw [e2] at y1
      have x1 := hxy.lt.trans y1
      have y0 := x0.trans hxy.lt
      have em' : ∀ x, A.lo < x → x < A.hi → Spec.mult A'.U 0 (A'.n + A.degree + 1) x =
          Spec.mult A.U 0 (A.n + A.degree + 1) x := by
        intro x x0 x1
        have := em x x0 x1
        rwa [hc.degree] at this
      have h1 := hxy.left
      have h2 := hxy.right
      rw [em' x x0 x1] at h1 ⊢
      rw [em' y y0 y1] at h2 ⊢
      exact h x y ⟨x0, hxy.lt, y1, h1, h2, fun z z0 z1 => by
        rw [← em' z (x0.trans z0) (z1.trans y1)]; exact hxy.none z z0 z1⟩

/-! ## degree elevation -/

theorem refineDegree_step {eps : K} (heps : 0 ≤ eps) (M : Cad.RefMem K d) (q : Fin (d + 1) → ℤ) (X : Nrb K (d + 1))
    (a : Fin (d + 1)) (hv : X.Valid) (hE : (X.axis a).Elev eps (q a - X.degree a).toNat) :
    ∃ X', Cad.refineDegree eps M q X a = .ok X' ∧ X'.Valid ∧ X.AffineOf X' ∧ (∀ b, b ≠ a → X'.axis b = X.axis b) ∧
      (X.axis a).Raised (X'.axis a) (q a - X.degree a).toNat := by
  obtain ⟨X', h1, h2⟩ := elevate_step heps (M.elevate a) _ X a hv hE
  refine ⟨X', ?_, h2⟩
  unfold Cad.refineDegree
  dsimp only
  split_ifs with ht
  · rw [Int.toNat_of_nonneg (by omega)] at h1
    exact h1
  · rw [← h1, show (q a - X.degree a).toNat = 0 by omega]
    exact ((C16_elevate_trivial eps (M.elevate a).k (M.elevate a).e (M.elevate a).b X _).2.1).symm

/-! ## knot insertion -/

theorem refine_breaks {eps : K} (heps : 0 < eps) {l : List K} {f : ℕ → ℤ} {X : Nrb K (d + 1)} {a : Fin (d + 1)}
    (hv : X.Valid) (hL : ClampedL (X.degree a) (X.U a)) (hR : ClampedR (X.n a) (X.degree a) (X.U a))
    (hlt : l.Pairwise (· < ·)) (hmem : ∀ x, x ∈ l ↔ 0 < (X.axis a).mult x)
    (hg : ∀ (i : ℕ) (y z : K), l[i]? = some y → l[i + 1]? = some z → 0 < f i ∧ eps < (z - y) / f i) :
    X.breakMults eps (a : ℤ) = .ok (l, l.map (breakMult X a)) := by
  have hsep : ∀ u, 0 < (X.axis a).mult u → X.Sep eps a u := by
    intro u hu
    rw [sep_axis]
    intro x hx
    rcases lt_trichotomy x u with h | h | h
    · right
      have := breaks_apart heps hlt hg ((hmem _).mpr hx) ((hmem _).mpr hu) h
      exact le_trans (by linarith) (le_abs_self _)
    · exact Or.inl h
    · right
      have := breaks_apart heps hlt hg ((hmem _).mpr hu) ((hmem _).mpr hx) h
      rw [abs_sub_comm]
      exact le_trans (by linarith) (le_abs_self _)
  have hp := (hv a).one_le
  have hn := (hv a).le
  have hlen : (X.axis a).len = X.n a + X.degree a + 2 := (X.axis a).len_eq
  have hlo : X.Sep eps a (X.lo a) := hsep _ (Ax.mult_pos.mpr ⟨X.degree a, by omega, by omega, (X.lo_eq a).symm⟩)
  have hhi : X.Sep eps a (X.hi a) := hsep _ (Ax.mult_pos.mpr ⟨X.n a + 1, by omega, by omega, (X.hi_eq a).symm⟩)
  obtain ⟨l', b1, b2⟩ := C32_breaks_mults heps hv (normAxis_self a) hlo hhi
  obtain ⟨l'', c1, c2, c3⟩ := C32_breaks X (normAxis_self a)
  obtain rfl : l' = l'' := Except.ok.inj (b1.symm.trans c1)
  obtain rfl : l' = l := by
    refine List.Pairwise.eq_of_mem_iff c2 hlt (fun x => ?_)
    rw [hmem, ← clamped_breaks (A := X.axis a) (hv a) hL hR]
    exact c3 x
  exact b2

theorem refineKnots_step {eps : K} (heps : 0 < eps) (M : Cad.RefMem K d) {F : Fin (d + 1) → Factor} {C : Fin (d + 1) → ℤ}
    {l : Fin (d + 1) → List K} {f : Fin (d + 1) → ℕ → ℤ} (X : Nrb K (d + 1)) (a : Fin (d + 1)) (hv : X.Valid)
    (hD : (X.axis a).Dividable eps (l a) (F a) (f a) (C a)) :
    ∃ X', Cad.refineKnots eps M F C X a = .ok X' ∧ X'.Valid ∧ X.AffineOf X' ∧ (∀ b, b ≠ a → X'.axis b = X.axis b) ∧
      (X.axis a).Divided (X'.axis a) (l a) (f a) (C a) := by
  have b2 := refine_breaks heps hv hD.left hD.right hD.lt hD.mem hD.parts
  have hs : ∀ i, i < (l a).length → (X.axis a).lo < (l a).getD i 0 → (l a).getD i 0 < (X.axis a).hi →
      ((l a).map (breakMult X a)).getD i 0 = (X.axis a).mult ((l a).getD i 0) := by
    intro i hi h1 h2
    rw [axis_hi] at h2
    rw [getD_of_lt hi] at h1 h2 ⊢
    rw [List.getD_eq_getElem?_getD, List.getElem?_map, List.getElem?_eq_getElem hi, Option.map_some, Option.getD_some]
    unfold breakMult
    rw [if_pos ⟨h1, h2⟩]
    rfl
  obtain ⟨X', g1, g2, g3, g4, g5⟩ := refine_step heps (M.refine a) _ X a hv (hD.refinable (A := X.axis a) heps (hv a) hs)
  refine ⟨X', ?_, g2, g3, g4, hD.divided (A := X.axis a) heps (hv a) hs g5⟩
  unfold Cad.refineKnots
  rw [b2, res_ok_bind, pyAssert_ok (Factor.fits hD.fit), res_ok_bind]
  exact g1

end Steps

section Main
variable {K : Type} [Field K] [LinearOrder K] [IsStrictOrderedRing K] {d : ℕ}

/-- clamping all axes -/
theorem clampAll {eps : K} (heps : 0 < eps) (M : Cad.RefMem K d) {N : Nrb K (d + 1)} (hv : N.Valid)
    (hsep : ∀ a, N.SepBoth eps a) :
    ∃ X, (List.finRange (d + 1)).foldlM (fun X (a : Fin (d + 1)) => X.clamp eps (M.clamp a) (a : ℤ) none) N = .ok X ∧
      X.Valid ∧ N.AffineOf X ∧ ∀ a, (N.axis a).Clamps (X.axis a) := by
  obtain ⟨X, h1, h2, h3, _, h5⟩ := fold_axes (R := Nrb.AffineOf)
    (step := fun X (a : Fin (d + 1)) => X.clamp eps (M.clamp a) (a : ℤ) none)
    (Pre := fun a A => A = N.axis a) (Post := fun _ A A' => A.Clamps A')
    (fun N hv => .refl hv) (fun N N' N'' v v' v'' => .trans v v' v'')
    (fun X a v e => clamp_both heps (M.clamp a) v (sepBoth_axis e (hsep a))) _ (List.nodup_finRange _) N hv
    (fun _ _ => rfl)
  exact ⟨X, h1, h2, h3, fun a => h5 a (List.mem_finRange a)⟩

/-- the object before knots are inserted -/
structure Nrb.RaisedTo (N Y : Nrb K (d + 1)) (p : Fin (d + 1) → ℤ) : Prop where
  valid : Y.Valid
  affine : N.AffineOf Y
  degree : ∀ a, Y.degree a = p a
  lo : ∀ a, (Y.axis a).lo = N.lo a
  hi : ∀ a, (Y.axis a).hi = N.hi a
  left : ∀ a, ClampedL (Y.degree a) (Y.U a)
  right : ∀ a, ClampedR (Y.n a) (Y.degree a) (Y.U a)
  mult : ∀ a x, N.lo a < x → x < N.hi a →
    (Y.multOf a x : ℤ) = if N.multOf a x = 0 then 0 else N.multOf a x + (p a - N.degree a)
  breaks : ∀ a x, (∃ k, N.degree a ≤ k ∧ k ≤ N.n a + 1 ∧ N.U a k = x) ↔ 0 < (Y.axis a).mult x

/-- clamping and degree elevation -/
theorem refine_prepared {eps : K} (heps : 0 < eps) (M : Cad.RefMem K d) {N : Nrb K (d + 1)} (hv : N.Valid)
    {q : Fin (d + 1) → ℤ} {l : Fin (d + 1) → List K} (hl : ∀ a, N.Breaks a (l a)) {f : Fin (d + 1) → ℕ → ℤ}
    {p : Fin (d + 1) → ℤ} (hp : ∀ a, p a = max (q a) (N.degree a))
    (hR : ∀ a, N.CanRefine eps a (l a) (f a) (p a - N.degree a).toNat) :
    ∃ X Y, (List.finRange (d + 1)).foldlM (fun X (a : Fin (d + 1)) => X.clamp eps (M.clamp a) (a : ℤ) none) N = .ok X ∧
      (∀ a, X.degree a = N.degree a) ∧ (List.finRange (d + 1)).foldlM (Cad.refineDegree eps M q) X = .ok Y ∧
      N.RaisedTo Y p := by
  -- clamping
  obtain ⟨X, x1, x2, x3, x4⟩ := clampAll heps M hv (fun a => ⟨(hR a).lo, (hR a).hi⟩)
  have hXd : ∀ a, X.degree a = N.degree a := fun a => (x4 a).degree
  have ht : ∀ a, (q a - X.degree a).toNat = (p a - N.degree a).toNat := by
    intro a; rw [hXd, hp]; omega
  have hE : ∀ a, (X.axis a).Elev eps (q a - X.degree a).toNat := by
    intro a
    rw [ht]
    exact (x4 a).elev (A := N.axis a) (hv a) heps (hl a).lt (hl a).mem (hR a).parts (hR a).mult (hR a).jump
  -- degrees
  obtain ⟨Y, y1, y2, y3, _, y5⟩ := fold_axes (R := Nrb.AffineOf) (step := Cad.refineDegree eps M q)
    (Pre := fun a A => A = X.axis a) (Post := fun a A A' => A.Raised A' (q a - A.degree).toNat)
    (fun N hv => .refl hv) (fun N N' N'' v v' v'' => .trans v v' v'')
    (fun Z a v e => by
      have : Z.degree a = X.degree a := by rw [← axis_degree, e, axis_degree]
      refine refineDegree_step heps.le M q Z a v ?_
      rw [e, this]
      exact hE a) _ (List.nodup_finRange _) X x2 (fun _ _ => rfl)
  have hY : ∀ a, (X.axis a).Raised (Y.axis a) (p a - N.degree a).toNat := by
    intro a
    have := y5 a (List.mem_finRange a)
    rw [axis_degree, ht] at this
    exact this
  have hYd : ∀ a, Y.degree a = p a := by
    intro a
    have h1 : Y.degree a = X.degree a + _ := (hY a).degree
    have h2 := hp a
    rw [h1, hXd]
    omega
  refine ⟨X, Y, x1, hXd, y1, y2, x3.trans hv x2 y2 y3, hYd, fun a => ?_, fun a => ?_, fun a => (hY a).left,
    fun a => (hY a).right, fun a x h0 h1 => ?_, fun a x => ?_⟩
  · rw [(hY a).lo, (x4 a).lo, axis_lo]
  · rw [(hY a).hi, (x4 a).hi, axis_hi]
  · rw [← axis_mult Y, (hY a).mult, (x4 a).mult x h0 (by rw [axis_hi]; exact h1), axis_mult N]
    have := hp a
    split_ifs
    · rfl
    · push_cast; omega
  · have hpos : 0 < (Y.axis a).mult x ↔ 0 < (X.axis a).mult x := by
      rw [(hY a).mult]
      split_ifs <;> omega
    rw [hpos, ← clamped_breaks (A := X.axis a) (x2 a) (x4 a).left (x4 a).right, (x4 a).degree, (x4 a).n]
    constructor
    · rintro ⟨k, k0, k1, e⟩
      exact ⟨k, k0, k1, by rw [(x4 a).inner k k0 k1]; exact e⟩
    · rintro ⟨k, k0, k1, e⟩
      exact ⟨k, k0, k1, by rw [(x4 a).inner k k0 k1] at e; exact e⟩

/-- the condition for inserting the knots -/
theorem Nrb.RaisedTo.dividable {N Y : Nrb K (d + 1)} {p : Fin (d + 1) → ℤ} (h : N.RaisedTo Y p) {eps : K} {a : Fin (d + 1)}
    {l : List K} (hl : N.Breaks a l) {f : ℕ → ℤ} {F : Factor} (hf : F.Gives (l.length - 1) f) {t : ℕ}
    (hpd : N.degree a ≤ p a) (hv : N.Valid) (hR : N.CanRefine eps a l f t) {C : ℤ} (hC0 : 0 ≤ C) (hC1 : C < p a) :
    (Y.axis a).Dividable eps l F f C := by
  refine ⟨h.left a, h.right a, fun x h0 h1 => ?_, hl.lt, fun x => ?_, hf, hR.parts, hC0, ?_⟩
  · rw [h.lo] at h0
    rw [h.hi] at h1
    have h2 := hR.mult x h0 (by rw [← Nrb.hi_eq]; exact h1)
    rw [← Nrb.multOf_eq] at h2
    have h3 := h.mult a x h0 h1
    have := (hv a).one_le
    rw [axis_mult, axis_degree, h.degree, h3]
    split_ifs <;> omega
  · rw [hl.mem, h.breaks]
  · rw [axis_degree, h.degree]; exact hC1

/-- C40 (partial: degrees above 9 are raised only under the condition `NoJump`, see C16): `cad.refine(nrb, factor, degree,
continuity)` inserts equally spaced knots into each element and raises the multiplicities of the old interior knots to at
least `p - C`; the object is clamped and its map is the same.  `F`, `q`, `c` are the values of the arguments for each axis. -/
theorem C40_refine_partial {eps : K} (heps : 0 < eps) (M : Cad.RefMem K d) {N : Nrb K (d + 1)} (hv : N.Valid)
    {factor : PyArg Factor} {degree continuity : PyArg ℤ} {F : Fin (d + 1) → Factor} {q c : Fin (d + 1) → ℤ}
    (hF : factor.Gives (fun _ => .all 1) F) (hq : degree.Gives N.degree q) (hc : continuity.Gives (fun _ => -1) c)
    {l : Fin (d + 1) → List K} (hl : ∀ a, N.Breaks a (l a)) {f : Fin (d + 1) → ℕ → ℤ}
    (hf : ∀ a, (F a).Gives ((l a).length - 1) (f a)) {p C : Fin (d + 1) → ℤ} (hq0 : ∀ a, 0 < q a)
    (hp : ∀ a, p a = max (q a) (N.degree a)) (hC : ∀ a, (0 ≤ c a ∧ C a = c a) ∨ (c a < 0 ∧ C a = p a + c a))
    (hC0 : ∀ a, 0 ≤ C a) (hC1 : ∀ a, C a < p a)
    (hR : ∀ a, N.CanRefine eps a (l a) (f a) (p a - N.degree a).toNat) :
    ∃ R, Cad.refine eps M N factor degree continuity = .ok R ∧ R.Valid ∧ N.RefinedTo R l f p C := by
  obtain ⟨X, Y, x1, hXd, y1, hY⟩ := refine_prepared heps M hv hl hp hR
  have hYd := hY.degree
  have hpd : ∀ a, N.degree a ≤ p a := fun a => by rw [hp]; exact le_max_right _ _
  have hD : ∀ a, (Y.axis a).Dividable eps (l a) (F a) (f a) (C a) :=
    fun a => hY.dividable (hl a) (hf a) (hpd a) hv (hR a) (hC0 a) (hC1 a)
  obtain ⟨R, r1, r2, r3, _, r5⟩ := fold_axes (R := Nrb.AffineOf) (step := Cad.refineKnots eps M F C)
    (Pre := fun a A => A = Y.axis a) (Post := fun a A A' => A.Divided A' (l a) (f a) (C a))
    (fun N hv => .refl hv) (fun N N' N'' v v' v'' => .trans v v' v'')
    (fun Z a v e => by
      refine refineKnots_step heps M Z a v ?_
      rw [e]
      exact hD a) _ (List.nodup_finRange _) Y hY.valid (fun _ _ => rfl)
  have r6 := fun a => r5 a (List.mem_finRange a)
  have hlo : ∀ a, R.lo a = N.lo a := by
    intro a
    rw [← axis_lo, (r6 a).lo, hY.lo]
  have hhi : ∀ a, R.hi a = N.hi a := by
    intro a
    rw [← axis_hi, (r6 a).hi, hY.hi]
  have hpos : ∀ a, 0 < (l a).length - 1 := fun a => by have := ((hD a).ends (A := Y.axis a) (hY.valid a)).1; omega
  have hpar : ∀ a i, i < (l a).length - 1 → 0 < f a i := by
    intro a i hi
    exact ((hR a).parts i _ _ (List.getElem?_eq_getElem (by omega)) (List.getElem?_eq_getElem (by omega))).1
  refine ⟨R, ?_, r2, ?_⟩
  · unfold Cad.refine
    dsimp only
    have hq' : degree.Gives (fun a => X.degree a) q := by
      rw [show (fun a => X.degree a) = N.degree from funext hXd]; exact hq
    have hCe : (fun a => if c a < 0 then c a + Y.degree a else c a) = C := by
      funext a
      rcases hC a with ⟨h1, h2⟩ | ⟨h1, h2⟩
      · rw [if_neg (by omega), h2]
      · rw [if_pos h1, h2, hYd]; ring
    rw [x1, res_ok_bind, arg_ok hq', res_ok_bind, pyAssert_ok hq0, res_ok_bind, y1, res_ok_bind, arg_ok hF, res_ok_bind,
      pyAssert_ok (fun a => Factor.pos (hf a) (hpos a) (hpar a)), res_ok_bind, arg_ok hc, res_ok_bind,
      pyAssert_ok (fun a => by rw [congrFun hCe a]; exact hC0 a), res_ok_bind,
      pyAssert_ok (fun a => by rw [congrFun hCe a, hYd]; exact hC1 a), res_ok_bind, hCe]
    exact r1
  · have hA : N.AffineOf R := hY.affine.trans hv hY.valid r2 r3
    refine ⟨hA.nc, hlo, hhi, fun x hx => ?_, fun a => ?_, fun a => (r6 a).left, fun a => (r6 a).right,
      fun a x h0 h1 hm => ?_, fun a x hx => ?_, fun a x h0 h1 hm hx => ?_⟩
    · rw [hA.eval x (fun b => by rw [hlo, hhi]; exact hx b)]
      congr 1
      funext b
      rw [hlo, hhi, affMap_id (Nrb.lo_lt_hi hv b)]
    · rw [← hYd a]; exact (r6 a).degree
    · have e1 := hY.mult a x h0 h1
      rw [if_neg (by omega)] at e1
      have := hpd a
      have e2 := (r6 a).old x (by rw [hY.lo]; exact h0) (by rw [hY.hi]; exact h1) (by rw [axis_mult]; omega)
      rw [axis_mult R, axis_mult Y, e1, axis_degree, hYd] at e2
      exact e2
    · have := (r6 a).new x hx
      rw [axis_degree, hYd] at this
      exact this
    · have e1 := hY.mult a x h0 h1
      rw [if_pos hm] at e1
      exact (r6 a).none x (by exact_mod_cast e1) hx

/-! ## rejected arguments -/

theorem arg_cases {α : Type} (x : PyArg α) (dflt : Fin (d + 1) → α) :
    (∃ v, Cad.arg x dflt = .ok v) ∨ Cad.arg x dflt = .error .assertion := by
  cases x with
  | missing => exact Or.inl ⟨_, rfl⟩
  | one c => exact Or.inl ⟨_, rfl⟩
  | seq l =>
    by_cases h : l.length = d + 1
    · exact Or.inl ⟨_, if_pos h⟩
    · exact Or.inr (if_neg h)

theorem pyAssert_cases (c : Prop) [Decidable c] : pyAssert c = .ok () ∨ pyAssert c = .error .assertion := by
  by_cases h : c
  · exact Or.inl (pyAssert_ok h)
  · exact Or.inr (pyAssert_err h)

/-- C40: a sequence of degrees of the wrong length and degrees below 1 are rejected. -/
theorem C40_rejects_degree {eps : K} (heps : 0 < eps) (M : Cad.RefMem K d) {N : Nrb K (d + 1)} (hv : N.Valid)
    (hsep : ∀ a, N.Sep eps a (N.lo a) ∧ N.Sep eps a (N.hi a)) (factor : PyArg Factor) {degree : PyArg ℤ}
    (continuity : PyArg ℤ) (h : (∃ s, degree = .seq s ∧ s.length ≠ d + 1) ∨
      ∃ q, degree.Gives N.degree q ∧ ∃ a, q a ≤ 0) :
    Cad.refine eps M N factor degree continuity = .error .assertion := by
  obtain ⟨X, x1, x2, x3, x4⟩ := clampAll heps M hv hsep
  have hXd : (fun a => X.degree a) = N.degree := funext fun a => (x4 a).degree
  unfold Cad.refine
  dsimp only
  rw [x1, res_ok_bind, hXd]
  rcases h with ⟨s, rfl, h⟩ | ⟨q, hq, a, ha⟩
  · rw [arg_err _ h, res_err_bind]
  · rw [arg_ok hq, res_ok_bind, pyAssert_err (fun h => absurd (h a) (by omega)), res_err_bind]

/-- C40: with admissible degrees, sequences of the wrong length, factors below 1 and continuities outside `-p .. p-1` are
rejected. -/
theorem C40_rejects_args {eps : K} (heps : 0 < eps) (M : Cad.RefMem K d) {N : Nrb K (d + 1)} (hv : N.Valid)
    {factor : PyArg Factor} {degree continuity : PyArg ℤ} {q : Fin (d + 1) → ℤ} (hq : degree.Gives N.degree q)
    {l : Fin (d + 1) → List K} (hl : ∀ a, N.Breaks a (l a)) {p : Fin (d + 1) → ℤ} (hq0 : ∀ a, 0 < q a)
    (hp : ∀ a, p a = max (q a) (N.degree a)) (hR : ∀ a, N.CanRefine eps a (l a) (fun _ => 1) (p a - N.degree a).toNat)
    (h : (∃ s, factor = .seq s ∧ s.length ≠ d + 1) ∨ (∃ s, continuity = .seq s ∧ s.length ≠ d + 1) ∨
      (∃ (F : Fin (d + 1) → Factor) (a : Fin (d + 1)), factor.Gives (fun _ => .all 1) F ∧
        ((∃ n, F a = .all n ∧ n ≤ 0) ∨ ∃ s, F a = .each s ∧ ∃ n ∈ s, n ≤ 0)) ∨
      ∃ (c : Fin (d + 1) → ℤ) (a : Fin (d + 1)), continuity.Gives (fun _ => -1) c ∧ (p a ≤ c a ∨ c a < -p a)) :
    Cad.refine eps M N factor degree continuity = .error .assertion := by
  obtain ⟨X, Y, x1, hXd, y1, hY⟩ := refine_prepared heps M hv hl hp hR
  have hYd := hY.degree
  unfold Cad.refine
  dsimp only
  have hq' : degree.Gives (fun a => X.degree a) q := by
    rw [show (fun a => X.degree a) = N.degree from funext hXd]; exact hq
  rw [x1, res_ok_bind, arg_ok hq', res_ok_bind, pyAssert_ok hq0, res_ok_bind, y1, res_ok_bind]
  rcases arg_cases factor (fun _ : Fin (d + 1) => Factor.all 1) with ⟨F, hF⟩ | hF
  swap
  · rw [hF, res_err_bind]
  rw [hF, res_ok_bind]
  rcases pyAssert_cases (∀ a, (F a).Pos) with hP | hP
  swap
  · rw [hP, res_err_bind]
  rw [hP, res_ok_bind]
  rcases arg_cases continuity (fun _ : Fin (d + 1) => (-1 : ℤ)) with ⟨c, hc⟩ | hc
  swap
  · rw [hc, res_err_bind]
  rw [hc, res_ok_bind]
  rcases h with ⟨s, rfl, h⟩ | ⟨s, rfl, h⟩ | ⟨F', a, hF', h⟩ | ⟨c', a, hc', h⟩
  · rw [arg_err _ h] at hF; cases hF
  · rw [arg_err _ h] at hc; cases hc
  · obtain rfl : F' = F := Except.ok.inj ((arg_ok hF').symm.trans hF)
    have hpos : ¬ ∀ a, (F' a).Pos := by
      intro hpos
      have hpos := hpos a
      rcases h with ⟨n, e, hn⟩ | ⟨s, e, n, hn, hn'⟩
      · rw [e] at hpos
        exact absurd hn (not_le.mpr hpos)
      · rw [e] at hpos
        exact absurd hn' (not_le.mpr (hpos n hn))
    rw [pyAssert_err hpos] at hP
    cases hP
  · obtain rfl : c' = c := Except.ok.inj ((arg_ok hc').symm.trans hc)
    have hp1 := (hv a).one_le
    have hp2 := hp a
    have hp3 := le_max_right (q a) (N.degree a)
    rcases h with h | h
    · rcases pyAssert_cases (∀ a, (if c' a < 0 then c' a + Y.degree a else c' a) ≥ 0) with h1 | h1
      · rw [h1, res_ok_bind, pyAssert_err, res_err_bind]
        intro h2
        have h2 := h2 a
        rw [if_neg (by omega), hYd] at h2
        omega
      · rw [h1, res_err_bind]
    · rw [pyAssert_err, res_err_bind]
      intro h2
      have h2 := h2 a
      rw [if_pos (by omega), hYd] at h2
      omega

/-- going through the axes, one of them fails -/
theorem fold_axes_err {step : Nrb K d → Fin d → Res (Nrb K d)} {B : Fin d → Ax K} {good : Fin d → Prop} {e : Err}
    (hgood : ∀ Z a, Z.Valid → Z.axis a = B a → good a →
      ∃ Z', step Z a = .ok Z' ∧ Z'.Valid ∧ ∀ b, b ≠ a → Z'.axis b = Z.axis b)
    (hbad : ∀ Z a, Z.Valid → Z.axis a = B a → ¬ good a → step Z a = .error e) :
    ∀ (A : List (Fin d)), A.Nodup → ∀ Z, Z.Valid → (∀ a ∈ A, Z.axis a = B a) → (∃ a ∈ A, ¬ good a) →
      A.foldlM step Z = .error e
  | [], _, _, _, _, h => by obtain ⟨a, ha, _⟩ := h; cases ha
  | a :: A, hnd, Z, hv, hB, h => by
    rw [List.nodup_cons] at hnd
    rw [List.foldlM_cons]
    by_cases ha : good a
    · obtain ⟨Z', h1, h2, h3⟩ := hgood Z a hv (hB a List.mem_cons_self) ha
      rw [h1, res_ok_bind]
      refine fold_axes_err hgood hbad A hnd.2 Z' h2 (fun b hb => ?_) ?_
      · rw [h3 b (fun e => hnd.1 (e ▸ hb))]
        exact hB b (List.mem_cons_of_mem _ hb)
      · obtain ⟨b, hb, hb'⟩ := h
        rcases List.mem_cons.mp hb with e | e
        · subst e; exact absurd ha hb'
        · exact ⟨b, e, hb'⟩
    · rw [hbad Z a hv (hB a List.mem_cons_self) ha, res_err_bind]

/-- C40: a list of factors whose length is not the number of elements of its axis is rejected. -/
theorem C40_rejects_elements {eps : K} (heps : 0 < eps) (M : Cad.RefMem K d) {N : Nrb K (d + 1)} (hv : N.Valid)
    {factor : PyArg Factor} {degree continuity : PyArg ℤ} {F : Fin (d + 1) → Factor} {q : Fin (d + 1) → ℤ}
    (hF : factor.Gives (fun _ => .all 1) F) (hq : degree.Gives N.degree q)
    {l : Fin (d + 1) → List K} (hl : ∀ a, N.Breaks a (l a)) {f : Fin (d + 1) → ℕ → ℤ} {p : Fin (d + 1) → ℤ}
    (hq0 : ∀ a, 0 < q a) (hp : ∀ a, p a = max (q a) (N.degree a))
    (hR : ∀ a, N.CanRefine eps a (l a) (f a) (p a - N.degree a).toNat)
    (hf : ∀ a, (F a).Gives ((l a).length - 1) (f a) ∨ ∃ s, F a = .each s ∧ s.length ≠ (l a).length - 1)
    (h : ∃ a s, F a = .each s ∧ s.length ≠ (l a).length - 1) :
    Cad.refine eps M N factor degree continuity = .error .assertion := by
  obtain ⟨X, Y, x1, hXd, y1, hY⟩ := refine_prepared heps M hv hl hp hR
  have hYd := hY.degree
  have hpd : ∀ a, N.degree a ≤ p a := fun a => by rw [hp]; exact le_max_right _ _
  unfold Cad.refine
  dsimp only
  have hq' : degree.Gives (fun a => X.degree a) q := by
    rw [show (fun a => X.degree a) = N.degree from funext hXd]; exact hq
  rw [x1, res_ok_bind, arg_ok hq', res_ok_bind, pyAssert_ok hq0, res_ok_bind, y1, res_ok_bind, arg_ok hF, res_ok_bind]
  rcases pyAssert_cases (∀ a, (F a).Pos) with hP | hP
  swap
  · rw [hP, res_err_bind]
  rw [hP, res_ok_bind]
  rcases arg_cases continuity (fun _ : Fin (d + 1) => (-1 : ℤ)) with ⟨c, hc⟩ | hc
  swap
  · rw [hc, res_err_bind]
  rw [hc, res_ok_bind]
  by_cases hC0 : ∀ a, (if c a < 0 then c a + Y.degree a else c a) ≥ 0
  swap
  · rw [pyAssert_err hC0, res_err_bind]
  rw [pyAssert_ok hC0, res_ok_bind]
  by_cases hC1 : ∀ a, (if c a < 0 then c a + Y.degree a else c a) < Y.degree a
  swap
  · rw [pyAssert_err hC1, res_err_bind]
  rw [pyAssert_ok hC1, res_ok_bind]
  refine fold_axes_err (B := fun a => Y.axis a) (good := fun a => (F a).Gives ((l a).length - 1) (f a))
    (fun Z a v e g => ?_) (fun Z a v e g => ?_) _ (List.nodup_finRange _) Y hY.valid (fun _ _ => rfl) ?_
  · obtain ⟨Z', z1, z2, _, z4, _⟩ := refineKnots_step heps M (F := F)
      (C := fun a => if c a < 0 then c a + Y.degree a else c a) (l := l) (f := f) Z a v (by
        rw [e]
        exact hY.dividable (hl a) g (hpd a) hv (hR a) (hC0 a) (by rw [← hYd]; exact hC1 a))
    exact ⟨Z', z1, z2, z4⟩
  · have e1 : Z.degree a = Y.degree a := by rw [← axis_degree, e, axis_degree]
    have e2 : Z.n a = Y.n a := by rw [← axis_n, e, axis_n]
    have e3 : Z.U a = Y.U a := by rw [← axis_U, e, axis_U]
    have b := refine_breaks heps v (a := a) (by rw [e1, e3]; exact hY.left a) (by rw [e1, e2, e3]; exact hY.right a)
      (hl a).lt (fun x => by rw [(hl a).mem, e, hY.breaks]) (hR a).parts
    rcases hf a with g' | ⟨s, g1, g2⟩
    · exact absurd g' g
    · unfold Cad.refineKnots
      rw [b, res_ok_bind, pyAssert_err, res_err_bind]
      rw [g1]
      exact g2
  · obtain ⟨a, s, g1, g2⟩ := h
    refine ⟨a, List.mem_finRange a, fun g => ?_⟩
    rw [g1] at g
    exact g2 g.1

/-- C40: without arguments `cad.refine` clamps the object and changes nothing else. -/
theorem C40_refine_default {eps : K} (heps : 0 < eps) (M : Cad.RefMem K d) {N : Nrb K (d + 1)} (hv : N.Valid)
    {l : Fin (d + 1) → List K} (hl : ∀ a, N.Breaks a (l a))
    (hR : ∀ a, N.CanRefine eps a (l a) (fun _ => 1) 0) :
    ∃ R, Cad.refine eps M N .missing .missing .missing = .ok R ∧ R.Valid ∧ N.SameMap R ∧
      (∀ a, ClampedL (R.degree a) (R.U a) ∧ ClampedR (R.n a) (R.degree a) (R.U a)) ∧
      ∀ a x, N.lo a < x → x < N.hi a → R.multOf a x = N.multOf a x := by
  have h1 := fun a => (hv a).one_le
  obtain ⟨R, r1, r2, r3⟩ := C40_refine_partial heps M hv (factor := .missing) (degree := .missing) (continuity := .missing)
    (F := fun _ => .all 1) (q := N.degree) (c := fun _ => -1) (p := N.degree) (C := fun a => N.degree a - 1)
    (f := fun _ _ => 1) rfl rfl rfl hl (fun a i _ => rfl) (fun a => by have := h1 a; omega) (fun a => (max_self _).symm)
    (fun a => Or.inr ⟨by omega, rfl⟩) (fun a => by have := h1 a; omega) (fun a => by omega) (fun a => by
      rw [sub_self]; exact hR a)
  refine ⟨R, r1, r2, ⟨r3.nc, r3.degree, r3.lo, r3.hi, r3.eval⟩, fun a => ⟨r3.left a, r3.right a⟩, fun a x x0 x1 => ?_⟩
  by_cases hx : N.multOf a x = 0
  · rw [r3.none a x x0 x1 hx, hx]
    rintro ⟨i, y, z, k, _, _, k0, k1, _⟩
    dsimp only at k1
    omega
  · have := r3.old a x x0 x1 (Nat.pos_of_ne_zero hx)
    omega

end Main

/-! ## examples -/

namespace Ex

theorem S_breaks (a : Fin 2) : S.Breaks a ((![[0, 1, 2, 3], [0, 1]] : Fin 2 → List ℚ) a) := by
  fin_cases a
  · refine ⟨show List.Pairwise (· < ·) ([0, 1, 2, 3] : List ℚ) by decide +kernel, fun x => ?_⟩
    show x ∈ ([0, 1, 2, 3] : List ℚ) ↔ ∃ k : ℤ, 2 ≤ k ∧ k ≤ 6 ∧ S.U 0 k = x
    constructor
    · intro h
      have key : ∀ x ∈ ([0, 1, 2, 3] : List ℚ), ∃ k ∈ Finset.Icc (2 : ℤ) 6, S.U 0 k = x := by decide +kernel
      obtain ⟨k, h1, h2⟩ := key x h
      rw [Finset.mem_Icc] at h1
      exact ⟨k, h1.1, h1.2, h2⟩
    · rintro ⟨k, h1, h2, rfl⟩
      have key : ∀ k ∈ Finset.Icc (2 : ℤ) 6, S.U 0 k ∈ ([0, 1, 2, 3] : List ℚ) := by decide +kernel
      exact key k (Finset.mem_Icc.mpr ⟨h1, h2⟩)
  · refine ⟨show List.Pairwise (· < ·) ([0, 1] : List ℚ) by decide +kernel, fun x => ?_⟩
    show x ∈ ([0, 1] : List ℚ) ↔ ∃ k : ℤ, 2 ≤ k ∧ k ≤ 3 ∧ S.U 1 k = x
    constructor
    · intro h
      have key : ∀ x ∈ ([0, 1] : List ℚ), ∃ k ∈ Finset.Icc (2 : ℤ) 3, S.U 1 k = x := by decide +kernel
      obtain ⟨k, h1, h2⟩ := key x h
      rw [Finset.mem_Icc] at h1
      exact ⟨k, h1.1, h1.2, h2⟩
    · rintro ⟨k, h1, h2, rfl⟩
      have key : ∀ k ∈ Finset.Icc (2 : ℤ) 3, S.U 1 k ∈ ([0, 1] : List ℚ) := by decide +kernel
      exact key k (Finset.mem_Icc.mpr ⟨h1, h2⟩)

theorem S_seps : ∀ a : Fin 2, ∀ j ∈ Finset.Ico 0 (S.len a), (S.U a j = S.lo a ∨ (1 / 1000 : ℚ) ≤ |S.lo a - S.U a j|) ∧
    (S.U a j = S.hi a ∨ (1 / 1000 : ℚ) ≤ |S.hi a - S.U a j|) := by decide +kernel

/-- parts of the elements -/
def Sf : Fin 2 → ℕ → ℤ := ![fun i => [2, 1, 3].getD i 1, fun _ => 2]

theorem S_parts {f : Fin 2 → ℕ → ℤ} (h0 : ∀ i < 3, 0 < f 0 i ∧ (1 / 1000 : ℚ) < 1 / f 0 i)
    (h1 : 0 < f 1 0 ∧ (1 / 1000 : ℚ) < 1 / f 1 0) (a : Fin 2) (t : ℕ) :
    S.CanRefine (1 / 1000) a ((![[0, 1, 2, 3], [0, 1]] : Fin 2 → List ℚ) a) (f a) t := by
  refine ⟨fun j j0 j1 => (S_seps a j (Finset.mem_Ico.mpr ⟨j0, by omega⟩)).1,
    fun j j0 j1 => (S_seps a j (Finset.mem_Ico.mpr ⟨j0, by omega⟩)).2, ?_, ?_, fun _ => Or.inl ?_⟩
  · fin_cases a
    · exact multLe_of_list (by decide +kernel) (by decide +kernel)
    · exact multLe_of_list (by decide +kernel) (by decide +kernel)
  · intro i y z hy hz
    fin_cases a
    · have hi : i + 1 < 4 := (List.getElem?_eq_some_iff.mp hz).1
      have key : ∀ i < 3, ∀ y z, ([0, 1, 2, 3] : List ℚ)[i]? = some y → ([0, 1, 2, 3] : List ℚ)[i + 1]? = some z →
          z - y = 1 := by
        intro i hi y z hy hz
        interval_cases i <;> simp at hy hz <;> rw [← hy, ← hz] <;> norm_num
      rw [key i (by omega) y z hy hz]
      exact h0 i (by omega)
    · have hi : i + 1 < 2 := (List.getElem?_eq_some_iff.mp hz).1
      obtain rfl : i = 0 := by omega
      obtain rfl : 0 = y := by simpa using hy
      obtain rfl : 1 = z := by simpa using hz
      rw [sub_zero]
      exact h1
  · revert a; decide +kernel

/-- a rational surface, unclamped on the second axis; different factors for the elements of the first axis, whose degree is
raised to 3, with continuity 1, and continuity 0 on the second axis -/
example (M : Cad.RefMem ℚ 1) := C40_refine_partial (eps := 1 / 1000) (by norm_num) M S_valid
  (factor := .seq [some (.each [2, 1, 3]), some (.all 2)]) (degree := .seq [some 3, none])
  (continuity := .seq [some 1, some (-2)]) (F := ![.each [2, 1, 3], .all 2]) (q := ![3, 2]) (c := ![1, -2])
  (p := ![3, 2]) (C := ![1, 0]) (f := Sf) ⟨rfl, Fin.forall_fin_two.mpr ⟨Or.inl rfl, Or.inl rfl⟩⟩
  ⟨rfl, by decide +kernel⟩ ⟨rfl, by decide⟩ S_breaks
  (Fin.forall_fin_two.mpr ⟨⟨rfl, by decide⟩, fun _ _ => rfl⟩) (by decide) (by decide +kernel) (by decide) (by decide)
  (by decide) (fun a => S_parts (by decide +kernel) (by decide +kernel) a _)

example (M : Cad.RefMem ℚ 1) := C40_refine_default (eps := 1 / 1000) (by norm_num) M S_valid S_breaks
  (fun a => S_parts (f := fun _ _ => 1) (by decide +kernel) (by decide +kernel) a 0)

example (M : Cad.RefMem ℚ 1) := C40_rejects_degree (eps := 1 / 1000) (by norm_num) M S_valid
  (fun a => ⟨(S_parts (f := fun _ _ => 1) (by decide +kernel) (by decide +kernel) a 0).lo,
    (S_parts (f := fun _ _ => 1) (by decide +kernel) (by decide +kernel) a 0).hi⟩) .missing .missing
  (degree := .one 0) (Or.inr ⟨fun _ => 0, fun _ => rfl, 1, le_rfl⟩)

/-- continuity 2 on a surface of degree 2 -/
example (M : Cad.RefMem ℚ 1) := C40_rejects_args (eps := 1 / 1000) (by norm_num) M S_valid (factor := .one (.all 3))
  (degree := .missing) (continuity := .one 2) (q := S.degree) (p := S.degree) rfl S_breaks (by decide +kernel)
  (fun a => (max_self _).symm) (fun a => S_parts (f := fun _ _ => 1) (by decide +kernel) (by decide +kernel) a _)
  (Or.inr (Or.inr (Or.inr ⟨fun _ => 2, 1, fun _ => rfl, Or.inl (by decide +kernel)⟩)))

/-- two factors for three elements -/
example (M : Cad.RefMem ℚ 1) := C40_rejects_elements (eps := 1 / 1000) (by norm_num) M S_valid
  (factor := .seq [some (.each [2, 1]), none]) (degree := .missing) (continuity := .missing) (q := S.degree)
  (F := ![.each [2, 1], .all 1]) (p := S.degree) (f := fun _ _ => 1)
  ⟨rfl, Fin.forall_fin_two.mpr ⟨Or.inl rfl, Or.inr ⟨rfl, rfl⟩⟩⟩ rfl S_breaks (by decide +kernel)
  (fun a => (max_self _).symm) (fun a => S_parts (f := fun _ _ => 1) (by decide +kernel) (by decide +kernel) a _)
  (Fin.forall_fin_two.mpr ⟨Or.inr ⟨_, rfl, by decide⟩, Or.inl (fun _ _ => rfl)⟩) ⟨0, _, rfl, by decide⟩

end Ex
end Igakit
