import Verif.Proofs.Join
import Verif.Props.Coons
import Verif.Props.Remove
import Verif.Props.Elevate

/-!
# C38: `cad.join` concatenates two objects
-/

set_option linter.unusedSectionVars false

namespace Igakit
open Spec

section Steps
variable {K : Type} [Field K] [LinearOrder K] [IsStrictOrderedRing K] {d : ℕ}

/-- the conditions for elevation depend on the knots only -/
theorem Ax.Elev.congr {A B : Ax K} (hv : A.Valid) (hs : B.shape = A.shape) (hl : B.len = A.len)
    (hU : ∀ j, 0 ≤ j → j < A.len → B.U j = A.U j) {eps : K} {t : ℕ} (h : A.Elev eps t) : B.Elev eps t := by
  have hn : B.n = A.n := by unfold Ax.n; rw [hs]
  have hd : B.degree = A.degree := by unfold Ax.degree; rw [hs, hl]
  have h1 := hv.one_le
  have h2 := hv.le
  have h3 := A.len_eq
  have hm : ∀ x, Spec.mult B.U 0 (A.n + A.degree + 1) x = Spec.mult A.U 0 (A.n + A.degree + 1) x :=
    mult_congr (fun j j0 j1 => hU j j0 (by omega))
  have e1 : B.U A.degree = A.U A.degree := hU _ (by omega) (by omega)
  have e2 : B.U (A.n + 1) = A.U (A.n + 1) := hU _ (by omega) (by omega)
  refine ⟨?_, ?_, ?_, ?_, ?_⟩
  · rw [hd]
    intro j j0 j1
    rw [hU j j0 (by omega), e1]
    exact h.left j j0 j1
  · rw [hd, hn]
    intro j j0 j1
    rw [hU j (by omega) (by omega), e2]
    exact h.right j j0 j1
  · rw [hd, hn]
    intro x x0 x1
    rw [hm]
    rw [e1] at x0
    rw [e2] at x1
    exact h.mult x x0 x1
  · rw [hd, hn]
    intro k k0 k1
    rw [hU k (by omega) (by omega), hU (k + 1) (by omega) (by omega)]
    exact h.gaps k k0 k1
  · rw [hd, hn]
    intro ht
    refine (h.jump ht).imp id fun hj x y hN => ?_
    rw [hm, hm]
    refine hj x y ⟨?_, hN.lt, ?_, ?_, ?_, ?_⟩
    · rw [← e1]; exact hN.lo
    · rw [← e2]; exact hN.hi
    · rw [← hm]; exact hN.left
    · rw [← hm]; exact hN.right
    · intro z z0 z1
      rw [← hm]
      exact hN.none z z0 z1

/-- the conditions for elevation are not touched by a shift -/
theorem Ax.Elev.shift {A : Ax K} (hv : A.Valid) {eps : K} {t : ℕ} (h : A.Elev eps t) (s : K) :
    (A.stretch (A.lo + s) (A.hi + s)).Elev eps t := by
  have hA := Ax.lo_lt_hi hv
  have hc : A.lo + s < A.hi + s := by linarith
  refine ⟨stretch_left h.left, stretch_right h.right, stretch_multLe hA hc h.mult, ?_, ?_⟩
  · intro k k0 k1 hk
    have e : ∀ j, (A.stretch (A.lo + s) (A.hi + s)).U j = A.U j + s := by
      intro j
      show affMap _ _ _ _ _ = _
      rw [affMap_eq hA]
      have : A.hi - A.lo ≠ 0 := (sub_pos.mpr hA).ne'
      field_simp
      ring
    rw [e, e] at hk ⊢
    have := h.gaps k k0 k1 (by linarith)
    linarith
  · exact fun ht => (h.jump ht).imp id (stretch_noJump hA hc)

/-- `elevate`, also by nothing -/
theorem raise_ok {eps : K} (heps : 0 ≤ eps) (M : Mem K d) (t : ℕ) {X : Nrb K (d + 1)} {a : Fin (d + 1)} (hv : X.Valid)
    (hE : 1 ≤ t → (X.axis a).Elev eps t) :
    ∃ Y, X.elevate eps M.k M.e M.b (a : ℤ) (some t) = .ok Y ∧ Y.Valid ∧ X.AffineOf Y ∧
      (∀ b, b ≠ a → Y.axis b = X.axis b) ∧ Y.degree a = X.degree a + t ∧ Y.lo a = X.lo a ∧ Y.hi a = X.hi a ∧
      (ClampedL (X.degree a) (X.U a) → ClampedL (Y.degree a) (Y.U a)) ∧
      (ClampedR (X.n a) (X.degree a) (X.U a) → ClampedR (Y.n a) (Y.degree a) (Y.U a)) ∧
      ∀ x, (Y.axis a).mult x = if (X.axis a).mult x = 0 then 0 else (X.axis a).mult x + t := by
  rcases Nat.eq_zero_or_pos t with ht | ht
  · subst ht
    exact ⟨X, (C16_elevate_trivial eps M.k M.e M.b X _).2.1, hv, .refl hv, fun _ _ => rfl, by simp, rfl, rfl, id, id,
      fun _ => by split_ifs with h; exacts [h, rfl]⟩
  · obtain ⟨Y, h1, h2, h3, h4, h5⟩ := elevate_step heps M t X a hv (hE ht)
    refine ⟨Y, h1, h2, h3, h4, h5.degree, h5.lo, ?_, fun _ => h5.left, fun _ => h5.right, h5.mult⟩
    rw [← axis_hi, h5.hi, axis_hi]

/-- `clamp` on one side -/
theorem clamp_step {eps : K} (heps : 0 < eps) (je : ℤ → (Fin d → ℤ) → ℕ → K) {N : Nrb K (d + 1)} {a : Fin (d + 1)}
    (hv : N.Valid) (hsep : N.SepBoth eps a) {s : ℤ} (hs : s = 0 ∨ s = 1) :
    ∃ X, N.clamp eps je (a : ℤ) (some s) = .ok X ∧ X.Valid ∧ N.AffineOf X ∧ (∀ b, b ≠ a → X.axis b = N.axis b) ∧
      X.degree a = N.degree a ∧ X.lo a = N.lo a ∧ X.hi a = N.hi a ∧
      (s = 0 → ClampedL (X.degree a) (X.U a)) ∧ (s = 1 → ClampedR (X.n a) (X.degree a) (X.U a)) ∧
      (∀ x, 0 < (X.axis a).mult x → 0 < (N.axis a).mult x) ∧
      (∀ x, N.lo a < x → x < N.hi a → 0 < (N.axis a).mult x → 0 < (X.axis a).mult x) ∧
      (∀ t, (N.axis a).Elev eps t → (X.axis a).Elev eps t) ∧
      ∀ x, (s = 0 → N.lo a < x) → (s = 1 → x < N.hi a) → (X.axis a).mult x = (N.axis a).mult x := by
  obtain ⟨X, h1, h2, h3, h4, h5, h6, h7, h8⟩ := C13_clamp heps je hv (normAxis_self a)
    (side := some s) (by rcases hs with rfl | rfl <;> simp) hsep
  have hp := (hv a).one_le
  have hn := (hv a).le
  have hl : N.len a = N.n a + N.degree a + 2 := (N.axis a).len_eq
  have es : N.shape a = N.n a + 1 := by unfold Nrb.n; ring
  have hXn : X.n a = N.n a := by unfold Nrb.n; rw [h4]
  have hXl : X.len a = N.len a := by
    have : X.len a = X.n a + X.degree a + 2 := (X.axis a).len_eq
    rw [hXn, h3.degree] at this
    omega
  have s0 : selects (some s) 0 ↔ s = 0 := by simp [selects]
  have s1 : selects (some s) 1 ↔ s = 1 := by simp [selects]
  rw [s0] at h5
  rw [s1] at h6
  simp only [s0, s1] at h7
  have hlo : N.U a (N.degree a) = N.lo a := (N.lo_eq a).symm
  have hhi : N.U a (N.n a + 1) = N.hi a := (N.hi_eq a).symm
  have hcase : ∀ j, 0 ≤ j → j < N.len a →
      (X.U a j = N.U a j) ∨ (s = 0 ∧ j ≤ N.degree a ∧ X.U a j = N.lo a) ∨
      (s = 1 ∧ N.shape a ≤ j ∧ X.U a j = N.hi a) := by
    intro j j0 j1
    rcases hs with rfl | rfl
    · by_cases hj : N.degree a ≤ j
      · exact Or.inl (h7 j (Or.inr hj) (Or.inl (by decide)))
      · exact Or.inr (Or.inl ⟨rfl, by omega, h5 rfl j j0 (by omega)⟩)
    · by_cases hj : j ≤ N.shape a
      · exact Or.inl (h7 j (Or.inl (by decide)) (Or.inr hj))
      · exact Or.inr (Or.inr ⟨rfl, by omega, h6 rfl j (by omega) j1⟩)
  refine ⟨X, h1, h2, .of_same hv h3.nc h3.lo h3.hi h3.eval, fun b hb => axis_ext (by rw [h4]) (h3.degree b) (h8 b hb),
    h3.degree a, h3.lo a, h3.hi a, ?_, ?_, ?_, ?_, ?_, ?_⟩
  · intro h0 j j0 j1
    rw [h3.degree] at j1 ⊢
    rw [h5 h0 j j0 j1, h5 h0 _ (by omega) le_rfl]
  · intro h0 j j0 j1
    rw [h3.degree] at j1
    rw [hXn] at j0 j1 ⊢
    rw [h6 h0 j (by omega) (by omega), h6 h0 _ (by omega) (by omega)]
  · intro x hx
    obtain ⟨k, k0, k1, rfl⟩ := Ax.mult_pos.mp hx
    have k1' : k < N.len a := by rw [← hXl]; exact k1
    rw [axis_U]
    rcases hcase k k0 k1' with h | ⟨_, _, h⟩ | ⟨_, _, h⟩
    · exact Ax.mult_pos.mpr ⟨k, k0, k1', h.symm⟩
    · exact Ax.mult_pos.mpr ⟨N.degree a, by omega, (by rw [hl]; omega : N.degree a < N.len a), by rw [h]; exact hlo⟩
    · exact Ax.mult_pos.mpr ⟨N.n a + 1, by omega, (by rw [hl]; omega : N.n a + 1 < N.len a), by rw [h]; exact hhi⟩
  · intro x x0 x1 hx
    obtain ⟨k, k0, k1, rfl⟩ := Ax.mult_pos.mp hx
    have k1' : k < N.len a := k1
    rw [axis_U] at x0 x1 ⊢
    have hk0 : N.degree a ≤ k := by
      by_contra hc
      rw [← hlo] at x0
      exact absurd x0 (not_lt.mpr ((hv a).sorted _ _ k0 (by omega) (by omega)))
    have hk1 : k ≤ N.shape a := by
      by_contra hc
      rw [← hhi] at x1
      exact absurd x1 (not_lt.mpr ((hv a).sorted _ _ (by omega) (by omega) (by omega)))
    exact Ax.mult_pos.mpr ⟨k, k0, (by omega : k < X.len a), h7 k (Or.inr hk0) (Or.inr hk1)⟩
  · intro t hE
    refine hE.congr (A := N.axis a) (hv a) (by show X.shape a = N.shape a; rw [h4]) hXl (fun j j0 j1 => ?_)
    rcases hcase j j0 j1 with h | ⟨_, h0, h⟩ | ⟨_, h0, h⟩
    · exact h
    · show X.U a j = N.U a j
      rw [h]; exact (hlo.symm.trans (hE.left j j0 h0).symm)
    · show X.U a j = N.U a j
      have : j ≤ (N.axis a).n + (N.axis a).degree + 1 := by
        have : j < (N.axis a).len := j1
        have := (N.axis a).len_eq
        omega
      rw [h]; exact (hhi.symm.trans (hE.right j (by show N.n a + 1 ≤ j; omega) this).symm)
  · intro x x0 x1
    show Spec.mult (X.U a) 0 (X.len a - 1) x = Spec.mult (N.U a) 0 (N.len a - 1) x
    rw [hXl]
    unfold Spec.mult
    congr 1
    refine Finset.filter_congr fun j hj => ?_
    rw [Finset.mem_Icc] at hj
    rcases hcase j hj.1 (by omega) with h | ⟨g0, g1, h⟩ | ⟨g0, g1, h⟩
    · rw [h]
    · have e := (hv a).sorted j (N.degree a) hj.1 g1 (by omega)
      rw [hlo] at e
      rw [h]
      exact ⟨fun e' => absurd e' (x0 g0).ne, fun e' => absurd (e'.symm.le.trans e) (not_le.mpr (x0 g0))⟩
    · have e := (hv a).sorted (N.n a + 1) j (by omega) (by omega) (by omega)
      rw [hhi] at e
      rw [h]
      exact ⟨fun e' => absurd e' (x1 g0).ne', fun e' => absurd (e.trans e'.le) (not_le.mpr (x1 g0))⟩

theorem sep_axis {N : Nrb K d} {eps : K} {a : Fin d} {u : K} :
    N.Sep eps a u ↔ ∀ x, 0 < (N.axis a).mult x → x = u ∨ eps ≤ |u - x| := by
  unfold Nrb.Sep SepFrom
  constructor
  · intro h x hx
    obtain ⟨k, k0, k1, rfl⟩ := Ax.mult_pos.mp hx
    have : k < N.len a := k1
    exact h k k0 (by omega)
  · intro h j j0 j1
    exact h _ (Ax.mult_pos.mpr ⟨j, j0, (by omega : j < N.len a), rfl⟩)

theorem sepBoth_axis {N N' : Nrb K d} {eps : K} {a : Fin d} (h : N'.axis a = N.axis a) (hs : N.SepBoth eps a) :
    N'.SepBoth eps a := by
  unfold Nrb.SepBoth at hs ⊢
  rw [sep_axis, sep_axis] at hs ⊢
  rw [← axis_lo, ← axis_hi] at hs ⊢
  rw [h]
  exact hs

end Steps

section Join
variable {K : Type} [Field K] [LinearOrder K] [IsStrictOrderedRing K] {d : ℕ}

/-- hull of the domains on axis `b` -/
def hullLo (N1 N2 : Nrb K d) (b : Fin d) : K := min (N1.lo b) (N2.lo b)
@[inherit_doc hullLo]
def hullHi (N1 N2 : Nrb K d) (b : Fin d) : K := max (N1.hi b) (N2.hi b)

/-- the parameter of a piece `N` of the join of `N1` and `N2` along axis `a`: `t` on this axis; on the others the affine
change from the hull of the domains to the domain of `N` -/
def pieceParam (N1 N2 N : Nrb K d) (a : Fin d) (t : K) (x : Fin d → K) : Fin d → K := fun b =>
  if b = a then t else affMap (hullLo N1 N2 b) (hullHi N1 N2 b) (N.lo b) (N.hi b) (x b)

/-- conditions for joining `N1` and `N2` along axis `a` -/
structure Joinable (eps : K) (N1 N2 : Nrb K (d + 1)) (a : Fin (d + 1)) : Prop where
  v1 : N1.Valid
  v2 : N2.Valid
  nc : N1.nc = N2.nc
  sep1 : N1.SepBoth eps a
  sep2 : N2.SepBoth eps a
  others : ∀ b, b ≠ a → Compatible eps ![N1, N2] b (hullLo N1 N2 b) (hullHi N1 N2 b)
  raise1 : ∀ t : ℕ, 1 ≤ t → N1.degree a + t = N2.degree a → (N1.axis a).Elev eps t
  raise2 : ∀ t : ℕ, 1 ≤ t → N2.degree a + t = N1.degree a → (N2.axis a).Elev eps t

/-- distance of the ends that are joined, at the other parameters `x` -/
def joinGap (N1 N2 : Nrb K (d + 1)) (a : Fin (d + 1)) (x : Fin (d + 1) → K) (k : ℕ) : K :=
  N2.eval (pieceParam N1 N2 N2 a (N2.lo a) x) k - N1.eval (pieceParam N1 N2 N1 a (N1.hi a) x) k

/-- multiplicity of a knot after the degree has been raised to `p` -/
def raisedAt (N : Nrb K d) (a : Fin d) (p : ℤ) (x : K) : ℤ :=
  if N.multOf a x = 0 then 0 else N.multOf a x + (p - N.degree a)

/-- what `join` has built before it removes knots -/
structure Joined (N1 N2 J : Nrb K (d + 1)) (a : Fin (d + 1)) : Prop where
  valid : J.Valid
  nc : J.nc = N1.nc
  degree : J.degree a = max (N1.degree a) (N2.degree a)
  lo : J.lo a = N1.lo a
  hi : J.hi a = N1.hi a + (N2.hi a - N2.lo a)
  lo' : ∀ b, b ≠ a → J.lo b = hullLo N1 N2 b
  hi' : ∀ b, b ≠ a → J.hi b = hullHi N1 N2 b
  degree' : ∀ b, b ≠ a → J.degree b = max (N1.degree b) (N2.degree b)
  first : ∀ x, J.InDom x → x a ≤ N1.hi a → ∃ w, 0 ≤ w ∧ w ≤ 1 / 2 ∧
    ∀ k, J.eval x k = N1.eval (pieceParam N1 N2 N1 a (x a) x) k + w * joinGap N1 N2 a x k
  second : ∀ x, J.InDom x → N1.hi a ≤ x a → ∃ w, 0 ≤ w ∧ w ≤ 1 / 2 ∧
    ∀ k, J.eval x k = N2.eval (pieceParam N1 N2 N2 a (N2.lo a + (x a - N1.hi a)) x) k - w * joinGap N1 N2 a x k
  knot : (J.multOf a (N1.hi a) : ℤ) = J.degree a
  knots1 : ∀ x, x < N1.hi a → (J.multOf a x : ℤ) = raisedAt N1 a (J.degree a) x
  knots2 : ∀ x, N1.hi a < x → (J.multOf a x : ℤ) = raisedAt N2 a (J.degree a) (N2.lo a + (x - N1.hi a))
  left' : ∀ b, b ≠ a → ClampedL (J.degree b) (J.U b)
  right' : ∀ b, b ≠ a → ClampedR (J.n b) (J.degree b) (J.U b)
  knots' : ∀ b, b ≠ a → ∀ x, J.lo b < x → x < J.hi b → IsGreatest
    (Set.range fun j => raisedMult ((![N1, N2] : Fin 2 → Nrb K (d + 1)) j) b (J.lo b) (J.hi b) (J.degree b) x) (J.multOf b x : ℤ)

/-- an object that is `N` after an affine change of parameters is the piece `N` -/
theorem pieceParam_eval {N1 N2 N Y : Nrb K (d + 1)} {a : Fin (d + 1)} (hY : Y.Valid)
    (haff : N.AffineOf Y) (hlo : ∀ b, b ≠ a → Y.lo b = hullLo N1 N2 b) (hhi : ∀ b, b ≠ a → Y.hi b = hullHi N1 N2 b)
    {s : K} (h1 : Y.lo a = N.lo a + s) (h2 : Y.hi a = N.hi a + s) {x : Fin (d + 1) → K}
    (hx : ∀ b, b ≠ a → Y.lo b ≤ x b ∧ x b ≤ Y.hi b) {t : K} (ht1 : Y.lo a ≤ t) (ht2 : t ≤ Y.hi a) (k : ℕ) :
    Y.eval (Function.update x a t) k = N.eval (pieceParam N1 N2 N a (t - s) x) k := by
  rw [haff.eval]
  · congr 2
    funext b
    unfold pieceParam
    by_cases hb : b = a
    · subst hb
      rw [if_pos rfl, Function.update_self, affMap_eq (Nrb.lo_lt_hi hY b), h1, h2]
      have : N.hi b + s - (N.lo b + s) ≠ 0 := by
        have := Nrb.lo_lt_hi hY b
        rw [h1, h2] at this
        exact (sub_pos.mpr this).ne'
      have e : N.hi b - N.lo b = N.hi b + s - (N.lo b + s) := by ring
      rw [e, div_self this]
      ring
    · rw [if_neg hb, Function.update_of_ne hb, hlo b hb, hhi b hb]
  · intro b
    by_cases hb : b = a
    · subst hb
      rw [Function.update_self]
      exact ⟨ht1, ht2⟩
    · rw [Function.update_of_ne hb]
      exact hx b hb

theorem denotes_others (a : Fin (d + 1)) :
    DenotesAxes (some (Cad.otherAxes a)) ((List.finRange (d + 1)).filter (fun b => b ≠ a)) := by
  unfold DenotesAxes Cad.otherAxes
  dsimp only
  rw [List.forall₂_map_left_iff]
  exact List.forall₂_same.mpr fun b _ => Or.inl rfl

/-- the two objects after the steps of `join` before they are put together -/
structure Prepared (eps : K) (N1 N2 Y1 Y2 : Nrb K (d + 1)) (a : Fin (d + 1)) (p : ℤ) : Prop where
  v1 : Y1.Valid
  v2 : Y2.Valid
  aff1 : N1.AffineOf Y1
  aff2 : N2.AffineOf Y2
  nc : Y1.nc = Y2.nc
  others : Y1.SameOthers Y2 a
  p_eq : p = max (N1.degree a) (N2.degree a)
  d1 : Y1.degree a = p
  d2 : Y2.degree a = p
  r1 : ClampedR (Y1.n a) p (Y1.U a)
  l2 : ClampedL p (Y2.U a)
  lo1 : Y1.lo a = N1.lo a
  hi1 : Y1.hi a = N1.hi a
  lo2 : Y2.lo a = N2.lo a + N1.hi a
  hi2 : Y2.hi a = N2.hi a + N1.hi a
  lo' : ∀ b, b ≠ a → Y1.lo b = hullLo N1 N2 b ∧ Y2.lo b = hullLo N1 N2 b
  hi' : ∀ b, b ≠ a → Y1.hi b = hullHi N1 N2 b ∧ Y2.hi b = hullHi N1 N2 b
  degree' : ∀ b, b ≠ a → Y1.degree b = max (N1.degree b) (N2.degree b)
  right : ∀ b, b ≠ a → ClampedR (Y1.n b) (Y1.degree b) (Y1.U b)
  mult1 : ∀ x, 0 < (Y1.axis a).mult x → 0 < (N1.axis a).mult x
  mult2 : ∀ x, 0 < (Y2.axis a).mult x → 0 < (N2.axis a).mult (x - N1.hi a)
  inner2 : ∀ x, N2.lo a < x → x < N2.hi a → 0 < (N2.axis a).mult x → 0 < (Y2.axis a).mult (x + N1.hi a)
  raised1 : ∀ x, x < N1.hi a → ((Y1.axis a).mult x : ℤ) = raisedAt N1 a p x
  raised2 : ∀ x, N2.lo a < x → ((Y2.axis a).mult (x + N1.hi a) : ℤ) = raisedAt N2 a p x
  left' : ∀ b, b ≠ a → ClampedL (Y1.degree b) (Y1.U b)
  merged : ∀ b, b ≠ a → ∀ x, hullLo N1 N2 b < x → x < hullHi N1 N2 b → IsGreatest (Set.range fun j => raisedMult
    ((![N1, N2] : Fin 2 → Nrb K (d + 1)) j) b (hullLo N1 N2 b) (hullHi N1 N2 b) (Y1.degree b) x) ((Y1.axis b).mult x : ℤ)

theorem joinRaw_pieces {eps : K} (heps : 0 < eps) (M : Cad.JoinMem K d) {N1 N2 : Nrb K (d + 1)} {a : Fin (d + 1)}
    (h : Joinable eps N1 N2 a) :
    ∃ Y1 Y2 p, Prepared eps N1 N2 Y1 Y2 a p ∧
      Cad.joinRaw eps M N1 N2 (a : ℤ) = (Cad.concat a p (N1.hi a) Y1 Y2).bind fun J => .ok (N1.hi a, J) := by
  set c := hullLo N1 N2 with hc
  set e := hullHi N1 N2 with he
  have hvN : ∀ i, ((![N1, N2] : Fin 2 → Nrb K (d + 1)) i).Valid := by
    intro i; fin_cases i
    · exact h.v1
    · exact h.v2
  obtain ⟨R, hR, hvR, haff, hmer, hoth⟩ := C39_compat_partial heps (M.compat 0) (M.compat 1) (m := 2) le_rfl hvN
    (axes := some (Cad.otherAxes a)) (A := (List.finRange (d + 1)).filter (fun b => b ≠ a)) (denotes_others a)
    ((List.nodup_finRange _).filter _) (c := c) (e := e) (fun b => isLeast_two _) (fun b => isGreatest_two _)
    (fun b hb => h.others b (by simpa using hb))
  have hmer' : ∀ b, b ≠ a → Merged ![N1, N2] R b (c b) (e b) := fun b hb => hmer b (by simpa using hb)
  have hoth' : ∀ i, (R i).axis a = ((![N1, N2] : Fin 2 → Nrb K (d + 1)) i).axis a := by
    intro i
    obtain ⟨g1, g2, g3⟩ := hoth i a (by simp)
    unfold Nrb.axis
    rw [g1, g2, g3]
  have hax0 : (R 0).axis a = N1.axis a := hoth' 0
  have hax1 : (R 1).axis a = N2.axis a := hoth' 1
  have hd0 : (R 0).degree a = N1.degree a := congrArg Ax.degree hax0
  have hd1 : (R 1).degree a = N2.degree a := congrArg Ax.degree hax1
  have hlo0 : (R 0).lo a = N1.lo a := congrArg Ax.lo hax0
  have hlo1 : (R 1).lo a = N2.lo a := congrArg Ax.lo hax1
  have hhi0 : (R 0).hi a = N1.hi a := by rw [← axis_hi, hax0, axis_hi]
  have hhi1 : (R 1).hi a = N2.hi a := by rw [← axis_hi, hax1, axis_hi]
  have haff0 : N1.AffineOf (R 0) := haff 0
  have haff1 : N2.AffineOf (R 1) := haff 1
  obtain ⟨X1, x1, x2, x3, x4, x5, x6, x7, _, x8, x9, _, x10, x11⟩ := clamp_step heps (M.clamp 0) (hvR 0)
    (sepBoth_axis hax0 h.sep1) (s := 1) (Or.inr rfl)
  obtain ⟨X2, y1, y2, y3, y4, y5, y6, y7, y8, _, y9, y9', y10, y11⟩ := clamp_step heps (M.clamp 1) (hvR 1)
    (sepBoth_axis hax1 h.sep2) (s := 0) (Or.inl rfl)
  rw [hax0] at x10 x9 x11
  rw [hax1] at y10 y9 y9' y11
  have hX2lt := Nrb.lo_lt_hi y2 a
  obtain ⟨Z2, z1, z2, z3, z4, z5⟩ := remap_step (c := X2.lo a + X1.hi a) (e := X2.hi a + X1.hi a) (by linarith) X2 a y2
  have zlo : Z2.lo a = X2.lo a + X1.hi a := by rw [← axis_lo, z5]; exact stretch_lo (A := X2.axis a) (by rw [axis_hi]; exact hX2lt) _ _
  have zhi : Z2.hi a = X2.hi a + X1.hi a := by
    rw [← axis_hi, z5]; exact stretch_hi (A := X2.axis a) (by rw [axis_hi]; exact hX2lt) _ _
  have zdeg : Z2.degree a = X2.degree a := congrArg Ax.degree z5
  have zleft : ClampedL (Z2.degree a) (Z2.U a) := by
    have := stretch_left (A := X2.axis a) (c := X2.lo a + X1.hi a) (e := X2.hi a + X1.hi a) (y8 rfl)
    rw [← z5] at this
    exact this
  have zmult : ∀ x, (Z2.axis a).mult x = (X2.axis a).mult (x - X1.hi a) := by
    intro x
    rw [z5, stretch_mult' (A := X2.axis a) (by rw [axis_hi]; exact hX2lt) (by linarith)]
    have e0 : affMap (X2.lo a + X1.hi a) (X2.hi a + X1.hi a) (X2.axis a).lo (X2.axis a).hi x = x - X1.hi a := by
      rw [axis_hi, axis_lo, affMap_eq (by linarith)]
      have e : X2.hi a + X1.hi a - (X2.lo a + X1.hi a) = X2.hi a - X2.lo a := by ring
      rw [e, div_self (sub_pos.mpr hX2lt).ne']
      ring
    rw [e0]
  obtain ⟨t1, ht1⟩ := Int.eq_ofNat_of_zero_le
    (by have := le_max_left (X1.degree a) (X2.degree a); omega : 0 ≤ max (X1.degree a) (X2.degree a) - X1.degree a)
  obtain ⟨t2, ht2⟩ := Int.eq_ofNat_of_zero_le
    (by have := le_max_right (X1.degree a) (X2.degree a); omega : 0 ≤ max (X1.degree a) (X2.degree a) - X2.degree a)
  obtain ⟨Y1, u1, u2, u3, u4, u5, u6, u7, _, u8, u9⟩ := raise_ok heps.le (M.elevate 0) t1 (a := a) x2
    (fun ht => x10 _ (h.raise1 t1 ht (by rw [x5, hd0, y5, hd1] at ht1; omega)))
  obtain ⟨Y2, v1, v2, v3, v4, v5, v6, v7, v8, _, v9⟩ := raise_ok heps.le (M.elevate 1) t2 (X := Z2) (a := a) z2
    (fun ht => by
      rw [z5]
      have := (y10 _ (h.raise2 t2 ht (by rw [x5, hd0, y5, hd1] at ht2; omega))).shift (A := X2.axis a) (y2 a) (X1.hi a)
      rw [axis_hi X2] at this
      exact this)
  have hpos : ∀ {m m' t : ℕ}, (m = if m' = 0 then 0 else m' + t) → (0 < m ↔ 0 < m') := by
    intro m m' t h
    split_ifs at h <;> omega
  have hab : ∀ b, b ≠ a → Y1.axis b = (R 0).axis b := fun b hb => (u4 b hb).trans (x4 b hb)
  have hab' : ∀ b, b ≠ a → Y2.axis b = (R 1).axis b := fun b hb => (v4 b hb).trans ((z4 b hb).trans (y4 b hb))
  have hhi : X1.hi a = N1.hi a := x7.trans hhi0
  have hlob : ∀ b, b ≠ a → Y1.lo b = c b := fun b hb => (congrArg Ax.lo (hab b hb)).trans ((hmer' b hb).lo 0)
  have hlob' : ∀ b, b ≠ a → Y2.lo b = c b := fun b hb => (congrArg Ax.lo (hab' b hb)).trans ((hmer' b hb).lo 1)
  have hhib : ∀ b, b ≠ a → Y1.hi b = e b := fun b hb => by
    rw [← axis_hi, hab b hb, axis_hi]; exact (hmer' b hb).hi 0
  have hhib' : ∀ b, b ≠ a → Y2.hi b = e b := fun b hb => by
    rw [← axis_hi, hab' b hb, axis_hi]; exact (hmer' b hb).hi 1
  refine ⟨Y1, Y2, max (X1.degree a) (X2.degree a), ⟨u2, v2, (haff0.trans h.v1 (hvR 0) x2 x3).trans h.v1 x2 u2 u3,
    ((haff1.trans h.v2 (hvR 1) y2 y3).trans h.v2 y2 z2 z3).trans h.v2 z2 v2 v3, ?_, ?_, by rw [x5, y5, hd0, hd1],
    by omega, by omega, ?_, ?_, by rw [u6, x6, hlo0], by rw [u7, hhi], by rw [v6, zlo, y6, hlo1, hhi],
    by rw [v7, zhi, y7, hhi1, hhi], fun b hb => ⟨hlob b hb, hlob' b hb⟩, fun b hb => ⟨hhib b hb, hhib' b hb⟩, ?_, ?_,
    fun x hx => x9 _ ((hpos (u9 x)).mp hx), ?_, ?_, ?_, ?_, ?_, ?_⟩, ?_⟩
  · rw [u3.nc, x3.nc, haff0.nc, v3.nc, z3.nc, y3.nc, haff1.nc, h.nc]
  · refine ⟨fun b hb => ?_, fun b hb => ?_, fun b hb j j0 j1 => ?_⟩
    · have g1 := congrArg Ax.shape (hab b hb)
      have g2 := congrArg Ax.shape (hab' b hb)
      exact g2.trans (((hmer' b hb).shape 1 0).trans g1.symm)
    · have g1 := congrArg Ax.len (hab b hb)
      have g2 := congrArg Ax.len (hab' b hb)
      exact g2.trans (((hmer' b hb).len 1 0).trans g1.symm)
    · have g0 : Y1.len b = (R 0).len b := congrArg Ax.len (hab b hb)
      have g1 : Y1.U b = (R 0).U b := congrArg Ax.U (hab b hb)
      have g2 : Y2.U b = (R 1).U b := congrArg Ax.U (hab' b hb)
      rw [g1, g2]
      exact ((hmer' b hb).knots 0 1 j j0 (by omega)).symm
  · have := u8 (x8 rfl)
    rw [u5, ← ht1] at this
    convert this using 1
    ring
  · have := v8 zleft
    rw [v5, zdeg, ← ht2] at this
    convert this using 1
    ring
  · intro b hb
    rw [← axis_degree, hab b hb]
    exact ((hmer' b hb).degree 0).unique (isGreatest_two _)
  · intro b hb
    have g := (hmer' b hb).right 0
    have e1 : Y1.n b = (R 0).n b := congrArg Ax.n (hab b hb)
    have e2 : Y1.degree b = (R 0).degree b := congrArg Ax.degree (hab b hb)
    have e3 : Y1.U b = (R 0).U b := congrArg Ax.U (hab b hb)
    rw [e1, e2, e3]
    exact g
  · intro x hx
    rw [← hhi]
    refine y9 _ ?_
    rw [← zmult]
    exact (hpos (v9 x)).mp hx
  · intro x x0 x1 hx
    rw [hpos (v9 _), zmult, ← hhi, add_sub_cancel_right]
    exact y9' x (by rw [hlo1]; exact x0) (by rw [hhi1]; exact x1) hx
  · intro x hx
    rw [u9, x11 x (fun h => absurd h (by decide)) (fun _ => by rw [hhi0]; exact hx)]
    unfold raisedAt Nrb.multOf
    have e : (t1 : ℤ) = max (X1.degree a) (X2.degree a) - N1.degree a := by rw [← hd0, ← x5, ht1]
    rw [← e]
    show ((if Spec.mult (N1.U a) 0 (N1.len a - 1) x = 0 then 0 else _ : ℕ) : ℤ) = _
    split_ifs
    · rfl
    · push_cast; rfl
  · intro x hx
    rw [v9, zmult, ← hhi, add_sub_cancel_right, y11 x (fun _ => by rw [hlo1]; exact hx) (fun h => absurd h (by decide))]
    unfold raisedAt Nrb.multOf
    have e : (t2 : ℤ) = max (X1.degree a) (X2.degree a) - N2.degree a := by rw [← hd1, ← y5, ht2]
    rw [← e]
    show ((if Spec.mult (N2.U a) 0 (N2.len a - 1) x = 0 then 0 else _ : ℕ) : ℤ) = _
    split_ifs
    · rfl
    · push_cast; rfl
  · intro b hb
    have e2 : Y1.degree b = (R 0).degree b := congrArg Ax.degree (hab b hb)
    have e3 : Y1.U b = (R 0).U b := congrArg Ax.U (hab b hb)
    rw [e2, e3]
    exact (hmer' b hb).left 0
  · intro b hb x x0 x1
    have e2 : Y1.degree b = (R 0).degree b := congrArg Ax.degree (hab b hb)
    rw [e2, hab b hb]
    exact (hmer' b hb).mult 0 x x0 x1
  · unfold Cad.joinRaw
    rw [pyAssert_ok ⟨by omega, by omega⟩, res_ok_bind, normAxis_self, res_ok_bind, hR, res_ok_bind, x1, res_ok_bind, y1,
      res_ok_bind]
    dsimp only
    rw [z1, res_ok_bind, ht1, ht2]
    rw [u1, res_ok_bind, v1, res_ok_bind, hhi]
    rfl

/-- the knots on the axis of the concatenation -/
theorem Prepared.knots {eps : K} {N1 N2 Y1 Y2 J : Nrb K (d + 1)} {a : Fin (d + 1)} {p : ℤ} (hP : Prepared eps N1 N2 Y1 Y2 a p)
    (hp : Pieces Y1 Y2 a p (N1.hi a)) (start : N2.lo a = 0) (hJ : Cad.concat a p (N1.hi a) Y1 Y2 = .ok J) :
    (∀ x, x < N1.hi a → (J.multOf a x : ℤ) = raisedAt N1 a p x) ∧
      ∀ x, N1.hi a < x → (J.multOf a x : ℤ) = raisedAt N2 a p (x - N1.hi a) := by
  have hmJ := concat_mult hp hJ
  constructor
  · intro x hx
    rw [hmJ x hx.ne, ← hP.raised1 x hx]
    have : (Y2.axis a).mult x = 0 := by
      by_contra hc
      obtain ⟨k, k0, k1, hk⟩ := Ax.mult_pos.mp (Nat.pos_of_ne_zero hc)
      have k2 : (Y2.axis a).len = Y2.n a + Y2.degree a + 2 := (Y2.axis a).len_eq
      have hl : Y2.U a 0 = N1.hi a := by
        rw [hP.l2 0 le_rfl (by have := (hP.v2 a).one_le; rw [hP.d2] at this; omega), ← hP.d2, ← Nrb.lo_eq, hp.u2]
      have := (hP.v2 a).sorted 0 k le_rfl k0 (by omega)
      rw [hl] at this
      exact absurd (this.trans_eq hk) (not_le.mpr hx)
    rw [this, add_zero]
  · intro x hx
    have e := hP.raised2 (x - N1.hi a) (by rw [start]; linarith)
    rw [sub_add_cancel] at e
    rw [hmJ x hx.ne', ← e]
    have : (Y1.axis a).mult x = 0 := by
      by_contra hc
      obtain ⟨k, k0, k1, hk⟩ := Ax.mult_pos.mp (Nat.pos_of_ne_zero hc)
      have k2 : (Y1.axis a).len = Y1.n a + Y1.degree a + 2 := (Y1.axis a).len_eq
      have hd := hP.d1
      have hl : Y1.U a (Y1.n a + p + 1) = N1.hi a := by
        rw [hP.r1 _ (by have := (hP.v1 a).one_le; omega) le_rfl, ← Nrb.hi_eq, hP.hi1]
      have := (hP.v1 a).sorted k (Y1.n a + p + 1) k0 (by omega) (by omega)
      rw [hl] at this
      exact absurd (hk.symm.le.trans this) (not_le.mpr hx)
    rw [this, zero_add]

/-- the knots on the other axes -/
theorem Prepared.other {eps : K} {N1 N2 Y1 Y2 J : Nrb K (d + 1)} {a : Fin (d + 1)} {p : ℤ} (hP : Prepared eps N1 N2 Y1 Y2 a p)
    {b : Fin (d + 1)} (hJ : J.axis b = Y1.axis b) (hb : b ≠ a) : ClampedL (J.degree b) (J.U b) ∧
      ∀ x, hullLo N1 N2 b < x → x < hullHi N1 N2 b → IsGreatest (Set.range fun j => raisedMult
        ((![N1, N2] : Fin 2 → Nrb K (d + 1)) j) b (hullLo N1 N2 b) (hullHi N1 N2 b) (J.degree b) x) (J.multOf b x : ℤ) := by
  constructor
  · have := hP.left' b hb
    rw [← axis_degree, ← axis_U, ← hJ] at this
    exact this
  · intro x x0 x1
    have e2 : J.degree b = Y1.degree b := congrArg Ax.degree hJ
    have e3 : J.multOf b x = (Y1.axis b).mult x := by rw [← hJ]; rfl
    rw [e2, e3]
    exact hP.merged b hb x x0 x1

theorem joinRaw_ok {eps : K} (heps : 0 < eps) (M : Cad.JoinMem K d) {N1 N2 : Nrb K (d + 1)} {a : Fin (d + 1)}
    (h : Joinable eps N1 N2 a) (start : N2.lo a = 0) :
    ∃ J, Cad.joinRaw eps M N1 N2 (a : ℤ) = .ok (N1.hi a, J) ∧ Joined N1 N2 J a ∧ (J.multOf a (N1.hi a) : ℤ) = J.degree a ∧
      J.Sep eps a (N1.hi a) ∧ (∀ b, b ≠ a → ClampedR (J.n b) (J.degree b) (J.U b)) ∧
      ∃ n1, 0 ≤ n1 ∧ n1 ≤ J.n a ∧ ∀ k, J.row a n1 (fun b => J.shape (a.succAbove b) - 1) k =
        (N1.eval (pieceParam N1 N2 N1 a (N1.hi a) (hullHi N1 N2)) k +
          N2.eval (pieceParam N1 N2 N2 a (N2.lo a) (hullHi N1 N2)) k) / 2 := by
  obtain ⟨Y1, Y2, p, hP, hraw⟩ := joinRaw_pieces heps M h
  have hp : Pieces Y1 Y2 a p (N1.hi a) := ⟨hP.v1, hP.v2, hP.nc, hP.others, hP.d1, hP.d2, hP.r1, hP.l2, hP.hi1, by
    rw [hP.lo2, start, zero_add]⟩
  set c := hullLo N1 N2 with hc
  set e := hullHi N1 N2 with he
  have u2 := hP.v1
  have v2 := hP.v2
  have hlob : ∀ b, b ≠ a → Y1.lo b = c b := fun b hb => (hP.lo' b hb).1
  have hlob' : ∀ b, b ≠ a → Y2.lo b = c b := fun b hb => (hP.lo' b hb).2
  have hhib : ∀ b, b ≠ a → Y1.hi b = e b := fun b hb => (hP.hi' b hb).1
  have hhib' : ∀ b, b ≠ a → Y2.hi b = e b := fun b hb => (hP.hi' b hb).2
  have haY1 := hP.aff1
  have haY2 := hP.aff2
  have hY1lo := hP.lo1
  have hY1hi := hP.hi1
  have hY2lo : Y2.lo a = N1.hi a := hp.u2
  have hY2hi := hP.hi2
  have hY1lt := Nrb.lo_lt_hi u2 a
  have hY2lt := Nrb.lo_lt_hi v2 a
  have ev1 : ∀ x : Fin (d + 1) → K, (∀ b, b ≠ a → c b ≤ x b ∧ x b ≤ e b) → ∀ t, N1.lo a ≤ t → t ≤ N1.hi a →
      ∀ k, Y1.eval (Function.update x a t) k = N1.eval (pieceParam N1 N2 N1 a t x) k := by
    intro x hx t ta tb k
    have := pieceParam_eval (s := 0) (t := t) u2 haY1 (fun b hb => (hP.lo' b hb).1) (fun b hb => (hP.hi' b hb).1) (by rw [hY1lo, add_zero]) (by rw [hY1hi, add_zero])
      (x := x) (fun b hb => by rw [hlob b hb, hhib b hb]; exact hx b hb) (by rw [hY1lo]; exact ta)
      (by rw [hY1hi]; exact tb) k
    rwa [sub_zero] at this
  have ev2 : ∀ x : Fin (d + 1) → K, (∀ b, b ≠ a → c b ≤ x b ∧ x b ≤ e b) → ∀ t, N1.hi a ≤ t → t ≤ N2.hi a + N1.hi a →
      ∀ k, Y2.eval (Function.update x a t) k = N2.eval (pieceParam N1 N2 N2 a (t - N1.hi a) x) k := by
    intro x hx t ta tb k
    exact pieceParam_eval (s := N1.hi a) (t := t) v2 haY2 (fun b hb => (hP.lo' b hb).2) (fun b hb => (hP.hi' b hb).2) (by rw [hY2lo, start, zero_add]) hY2hi
      (x := x) (fun b hb => by rw [hlob' b hb, hhib' b hb]; exact hx b hb) (by rw [hY2lo]; exact ta)
      (by rw [hY2hi]; exact tb) k
  have hgap : ∀ x : Fin (d + 1) → K, (∀ b, b ≠ a → c b ≤ x b ∧ x b ≤ e b) → ∀ k,
      gapOf Y1 Y2 a (N1.hi a) x k = joinGap N1 N2 a x k := by
    intro x hx k
    unfold gapOf joinGap
    rw [ev1 x hx _ (by rw [← hY1lo, ← hY1hi]; exact hY1lt.le) le_rfl,
      ev2 x hx _ le_rfl (by rw [← hY2hi, ← hY2lo]; exact hY2lt.le), sub_self, start]
  obtain ⟨J, j1, j2, j3, j4, j5, j6, j7, j8, j9, jn, j10, j11⟩ := concat_ok hp
  have hJlo : ∀ b, b ≠ a → J.lo b = c b := fun b hb => (congrArg Ax.lo (j8 b hb)).trans (hlob b hb)
  have hJhi : ∀ b, b ≠ a → J.hi b = e b := fun b hb => by rw [← axis_hi, j8 b hb, axis_hi]; exact hhib b hb
  have hdom : ∀ x, J.InDom x → ∀ b, b ≠ a → c b ≤ x b ∧ x b ≤ e b := fun x hx b hb => by
    rw [← hJlo b hb, ← hJhi b hb]; exact hx b
  have hJr : ∀ b, b ≠ a → ClampedR (J.n b) (J.degree b) (J.U b) := by
    intro b hb
    have := hP.right b hb
    rw [← axis_n, ← axis_degree, ← axis_U, ← j8 b hb] at this
    exact this
  obtain ⟨hK1, hK2⟩ := hP.knots hp start j1
  refine ⟨J, ?_, ⟨j2, ?_, ?_, ?_, ?_, hJlo, hJhi, ?_, ?_, ?_, ?_, ?_, ?_, ?_, hJr, ?_⟩, ?_, ?_, ?_, ?_⟩
  · rw [hraw, j1]; rfl
  · rw [j3, hP.aff1.nc]
  · rw [j4, hP.p_eq]
  · rw [j6, hY1lo]
  · rw [j7, hY2hi, start]; ring
  · intro b hb
    rw [← axis_degree, j8 b hb]
    exact hP.degree' b hb
  · intro x hx hxu
    obtain ⟨w, w0, w1, hw⟩ := (j11 x hx).1 hxu
    refine ⟨w, w0, w1, fun k => ?_⟩
    rw [hw, hgap x (hdom x hx)]
    have := ev1 x (hdom x hx) (x a) (by have := (hx a).1; rwa [j6, hY1lo] at this) hxu k
    rw [Function.update_eq_self] at this
    rw [this]
  · intro x hx hxu
    obtain ⟨w, w0, w1, hw⟩ := (j11 x hx).2 hxu
    refine ⟨w, w0, w1, fun k => ?_⟩
    rw [hw, hgap x (hdom x hx)]
    have := ev2 x (hdom x hx) (x a) hxu (by have := (hx a).2; rwa [j7, hY2hi] at this) k
    rw [Function.update_eq_self] at this
    rw [this, start, zero_add]
  · rw [j5, j4]
  · exact fun x hx => by rw [j4]; exact hK1 x hx
  · exact fun x hx => by rw [j4, start, zero_add]; exact hK2 x hx
  · exact fun b hb => (hP.other (j8 b hb) hb).1
  · intro b hb x x0 x1
    rw [hJlo b hb] at x0 ⊢
    rw [hJhi b hb] at x1 ⊢
    exact (hP.other (j8 b hb) hb).2 x x0 x1
  · rw [j5, j4]
  · rw [sep_axis]
    intro x hx
    rcases j9 x hx with g | g
    · exact sep_axis.mp h.sep1.2 x (hP.mult1 x g)
    · have := sep_axis.mp h.sep2.1 _ (hP.mult2 x g)
      rw [start] at this
      refine this.imp (fun g => by linarith) (fun g => ?_)
      rwa [show (0 : K) - (x - N1.hi a) = N1.hi a - x by ring] at g
  · exact hJr
  · refine ⟨Y1.n a, ?_, ?_, fun k => ?_⟩
    · have := (u2 a).one_le
      have := (u2 a).le
      omega
    · have := (v2 a).one_le
      have := (v2 a).le
      rw [jn]
      omega
    · have hn : (fun b => J.shape (a.succAbove b) - 1) = fun b => Y1.n (a.succAbove b) := by
        funext b
        exact congrArg Ax.n (j8 _ (Fin.succAbove_ne a b))
      have hcorner : ∀ b, b ≠ a → e b = Y1.hi b := fun b hb => (hhib b hb).symm
      have hedom : ∀ b, b ≠ a → c b ≤ e b ∧ e b ≤ e b := fun b hb => by
        rw [← hlob b hb, ← hhib b hb]; exact ⟨(Nrb.lo_lt_hi u2 b).le, le_rfl⟩
      have k1 := ev1 e hedom _ (by rw [← hY1lo, ← hY1hi]; exact hY1lt.le) le_rfl k
      have k2 := ev2 e hedom _ le_rfl (by rw [← hY2hi, ← hY2lo]; exact hY2lt.le) k
      rw [sub_self] at k2
      have hr1 := hP.right
      rw [hp.end1, across_corner u2 hr1 _ hcorner] at k1
      rw [hp.end2, across_corner u2 hr1 _ hcorner] at k2
      rw [j10, hn, start, ← k1, ← k2]

/-- C38: `join` before the removal of knots, for a second object that starts at 0: on the first part the value of the first
object, on the second part that of the second object, up to half the distance of the ends at the same other parameters
(exactly if the ends agree).  Missing: objects outside `Joinable`. -/
theorem C38_concat_partial {eps : K} (heps : 0 < eps) (M : Cad.JoinMem K d) {N1 N2 : Nrb K (d + 1)} {a : Fin (d + 1)}
    (h : Joinable eps N1 N2 a) (start : N2.lo a = 0) :
    ∃ J, Cad.joinRaw eps M N1 N2 (a : ℤ) = .ok (N1.hi a, J) ∧ Joined N1 N2 J a := by
  obtain ⟨J, h1, h2, _⟩ := joinRaw_ok heps M h start
  exact ⟨J, h1, h2⟩

theorem concat_ends {Y1 Y2 J : Nrb K (d + 1)} {a : Fin (d + 1)} {p : ℤ} {u : K} (v1 : Y1.Valid) (v2 : Y2.Valid)
    (d1 : Y1.degree a = p) (d2 : Y2.degree a = p) (h : Cad.concat a p u Y1 Y2 = .ok J) :
    J.n a = Y1.n a + Y2.n a ∧ J.degree a = p ∧ J.lo a = Y1.lo a ∧ J.hi a = Y2.hi a ∧
      J.U a = Cad.joinKnots (Y1.n a) p u (Y1.U a) (Y2.U a) := by
  unfold Cad.concat at h
  split at h
  · have hJ := (Except.ok.inj h).symm
    have l1 : Y1.len a = Y1.n a + Y1.degree a + 2 := (Y1.axis a).len_eq
    have l2 : Y2.len a = Y2.n a + Y2.degree a + 2 := (Y2.axis a).len_eq
    have s1 : Y1.shape a = Y1.n a + 1 := by unfold Nrb.n; ring
    have s2 : Y2.shape a = Y2.n a + 1 := by unfold Nrb.n; ring
    have q1 := (v1 a).one_le
    have q2 := (v1 a).le
    have q3 := (v2 a).le
    have en : J.n a = Y1.n a + Y2.n a := by
      rw [hJ, Nrb.setAxis_n_self]; omega
    have ed : J.degree a = p := by
      rw [hJ, Nrb.setAxis_degree_self]; omega
    have eU : J.U a = Cad.joinKnots (Y1.n a) p u (Y1.U a) (Y2.U a) := by
      rw [hJ, Nrb.setAxis_U_self]
    refine ⟨en, ed, ?_, ?_, eU⟩
    · rw [Nrb.lo_eq, Nrb.lo_eq, ed, eU, d1]
      unfold Cad.joinKnots
      rw [if_pos (by omega)]
    · rw [Nrb.hi_eq, Nrb.hi_eq, en, eU]
      unfold Cad.joinKnots
      rw [if_neg (by omega), if_neg (by omega)]
      congr 1
      ring
  · cases h

/-- the object before the removal of knots, for any start of the second object -/
theorem joinRaw_any {eps : K} (heps : 0 < eps) (M : Cad.JoinMem K d) {N1 N2 : Nrb K (d + 1)} {a : Fin (d + 1)}
    (h : Joinable eps N1 N2 a) :
    ∃ Y1 Y2 p J, Prepared eps N1 N2 Y1 Y2 a p ∧ Cad.joinRaw eps M N1 N2 (a : ℤ) = .ok (N1.hi a, J) ∧
      J.n a = Y1.n a + Y2.n a ∧ J.degree a = p ∧ J.lo a = N1.lo a ∧ J.hi a = N1.hi a + N2.hi a ∧
      J.U a = Cad.joinKnots (Y1.n a) p (N1.hi a) (Y1.U a) (Y2.U a) := by
  obtain ⟨Y1, Y2, p, hP, hraw⟩ := joinRaw_pieces heps M h
  obtain ⟨J, hJ⟩ : ∃ J, Cad.concat a p (N1.hi a) Y1 Y2 = .ok J := by
    unfold Cad.concat
    rw [if_pos ⟨hP.nc, fun b hb => (hP.others.shape b hb).symm⟩]
    exact ⟨_, rfl⟩
  obtain ⟨g1, g2, g3, g4, g5⟩ := concat_ends hP.v1 hP.v2 hP.d1 hP.d2 hJ
  refine ⟨Y1, Y2, p, J, hP, ?_, g1, g2, by rw [g3, hP.lo1], by rw [g4, hP.hi2]; ring, g5⟩
  rw [hraw, hJ]
  rfl

/-- C38, negative part: whatever its start, the second object gets the parameters from the end of the first one to
`N1.hi + N2.hi`.  This is the length of its domain only if it starts at 0; otherwise it is distorted. -/
theorem C38_distorted {eps : K} (heps : 0 < eps) (M : Cad.JoinMem K d) {N1 N2 : Nrb K (d + 1)} {a : Fin (d + 1)}
    (h : Joinable eps N1 N2 a) :
    ∃ J, Cad.joinRaw eps M N1 N2 (a : ℤ) = .ok (N1.hi a, J) ∧ J.lo a = N1.lo a ∧
      (J.hi a - N1.hi a = N2.hi a - N2.lo a ↔ N2.lo a = 0) := by
  obtain ⟨Y1, Y2, p, J, _, h1, _, _, h3, h4, _⟩ := joinRaw_any heps M h
  refine ⟨J, h1, h3, ?_⟩
  rw [h4]
  constructor <;> intro g <;> linarith

/-- C38, negative part: if the second object has a negative knot inside its domain, the knots of the joined object
decrease -/
theorem C38_unsorted {eps : K} (heps : 0 < eps) (M : Cad.JoinMem K d) {N1 N2 : Nrb K (d + 1)} {a : Fin (d + 1)}
    (h : Joinable eps N1 N2 a) {x : K} (h1 : N2.lo a < x) (h2 : x < N2.hi a) (h3 : x < 0) (hx : 0 < N2.multOf a x) :
    ∃ J, Cad.joinRaw eps M N1 N2 (a : ℤ) = .ok (N1.hi a, J) ∧ ¬ J.Valid ∧
      ∃ i j, 0 ≤ i ∧ i < j ∧ j < J.len a ∧ J.U a j < J.U a i := by
  obtain ⟨Y1, Y2, p, J, hP, g1, g2, g3, g4, g5, g6⟩ := joinRaw_any heps M h
  obtain ⟨k, k0, k1, k2⟩ := Ax.mult_pos.mp (hP.inner2 x h1 h2 hx)
  have k1 : k < Y2.len a := k1
  have k2 : Y2.U a k = x + N1.hi a := k2
  have q1 := (hP.v1 a).one_le
  have q2 := (hP.v1 a).le
  have l2 : Y2.len a = Y2.n a + Y2.degree a + 2 := (Y2.axis a).len_eq
  have lJ : J.len a = J.n a + J.degree a + 2 := (J.axis a).len_eq
  have e1 := hP.d1
  have e2 := hP.d2
  have hk : p < k := by
    by_contra hc
    have := hP.l2 k k0 (by omega)
    have hl := hP.lo2
    rw [Nrb.lo_eq, e2, ← this, k2] at hl
    have : x = N2.lo a := by linarith
    exact absurd h1 (this ▸ lt_irrefl _)
  have hdec : J.U a (Y1.n a + k) < J.U a (Y1.n a + 1) := by
    rw [g6]
    unfold Cad.joinKnots
    rw [if_neg (by omega), if_neg (by omega), if_neg (by omega), if_pos (by omega), add_sub_cancel_left, k2]
    linarith
  refine ⟨J, g1, fun hv => ?_, Y1.n a + 1, Y1.n a + k, by omega, by omega, by omega, hdec⟩
  exact absurd hdec (not_lt.mpr ((hv a).sorted _ _ (by omega) (by omega) (by omega)))

end Join

section Real
variable {d : ℕ}

/-- tolerance of the removal of knots in `join`: `p - 1` times `1e-9` times the size of the last component where the upper
corners of the two ends meet -/
noncomputable def joinSlack (N1 N2 : Nrb ℝ (d + 1)) (a : Fin (d + 1)) : ℝ :=
  ((max (N1.degree a) (N2.degree a) : ℤ) - 1) * (1 / 10 ^ 9 *
    |(N1.eval (pieceParam N1 N2 N1 a (N1.hi a) (hullHi N1 N2)) (N1.nc - 1) +
      N2.eval (pieceParam N1 N2 N2 a (N2.lo a) (hullHi N1 N2)) (N1.nc - 1)) / 2|)

theorem removeTol_le {N : Nrb ℝ (d + 1)} {a : Fin (d + 1)} {dev : ℝ} (hd : 0 ≤ dev) {i : ℤ}
    (h0 : 0 ≤ i) (hi : i ≤ N.n a) :
    N.removeTol a dev ≤ dev * |N.row a i (fun b => N.shape (a.succAbove b) - 1) (N.nc - 1)| := by
  unfold Nrb.removeTol
  dsimp only
  set W := minUpTo (N.n a) (fun i => N.row a i (fun b => a.removeNth N.shape b - 1) (N.nc - 1)) with hW
  have hm := maxUpTo_nonneg (n := N.n a) (f := fun i => rowNorm (a.removeNth N.shape) N.nc (N.row a i)) (by omega)
    (Real.sqrt_nonneg _)
  have hle : W ≤ |N.row a i (fun b => N.shape (a.succAbove b) - 1) (N.nc - 1)| :=
    (minUpTo_le (f := fun i => N.row a i (fun b => a.removeNth N.shape b - 1) (N.nc - 1)) (by omega) h0 hi).trans
      (le_abs_self _)
  rw [div_le_iff₀ (by linarith)]
  have h1 : dev * W ≤ dev * |N.row a i (fun b => N.shape (a.succAbove b) - 1) (N.nc - 1)| :=
    mul_le_mul_of_nonneg_left hle hd
  have h2 := mul_nonneg (mul_nonneg hd (abs_nonneg (N.row a i (fun b => N.shape (a.succAbove b) - 1) (N.nc - 1)))) hm
  linarith

/-- C38: `join(n1, n2, axis)` for a second object that starts at 0.  The result has the domain of the first object
prolonged by that of the second one; on the first part it is the first object and on the second part the second
object, up to half the distance of the ends at the same other parameters and the tolerance of the removal of knots (zero
for degree 1).  Missing: objects outside `Joinable`; an exact statement for higher degrees is false because of the
tolerance. -/
theorem C38_join_partial {eps : ℝ} (heps : 0 < eps) (M : Cad.JoinMem ℝ d) {N1 N2 : Nrb ℝ (d + 1)} {a : Fin (d + 1)}
    (h : Joinable eps N1 N2 a) (start : N2.lo a = 0) :
    ∃ R, Cad.join eps M N1 N2 (a : ℤ) = .ok R ∧ R.Valid ∧ R.nc = N1.nc ∧ R.lo a = N1.lo a ∧
      R.hi a = N1.hi a + (N2.hi a - N2.lo a) ∧
      (∀ b, b ≠ a → R.lo b = hullLo N1 N2 b ∧ R.hi b = hullHi N1 N2 b) ∧
      (∀ b, R.degree b = max (N1.degree b) (N2.degree b)) ∧
      ∀ x, R.InDom x → ∀ k < N1.nc,
        (x a ≤ N1.hi a → |R.eval x k - N1.eval (pieceParam N1 N2 N1 a (x a) x) k| ≤
          |joinGap N1 N2 a x k| / 2 + joinSlack N1 N2 a) ∧
        (N1.hi a ≤ x a → |R.eval x k - N2.eval (pieceParam N1 N2 N2 a (N2.lo a + (x a - N1.hi a)) x) k| ≤
          |joinGap N1 N2 a x k| / 2 + joinSlack N1 N2 a) := by
  obtain ⟨J, h1, hJ, hm, hs, hr, n1, n0, n2, hrow⟩ := joinRaw_ok heps M h start
  have hlt : J.lo a < N1.hi a := by rw [hJ.lo]; exact Nrb.lo_lt_hi h.v1 a
  have hgt : N1.hi a < J.hi a := by
    have := Nrb.lo_lt_hi h.v2 a
    rw [hJ.hi]; linarith
  have hp := (hJ.valid a).one_le
  obtain ⟨t, ht⟩ := Int.eq_ofNat_of_zero_le (by omega : 0 ≤ J.degree a - 1)
  obtain ⟨R, k, r1, r2, r3, r4, r5, _, _, _, r9, r10, _⟩ := C17_remove_deviation heps M.remove hJ.valid (normAxis_self a)
    hlt hgt hs hm.le t (1 / 10 ^ 9)
  have htol : (k : ℝ) * J.removeTol a (1 / 10 ^ 9) ≤ joinSlack N1 N2 a := by
    have g := removeTol_le (N := J) (a := a) (dev := 1 / 10 ^ 9) (by positivity) n0 n2
    rw [hrow, hJ.nc] at g
    unfold joinSlack
    have e : ((max (N1.degree a) (N2.degree a) : ℤ) : ℝ) - 1 = (t : ℝ) := by
      rw [← hJ.degree]
      have := congrArg (fun z : ℤ => (z : ℝ)) ht
      push_cast at this
      simpa using this
    rw [e]
    calc (k : ℝ) * J.removeTol a (1 / 10 ^ 9) ≤ k * _ := mul_le_mul_of_nonneg_left g (by positivity)
      _ ≤ _ := mul_le_mul_of_nonneg_right (by exact_mod_cast r2) (by positivity)
  refine ⟨R, ?_, r4, by rw [r5, hJ.nc], by rw [(r9 a).2.1, hJ.lo], by rw [(r9 a).2.2, hJ.hi], fun b hb => ?_, fun b => ?_,
    fun x hx k' hk' => ?_⟩
  · unfold Cad.join
    rw [h1, res_ok_bind, normAxis_self, res_ok_bind]
    dsimp only
    rw [ht, r1]
  · rw [(r9 b).2.1, (r9 b).2.2]
    exact ⟨hJ.lo' b hb, hJ.hi' b hb⟩
  · rw [(r9 b).1]
    by_cases hb : b = a
    · subst hb; exact hJ.degree
    · exact hJ.degree' b hb
  · have hxJ : J.InDom x := fun b => by
      have := hx b
      rwa [(r9 b).2.1, (r9 b).2.2] at this
    have hdev := (r10 x hxJ k' (by rw [hJ.nc]; exact hk')).trans htol
    have key : ∀ {w g : ℝ}, 0 ≤ w → w ≤ 1 / 2 → |w * g| ≤ |g| / 2 := by
      intro w g w0 w1
      rw [abs_mul, abs_of_nonneg w0]
      have := mul_le_mul_of_nonneg_right w1 (abs_nonneg g)
      linarith
    constructor
    · intro hxa
      obtain ⟨w, w0, w1, hw⟩ := hJ.first x hxJ hxa
      have := abs_sub_le (R.eval x k') (J.eval x k') (N1.eval (pieceParam N1 N2 N1 a (x a) x) k')
      have e : J.eval x k' - N1.eval (pieceParam N1 N2 N1 a (x a) x) k' = w * joinGap N1 N2 a x k' := by
        rw [hw]; ring
      rw [e] at this
      linarith [key (g := joinGap N1 N2 a x k') w0 w1]
    · intro hxa
      obtain ⟨w, w0, w1, hw⟩ := hJ.second x hxJ hxa
      have := abs_sub_le (R.eval x k') (J.eval x k')
        (N2.eval (pieceParam N1 N2 N2 a (N2.lo a + (x a - N1.hi a)) x) k')
      have e : J.eval x k' - N2.eval (pieceParam N1 N2 N2 a (N2.lo a + (x a - N1.hi a)) x) k' =
          -(w * joinGap N1 N2 a x k') := by
        rw [hw]; ring
      rw [e, abs_neg] at this
      linarith [key (g := joinGap N1 N2 a x k') w0 w1]

/-- C38, negative part: if the domain of the second object ends before 0, `join` fails an assertion (of `remove`) -/
theorem C38_fails {eps : ℝ} (heps : 0 < eps) (M : Cad.JoinMem ℝ d) {N1 N2 : Nrb ℝ (d + 1)} {a : Fin (d + 1)}
    (h : Joinable eps N1 N2 a) (hneg : N2.hi a < 0) : Cad.join eps M N1 N2 (a : ℤ) = .error .assertion := by
  obtain ⟨Y1, Y2, p, J, hP, g1, g2, g3, g4, g5, g6⟩ := joinRaw_any heps M h
  unfold Cad.join
  rw [g1, res_ok_bind, normAxis_self, res_ok_bind]
  unfold Nrb.remove
  rw [normAxis_self, res_ok_bind]
  dsimp only
  rw [pyAssert_err (by rw [g5]; intro hc; linarith [hc.2])]
  rfl

/-- C38, negative part, for two objects of degree 1 on the axis, whose knots `join` does not try to remove: the domain of
the result is too long by `N2.lo` -/
theorem C38_distorted_linear {eps : ℝ} (heps : 0 < eps) (M : Cad.JoinMem ℝ d) {N1 N2 : Nrb ℝ (d + 1)} {a : Fin (d + 1)}
    (h : Joinable eps N1 N2 a) (h1 : N1.degree a = 1) (h2 : N2.degree a = 1) (hpos : 0 ≤ N2.hi a) :
    ∃ R, Cad.join eps M N1 N2 (a : ℤ) = .ok R ∧ R.lo a = N1.lo a ∧
      R.hi a = N1.hi a + (N2.hi a - N2.lo a) + N2.lo a := by
  obtain ⟨Y1, Y2, p, J, hP, g1, g2, g3, g4, g5, g6⟩ := joinRaw_any heps M h
  have hp : p = 1 := by rw [hP.p_eq, h1, h2]; rfl
  have q1 := (hP.v1 a).le
  have q2 := (hP.v2 a).le
  have q3 := (hP.v1 a).one_le
  have q4 := (hP.v2 a).one_le
  have lJ : J.len a = J.n a + J.degree a + 2 := (J.axis a).len_eq
  refine ⟨J, ?_, g4, by rw [g5]; ring⟩
  unfold Cad.join
  rw [g1, res_ok_bind, normAxis_self, res_ok_bind]
  unfold Nrb.remove
  rw [normAxis_self, res_ok_bind]
  dsimp only
  have hlo := Nrb.lo_lt_hi h.v1 a
  rw [pyAssert_ok ⟨by rw [g4]; exact hlo.le, by rw [g5]; linarith⟩, res_ok_bind]
  have hFM : ∃ m, 0 ≤ m ∧ BSp.FindMult eps (J.degree a) (J.len a - 1) (J.U a) (N1.hi a) = .ok m := by
    unfold BSp.FindMult
    rw [if_pos ⟨by omega, by omega⟩]
    exact ⟨_, findMult_nonneg _ _ _ _ _, rfl⟩
  obtain ⟨m, m0, hm⟩ := hFM
  rw [hm, res_ok_bind, g3, hp, Option.getD_some]
  have e : min ((1 : ℤ) - 1) (min m 1) = 0 := by omega
  rw [e, pyAssert_ok le_rfl, res_ok_bind, if_pos rfl]
  rfl

/-- C38: an axis out of range fails an assertion -/
theorem C38_rejects (eps : ℝ) (M : Cad.JoinMem ℝ d) (N1 N2 : Nrb ℝ (d + 1)) {axis : ℤ}
    (h : axis < 0 ∨ (d : ℤ) + 1 ≤ axis) : Cad.join eps M N1 N2 axis = .error .assertion := by
  unfold Cad.join Cad.joinRaw
  rw [pyAssert_err (by omega)]
  rfl

end Real

/-! ## Examples -/

section Helpers
variable {K : Type} [Field K] [LinearOrder K] [IsStrictOrderedRing K]

/-- curves of equal degree -/
theorem joinable_curves {eps : K} {N1 N2 : Nrb K 1} (v1 : N1.Valid) (v2 : N2.Valid) (nc : N1.nc = N2.nc)
    (s1 : N1.SepBoth eps 0) (s2 : N2.SepBoth eps 0) (hd : N1.degree 0 = N2.degree 0) : Joinable eps N1 N2 0 :=
  ⟨v1, v2, nc, s1, s2, fun b hb => absurd (Subsingleton.elim (α := Fin 1) b 0) hb, fun t ht h => by omega, fun t ht h => by omega⟩

end Helpers

namespace Ex

/-- a segment over ℝ, weights 1 -/
noncomputable def rseg (a b x y : ℝ) : Nrb ℝ 1 where
  shape := fun _ => 2
  nc := 4
  len := fun _ => 4
  U := fun _ i => if i ≤ 1 then a else b
  P := fun idx c => if c = 0 then (if idx 0 = 0 then x else y) else if c = 3 then 1 else 0

section
variable {a b : ℝ} (hab : a + 1 / 1000 ≤ b) (x y : ℝ) (i : Fin 1)
include hab

theorem rseg_n : (rseg a b x y).n i = 1 := by simp [Nrb.n, rseg]
theorem rseg_degree : (rseg a b x y).degree i = 1 := by simp [Nrb.degree, rseg]
theorem rseg_lo : (rseg a b x y).lo i = a := by rw [Nrb.lo_eq, rseg_degree hab]; simp [rseg]
theorem rseg_hi : (rseg a b x y).hi i = b := by rw [Nrb.hi_eq, rseg_n hab]; norm_num [rseg]

theorem rseg_valid : (rseg a b x y).Valid := by
  intro i
  rw [rseg_n hab, rseg_degree hab]
  refine ⟨by norm_num, by norm_num, sortedOn_of_steps ?_, ?_, ?_⟩
  · intro j h1 h2
    have h2 : j < 3 := by simpa using h2
    interval_cases j <;> norm_num [rseg] <;> linarith
  · norm_num [rseg]; linarith
  · norm_num [rseg]; linarith

theorem rseg_sep : (rseg a b x y).SepBoth (1 / 1000) i := by
  constructor
  · rw [rseg_lo hab]
    intro j h1 h2
    have h2 : j ≤ 3 := by simpa [rseg] using h2
    have : 1 / 1000 ≤ |a - b| := by rw [abs_sub_comm, abs_of_nonneg (by linarith)]; linarith
    interval_cases j <;> norm_num [rseg] <;> right <;> norm_num at this <;> exact this
  · rw [rseg_hi hab]
    intro j h1 h2
    have h2 : j ≤ 3 := by simpa [rseg] using h2
    have : 1 / 1000 ≤ |b - a| := by rw [abs_of_nonneg (by linarith)]; linarith
    interval_cases j <;> norm_num [rseg] <;> right <;> norm_num at this <;> exact this

end

theorem rseg_joinable {a b a' b' : ℝ} (h : a + 1 / 1000 ≤ b) (h' : a' + 1 / 1000 ≤ b') (x y x' y' : ℝ) :
    Joinable (1 / 1000) (rseg a b x y) (rseg a' b' x' y') 0 :=
  joinable_curves (rseg_valid h x y) (rseg_valid h' x' y') rfl (rseg_sep h x y 0) (rseg_sep h' x' y' 0)
    (by rw [rseg_degree h, rseg_degree h'])

theorem Rc_sepBoth : Rc.SepBoth (1 / 1000) 0 := by
  constructor
  · rw [Rc_lo]
    intro j h1 h2
    have h2 : j ≤ 6 := by simpa [RcOf] using h2
    interval_cases j <;> norm_num [RcOf]
  · rw [Rc_hi]
    intro j h1 h2
    have h2 : j ≤ 6 := by simpa [RcOf] using h2
    interval_cases j <;> norm_num [RcOf]

/-- a rational curve of degree 2 continued by itself -/
example (M : Cad.JoinMem ℝ 0) := C38_join_partial (by norm_num) M
  (joinable_curves (Rc_valid _ _) (Rc_valid _ _) rfl Rc_sepBoth Rc_sepBoth rfl) (Rc_lo _ _ _)

/-- two segments on `[2, 3]` and `[1, 2]`: the second one gets the parameters `[3, 5]` -/
example (M : Cad.JoinMem ℝ 0) : ∃ R, Cad.join (1 / 1000) M (rseg 2 3 0 1) (rseg 1 2 1 2) 0 = .ok R ∧
    R.lo 0 = 2 ∧ R.hi 0 = 5 := by
  have e1 : (2 : ℝ) + 1 / 1000 ≤ 3 := by norm_num
  have e2 : (1 : ℝ) + 1 / 1000 ≤ 2 := by norm_num
  obtain ⟨R, h1, h2, h3⟩ := C38_distorted_linear (by norm_num) M (rseg_joinable e1 e2 0 1 1 2) (rseg_degree e1 _ _ _)
    (rseg_degree e2 _ _ _) (by rw [rseg_hi e2]; norm_num)
  rw [rseg_lo e1] at h2
  rw [rseg_hi e1, rseg_hi e2, rseg_lo e2] at h3
  exact ⟨R, h1, h2, by rw [h3]; norm_num⟩

example (M : Cad.JoinMem ℝ 0) : Cad.join (1 / 1000) M (rseg 0 1 0 1) (rseg (-2) (-1) 1 2) 0 = .error .assertion :=
  have e2 : (-2 : ℝ) + 1 / 1000 ≤ -1 := by norm_num
  C38_fails (by norm_num) M (rseg_joinable (by norm_num) e2 0 1 1 2) (by rw [rseg_hi e2]; norm_num)

/-- a curve of degree 1 on `[-2, 1]` with the break -1 -/
def neg : Nrb ℚ 1 where
  shape := ![3]
  nc := 4
  len := ![5]
  U := ![vec [-2, -2, -1, 1, 1]]
  P := fun idx c => if c = 3 then 1 else idx 0

theorem sepBoth_of {N : Nrb ℚ 1} (h : ∀ j ∈ Finset.Ico 0 (N.len 0), (N.U 0 j = N.lo 0 ∨ 1 / 1000 ≤ |N.lo 0 - N.U 0 j|) ∧
    (N.U 0 j = N.hi 0 ∨ 1 / 1000 ≤ |N.hi 0 - N.U 0 j|)) : N.SepBoth (1 / 1000) 0 :=
  ⟨fun j j0 j1 => (h j (Finset.mem_Ico.mpr ⟨j0, by omega⟩)).1, fun j j0 j1 => (h j (Finset.mem_Ico.mpr ⟨j0, by omega⟩)).2⟩

theorem neg_joinable : Joinable (1 / 1000) (segment 1 0 1 0 0 1 1) neg 0 := by
  refine joinable_curves ?_ ?_ rfl (sepBoth_of (by decide +kernel)) (sepBoth_of (by decide +kernel)) (by decide +kernel)
  · apply valid_of <;> decide +kernel
  · apply valid_of <;> decide +kernel

example (M : Cad.JoinMem ℚ 0) := C38_unsorted (by norm_num) M neg_joinable (x := -1) (by decide +kernel) (by decide +kernel)
  (by norm_num) (by decide +kernel)

example (M : Cad.JoinMem ℚ 0) := C38_distorted (by norm_num) M neg_joinable

/-- a curve of degree 2 on `[0, 3]` continued by a segment on `[0, 1]`, which is raised to degree 2 -/
theorem K1_joinable : Joinable (1 / 1000) K1 (segment 1 0 1 0 0 1 1) 0 := by
  refine ⟨K1_valid, ?_, rfl, sepBoth_of (by decide +kernel), sepBoth_of (by decide +kernel),
    fun b hb => absurd (Subsingleton.elim (α := Fin 1) b 0) hb, fun t ht h => ?_, fun t ht h => ?_⟩
  · apply valid_of <;> decide +kernel
  · have : K1.degree 0 = 2 := by decide +kernel
    have : (segment 1 0 1 0 0 1 1).degree 0 = 1 := by decide +kernel
    omega
  · refine ⟨clampedL_of_list (by decide +kernel), clampedR_of_list (by decide +kernel),
      multLe_of_list (by decide +kernel) (by decide +kernel), ?_, fun _ => Or.inl (by decide +kernel)⟩
    have key : ∀ k ∈ Finset.Icc (1 : ℤ) 1, (segment 1 0 1 0 0 1 1).U 0 k < (segment 1 0 1 0 0 1 1).U 0 (k + 1) →
      1 / 1000 < (segment 1 0 1 0 0 1 1).U 0 (k + 1) - (segment 1 0 1 0 0 1 1).U 0 k := by decide +kernel
    intro k k0 k1
    exact key k (Finset.mem_Icc.mpr ⟨k0, k1⟩)

example (M : Cad.JoinMem ℚ 0) := C38_concat_partial (by norm_num) M K1_joinable (by decide +kernel)

/-- two surfaces joined along the second axis: other axes made compatible -/
def J1 : Nrb ℚ 2 where
  shape := ![6, 2]
  nc := 4
  len := ![9, 4]
  U := ![U, vec [0, 0, 1, 1]]
  P := fun idx c => if c = 3 then 1 else idx 0 + c * idx 1

@[inherit_doc J1]
def J2 : Nrb ℚ 2 where
  shape := ![3, 3]
  nc := 4
  len := ![5, 5]
  U := ![vec [1, 1, 3 / 2, 2, 2], vec [0, 0, 1, 2, 2]]
  P := fun idx c => if c = 3 then 1 else 7 - idx 0 + c * idx 1

theorem J_valid : J1.Valid ∧ J2.Valid := by
  constructor
  · intro a
    fin_cases a
    · exact U_valid
    · refine ⟨by decide +kernel, by decide +kernel, sortedOn_of_steps ?_, by decide +kernel, by decide +kernel⟩
      intro i h1 h2
      have h2 : i < 3 := h2
      interval_cases i <;> decide +kernel
  · intro a
    fin_cases a
    · exact K2_valid 0
    · refine ⟨by decide +kernel, by decide +kernel, sortedOn_of_steps ?_, by decide +kernel, by decide +kernel⟩
      intro i h1 h2
      have h2 : i < 4 := h2
      interval_cases i <;> decide +kernel

theorem J_joinable : Joinable (1 / 1000) J1 J2 1 := by
  have d1 : J1.degree 1 = 1 := by decide +kernel
  have d2 : J2.degree 1 = 1 := by decide +kernel
  refine ⟨J_valid.1, J_valid.2, rfl, ?_, ?_, fun b hb => ?_, fun t ht h => by omega, fun t ht h => by omega⟩
  · have key : ∀ j ∈ Finset.Ico 0 (J1.len 1), (J1.U 1 j = J1.lo 1 ∨ 1 / 1000 ≤ |J1.lo 1 - J1.U 1 j|) ∧
      (J1.U 1 j = J1.hi 1 ∨ 1 / 1000 ≤ |J1.hi 1 - J1.U 1 j|) := by decide +kernel
    exact ⟨fun j j0 j1 => (key j (Finset.mem_Ico.mpr ⟨j0, by omega⟩)).1,
      fun j j0 j1 => (key j (Finset.mem_Ico.mpr ⟨j0, by omega⟩)).2⟩
  · have key : ∀ j ∈ Finset.Ico 0 (J2.len 1), (J2.U 1 j = J2.lo 1 ∨ 1 / 1000 ≤ |J2.lo 1 - J2.U 1 j|) ∧
      (J2.U 1 j = J2.hi 1 ∨ 1 / 1000 ≤ |J2.hi 1 - J2.U 1 j|) := by decide +kernel
    exact ⟨fun j j0 j1 => (key j (Finset.mem_Ico.mpr ⟨j0, by omega⟩)).1,
      fun j j0 j1 => (key j (Finset.mem_Ico.mpr ⟨j0, by omega⟩)).2⟩
  · have hb : b = 0 := by
      fin_cases b
      · rfl
      · exact absurd rfl hb
    subst hb
    have e1 : hullLo J1 J2 0 = 0 := by decide +kernel
    have e2 : hullHi J1 J2 0 = 3 := by decide +kernel
    rw [e1, e2]
    refine ⟨fun i => ?_, fun i => ?_, fun i => ?_, fun i j k l h1 h2 h3 h4 => ?_, fun i j _ h => ?_⟩
    · fin_cases i <;> exact clampedL_of_list (by decide +kernel)
    · fin_cases i <;> exact clampedR_of_list (by decide +kernel)
    · fin_cases i <;> exact multLe_of_list (by decide +kernel) (by decide +kernel)
    · have key : ∀ i j : Fin 2, ∀ k ∈ Finset.Ico 0 ((![J1, J2] i).len 0), ∀ l ∈ Finset.Ico 0 ((![J1, J2] j).len 0),
          affMap ((![J1, J2] i).lo 0) ((![J1, J2] i).hi 0) 0 3 ((![J1, J2] i).U 0 k) =
            affMap ((![J1, J2] j).lo 0) ((![J1, J2] j).hi 0) 0 3 ((![J1, J2] j).U 0 l) ∨
          1 / 1000 < |affMap ((![J1, J2] i).lo 0) ((![J1, J2] i).hi 0) 0 3 ((![J1, J2] i).U 0 k) -
            affMap ((![J1, J2] j).lo 0) ((![J1, J2] j).hi 0) 0 3 ((![J1, J2] j).U 0 l)| := by
        decide +kernel
      exact key i j k (Finset.mem_Ico.mpr ⟨h1, h2⟩) l (Finset.mem_Ico.mpr ⟨h3, h4⟩)
    · left
      fin_cases i <;> decide +kernel

example (M : Cad.JoinMem ℚ 1) := C38_concat_partial (by norm_num) M J_joinable (by decide +kernel)

end Ex
end Igakit
