import Verif.Props.Part
import Verif.Props.Ruled

/-!
# Property C100: compat has one result, does not depend on the order of the objects, and is idempotent

The three theorems about the call carry the suffix `_partial`: as in C39, the objects must be clamped on the axes
asked for, with interior multiplicities at most the degree, knots equal or more than `eps` apart, and elevation
within the limits of C16 (`Compatible`). On axes not asked for, interior multiplicities are at most the degree.
What is missing are the other inputs, where `compat` itself can fail (C39_unclamped).
-/

set_option linter.unusedSectionVars false

namespace Igakit
open Spec

variable {K : Type} [Field K] [LinearOrder K] [IsStrictOrderedRing K] {d m : ℕ}

/-- clamped axes with the same domain, degree and interior multiplicities have the same knots -/
theorem clamped_same {X Y : Nrb K d} (hX : X.Valid) (hY : Y.Valid) {a : Fin d}
    (lX : ClampedL (X.degree a) (X.U a)) (rX : ClampedR (X.n a) (X.degree a) (X.U a))
    (lY : ClampedL (Y.degree a) (Y.U a)) (rY : ClampedR (Y.n a) (Y.degree a) (Y.U a))
    (hlo : Y.lo a = X.lo a) (hhi : Y.hi a = X.hi a) (hd : Y.degree a = X.degree a)
    (hm : ∀ x, X.lo a < x → x < X.hi a → Y.multOf a x = X.multOf a x) : Y.knots a = X.knots a := by
  ext x
  rw [← multOf_eq_count, ← multOf_eq_count]
  have out : ∀ {Z : Nrb K d}, Z.Valid → ClampedL (Z.degree a) (Z.U a) → ClampedR (Z.n a) (Z.degree a) (Z.U a) →
      (x < Z.lo a ∨ Z.hi a < x) → Z.multOf a x = 0 := by
    intro Z hZ l r h
    by_contra hc
    have hp : 0 < (Z.axis a).mult x := by rw [axis_mult]; omega
    obtain ⟨h1, h2⟩ := Ax.mult_range (A := Z.axis a) (hZ a) l r hp
    rw [axis_lo] at h1
    rw [axis_hi] at h2
    rcases h with h | h
    · exact absurd h1 (not_le.2 h)
    · exact absurd h2 (not_le.2 h)
  have atlo : ∀ {Z : Nrb K d}, Z.Valid → ClampedL (Z.degree a) (Z.U a) → (Z.multOf a (Z.lo a) : ℤ) = Z.degree a + 1 := by
    intro Z hZ l
    have := Ax.mult_lo (A := Z.axis a) (hZ a) l
    rwa [axis_lo, axis_mult, axis_degree] at this
  have athi : ∀ {Z : Nrb K d}, Z.Valid → ClampedR (Z.n a) (Z.degree a) (Z.U a) →
      (Z.multOf a (Z.hi a) : ℤ) = Z.degree a + 1 := by
    intro Z hZ l
    have := Ax.mult_hi (A := Z.axis a) (hZ a) l
    rwa [axis_hi, axis_mult, axis_degree] at this
  rcases lt_trichotomy x (X.lo a) with h | h | h
  · rw [out hX lX rX (Or.inl h), out hY lY rY (Or.inl (by rw [hlo]; exact h))]
  · have e1 := atlo hX lX
    have e2 := atlo hY lY
    rw [hlo] at e2
    rw [h]
    omega
  · rcases lt_trichotomy x (X.hi a) with h' | h' | h'
    · exact hm x h h'
    · have e1 := athi hX rX
      have e2 := athi hY rY
      rw [hhi] at e2
      rw [h']
      omega
    · rw [out hX lX rX (Or.inr h'), out hY lY rY (Or.inr (by rw [hhi]; exact h'))]

section merged
variable {eps : K} {N R R' : Fin m → Nrb K d} {a : Fin d} {c e : K}

/-- the result has no interior knot of multiplicity above the degree -/
theorem Merged.inner (hv : ∀ i, (N i).Valid) (hR : ∀ i, (R i).Valid) (hce : c < e) (hc : Compatible eps N a c e)
    (h : Merged N R a c e) (i : Fin m) : (R i).InnerMult a := by
  intro x x1 x2
  rw [h.lo] at x1
  rw [h.hi] at x2
  obtain ⟨⟨j, hj⟩, _⟩ := h.mult i x x1 x2
  rw [← hj]
  dsimp only
  have h1 := (hR i a).one_le
  have hlt := valid_lo_lt_hi (hv j) a
  have hm := hc.mult j (affMap c e ((N j).lo a) ((N j).hi a) x)
    (by
      have := (affMap_lt hce hlt).2 x1
      rwa [affMap_left hce] at this)
    (by
      have := (affMap_lt hce hlt).2 x2
      rw [affMap_right hce] at this
      rw [← Nrb.hi_eq]
      exact this)
  have e1 : Spec.mult ((N j).U a) 0 ((N j).n a + (N j).degree a + 1) (affMap c e ((N j).lo a) ((N j).hi a) x) =
      (N j).multOf a (affMap c e ((N j).lo a) ((N j).hi a) x) := by
    unfold Nrb.multOf
    congr 1
    unfold Nrb.degree Nrb.n
    ring
  rw [e1] at hm
  unfold raisedMult
  dsimp only
  split_ifs <;> omega

/-- every knot of the result is a knot of one of the objects, stretched -/
theorem Merged.from (hv : ∀ i, (N i).Valid) (hR : ∀ i, (R i).Valid) (hce : c < e) (h : Merged N R a c e) (i : Fin m)
    {k : ℤ} (k0 : 0 ≤ k) (k1 : k < (R i).len a) :
    ∃ j l, 0 ≤ l ∧ l < (N j).len a ∧ affMap ((N j).lo a) ((N j).hi a) c e ((N j).U a l) = (R i).U a k := by
  have hpos : 0 < ((R i).axis a).mult ((R i).U a k) := Ax.mult_pos.2 ⟨k, k0, k1, rfl⟩
  obtain ⟨r1, r2⟩ := Ax.mult_range (A := (R i).axis a) (hR i a) (h.left i) (h.right i) hpos
  rw [axis_lo, h.lo] at r1
  rw [axis_hi, h.hi] at r2
  have hlt := valid_lo_lt_hi (hv i) a
  have hl := (hv i a).one_le
  have hn := (hv i a).le
  have hlen : (N i).len a = (N i).n a + (N i).degree a + 2 := by unfold Nrb.degree Nrb.n; ring
  rcases r1.eq_or_lt with q | q
  · refine ⟨i, (N i).degree a, by omega, by omega, ?_⟩
    rw [← q]
    exact affMap_left hlt _ _
  rcases r2.eq_or_lt with q' | q'
  · refine ⟨i, (N i).n a + 1, by omega, by omega, ?_⟩
    rw [q', ← Nrb.hi_eq]
    exact affMap_right hlt _ _
  obtain ⟨⟨j, hj⟩, _⟩ := h.mult i _ q q'
  rw [axis_mult] at hpos
  dsimp only at hj
  unfold raisedMult at hj
  dsimp only at hj
  have hs : 0 < ((N j).axis a).mult (affMap c e ((N j).lo a) ((N j).hi a) ((R i).U a k)) := by
    rw [axis_mult]
    by_contra hc
    rw [if_pos (by omega)] at hj
    omega
  obtain ⟨l, l0, l1, hl⟩ := Ax.mult_pos.1 hs
  refine ⟨j, l, l0, l1, ?_⟩
  change (N j).U a l = _ at hl
  rw [hl, affMap_inv hce (valid_lo_lt_hi (hv j) a)]

theorem Merged.compatible (hv : ∀ i, (N i).Valid) (hR : ∀ i, (R i).Valid) (hce : c < e) (hc : Compatible eps N a c e)
    (h : Merged N R a c e) : Compatible eps R a c e := by
  refine ⟨h.left, h.right, fun i x x1 x2 => ?_, fun i j k l k0 k1 l0 l1 => ?_, fun i j _ hlt => ?_⟩
  · have := h.inner hv hR hce hc i x x1 (by rw [Nrb.hi_eq]; exact x2)
    have e1 : Spec.mult ((R i).U a) 0 ((R i).n a + (R i).degree a + 1) x = (R i).multOf a x := by
      unfold Nrb.multOf
      congr 1
      unfold Nrb.degree Nrb.n
      ring
    rw [e1]
    exact this
  · rw [h.lo, h.hi, h.lo, h.hi, affMap_id hce, affMap_id hce]
    obtain ⟨i', k', p0, p1, p2⟩ := h.from hv hR hce i k0 k1
    obtain ⟨j', l', q0, q1, q2⟩ := h.from hv hR hce j l0 l1
    rw [← p2, ← q2]
    exact hc.sep i' j' k' l' p0 p1 q0 q1
  · exact absurd ((h.degree i).unique (h.degree j)) hlt.ne

/-- two results have the same knots -/
theorem Merged.unique (hR : ∀ i, (R i).Valid) (hR' : ∀ i, (R' i).Valid) (h : Merged N R a c e) (h' : Merged N R' a c e)
    (i : Fin m) : (R' i).degree a = (R i).degree a ∧ (R' i).knots a = (R i).knots a := by
  have hd : (R' i).degree a = (R i).degree a := (h'.degree i).unique (h.degree i)
  refine ⟨hd, clamped_same (hR i) (hR' i) (h.left i) (h.right i) (h'.left i) (h'.right i) (by rw [h.lo, h'.lo])
    (by rw [h.hi, h'.hi]) hd (fun x x1 x2 => ?_)⟩
  rw [h.lo] at x1
  rw [h.hi] at x2
  have e1 := h.mult i x x1 x2
  have e2 := h'.mult i x x1 x2
  rw [hd] at e2
  exact_mod_cast e2.unique e1

/-- merging once more changes no knots -/
theorem Merged.again (hR : ∀ i, (R i).Valid) (hR' : ∀ i, (R' i).Valid) (hce : c < e) (h : Merged N R a c e)
    (h' : Merged R R' a c e) (i : Fin m) : (R' i).degree a = (R i).degree a ∧ (R' i).knots a = (R i).knots a := by
  have hdd : ∀ j, (R j).degree a = (R i).degree a := fun j => (h.degree j).unique (h.degree i)
  have hd : (R' i).degree a = (R i).degree a := by
    obtain ⟨⟨j, hj⟩, _⟩ := h'.degree i
    rw [← hj]
    exact hdd j
  refine ⟨hd, clamped_same (hR i) (hR' i) (h.left i) (h.right i) (h'.left i) (h'.right i) (by rw [h.lo, h'.lo])
    (by rw [h.hi, h'.hi]) hd (fun x x1 x2 => ?_)⟩
  rw [h.lo] at x1
  rw [h.hi] at x2
  obtain ⟨⟨j, hj⟩, _⟩ := h'.mult i x x1 x2
  have ej := h.mult j x x1 x2
  rw [hdd j] at ej
  have e1 := ej.unique (h.mult i x x1 x2)
  dsimp only at hj
  unfold raisedMult at hj
  dsimp only at hj
  rw [h.lo, h.hi, affMap_id hce, hd, hdd j] at hj
  split_ifs at hj <;> omega

end merged

section compat
variable {N R R' : Fin m → Nrb K (d + 1)} {A : List (Fin (d + 1))} {c e : Fin (d + 1) → K}

/-- C100, as a statement about results: two families which agree with the specification of `compat` are the same -/
theorem C100_unique {eps : K} (hv : ∀ i, (N i).Valid) (hce : ∀ a, c a < e a)
    (hcomp : ∀ a ∈ A, Compatible eps N a (c a) (e a)) (hin : ∀ i, ∀ a ∉ A, (N i).InnerMult a)
    (v : ∀ i, (R i).Valid) (v' : ∀ i, (R' i).Valid) (r : ∀ i, (N i).AffineOf (R i)) (r' : ∀ i, (N i).AffineOf (R' i))
    (g : ∀ a ∈ A, Merged N R a (c a) (e a)) (g' : ∀ a ∈ A, Merged N R' a (c a) (e a))
    (o : ∀ i, ∀ a ∉ A, (R i).shape a = (N i).shape a ∧ (R i).len a = (N i).len a ∧ (R i).U a = (N i).U a)
    (o' : ∀ i, ∀ a ∉ A, (R' i).shape a = (N i).shape a ∧ (R' i).len a = (N i).len a ∧ (R' i).U a = (N i).U a) (i : Fin m) :
    (R i).SameData (R' i) := by
  have off : ∀ {X Y : Nrb K (d + 1)} {a : Fin (d + 1)}, X.shape a = Y.shape a ∧ X.len a = Y.len a ∧ X.U a = Y.U a →
      X.degree a = Y.degree a ∧ X.knots a = Y.knots a ∧ X.lo a = Y.lo a ∧ X.hi a = Y.hi a ∧
        ∀ x, X.multOf a x = Y.multOf a x := by
    rintro X Y a ⟨e1, e2, e3⟩
    have hd : X.degree a = Y.degree a := by unfold Nrb.degree; rw [e1, e2]
    refine ⟨hd, ?_, ?_, ?_, fun x => ?_⟩
    · unfold Nrb.knots; rw [e2, e3]
    · unfold Nrb.lo; rw [hd, e3]
    · unfold Nrb.hi; rw [hd, e2, e3]
    · unfold Nrb.multOf; rw [e2, e3]
  have key : ∀ a, (R' i).degree a = (R i).degree a ∧ (R' i).knots a = (R i).knots a ∧ (R' i).lo a = (R i).lo a ∧
      (R' i).hi a = (R i).hi a := by
    intro a
    by_cases ha : a ∈ A
    · obtain ⟨q1, q2⟩ := (g a ha).unique v v' (g' a ha) i
      exact ⟨q1, q2, by rw [(g a ha).lo, (g' a ha).lo], by rw [(g a ha).hi, (g' a ha).hi]⟩
    · obtain ⟨p1, p2, p3, p4, _⟩ := off (o i a ha)
      obtain ⟨q1, q2, q3, q4, _⟩ := off (o' i a ha)
      exact ⟨q1.trans p1.symm, q2.trans p2.symm, q3.trans p3.symm, q4.trans p4.symm⟩
  refine sameData_of_knots (v i) (v' i) (fun a => ?_) (by rw [(r i).nc, (r' i).nc]) (fun a => (key a).1)
    (fun a => (key a).2.1) (fun x hx hx' => ?_)
  · by_cases ha : a ∈ A
    · exact (g a ha).inner hv v (hce a) (hcomp a ha) i
    · obtain ⟨p1, p2, p3, p4, p5⟩ := off (o i a ha)
      intro x x1 x2
      rw [p5, p1]
      rw [p3] at x1
      rw [p4] at x2
      exact hin i a ha x x1 x2
  · rw [(r i).eval x hx, (r' i).eval x hx']
    congr 1
    funext b
    rw [(key b).2.2.1, (key b).2.2.2]

variable {eps : K} (heps : 0 < eps) (hm : 2 ≤ m) (hv : ∀ i, (N i).Valid) {axes : Option (List ℤ)}
  (hA : DenotesAxes axes A) (hnd : A.Nodup) (hc : ∀ a, IsLeast (Set.range fun i => (N i).lo a) (c a))
  (he : ∀ a, IsGreatest (Set.range fun i => (N i).hi a) (e a))
  (hcomp : ∀ a ∈ A, Compatible eps N a (c a) (e a)) (hin : ∀ i, ∀ a ∉ A, (N i).InnerMult a)
include heps hm hv hA hnd hc he hcomp hin

/-- C100: `compat` does not depend on uninitialised memory, nor on the way the axes are written -/
theorem C100_memory_partial {axes' : Option (List ℤ)} (hA' : DenotesAxes axes' A)
    (M1 M2 M1' M2' : Fin m → Fin (d + 1) → Mem K d) :
    ∃ R R', Cad.compat eps M1 M2 N axes = .ok R ∧ Cad.compat eps M1' M2' N axes' = .ok R' ∧
      ∀ i, (R i).SameData (R' i) := by
  have hce := compat_lt hv ⟨0, by omega⟩ hc he
  obtain ⟨R, h1, h2, h3, h4, h5⟩ := C39_compat_partial heps M1 M2 hm hv hA hnd hc he hcomp
  obtain ⟨R', k1, k2, k3, k4, k5⟩ := C39_compat_partial heps M1' M2' hm hv hA' hnd hc he hcomp
  exact ⟨R, R', h1, k1, C100_unique hv hce hcomp hin h2 k2 h3 k3 h4 k4 h5 k5⟩

/-- C100: `compat` treats all objects alike: in another order they give the same results in that order -/
theorem C100_order_partial (σ : Equiv.Perm (Fin m)) (M1 M2 M1' M2' : Fin m → Fin (d + 1) → Mem K d) :
    ∃ R R', Cad.compat eps M1 M2 N axes = .ok R ∧ Cad.compat eps M1' M2' (fun i => N (σ i)) axes = .ok R' ∧
      ∀ i, (R (σ i)).SameData (R' i) := by
  have hce := compat_lt hv ⟨0, by omega⟩ hc he
  have rng : ∀ {β : Type} (f : Fin m → β), (Set.range fun i => f (σ i)) = Set.range f :=
    fun f => σ.surjective.range_comp f
  have hcomp' : ∀ a ∈ A, Compatible eps (fun i => N (σ i)) a (c a) (e a) := by
    intro a ha
    obtain ⟨q1, q2, q3, q4, q5⟩ := hcomp a ha
    refine ⟨fun i => q1 _, fun i => q2 _, fun i => q3 _, fun i j => q4 _ _, fun i j hk hl => q5 _ _ (fun k => ?_) hl⟩
    have := hk (σ.symm k)
    simpa using this
  obtain ⟨R, h1, h2, h3, h4, h5⟩ := C39_compat_partial heps M1 M2 hm hv hA hnd hc he hcomp
  obtain ⟨R', k1, k2, k3, k4, k5⟩ := C39_compat_partial heps M1' M2' hm (N := fun i => N (σ i)) (fun i => hv _) hA hnd
    (fun a => by rw [rng (fun i => (N i).lo a)]; exact hc a) (fun a => by rw [rng (fun i => (N i).hi a)]; exact he a) hcomp'
  refine ⟨R, R', h1, k1, C100_unique (N := fun i => N (σ i)) (R := fun i => R (σ i)) (fun i => hv _) hce hcomp'
    (fun i => hin _) (fun i => h2 _) k2 (fun i => h3 _) k3 (fun a ha => ?_) k4 (fun i => h5 _) k5⟩
  obtain ⟨q1, q2, q3, q4, q5, q6, q7, q8, q9⟩ := h4 a ha
  refine ⟨fun i => q1 _, fun i => q2 _, fun i => ?_, fun i => q4 _, fun i => q5 _, fun i x x1 x2 => ?_, fun i j => q7 _ _,
    fun i j => q8 _ _, fun i j => q9 _ _⟩
  · rw [rng (fun j => (N j).degree a)]; exact q3 _
  · rw [rng (fun j => raisedMult (N j) a (c a) (e a) ((R (σ i)).degree a) x)]; exact q6 _ x x1 x2

/-- C100: a second `compat` changes nothing -/
theorem C100_idempotent_partial (M1 M2 M1' M2' : Fin m → Fin (d + 1) → Mem K d) :
    ∃ R R', Cad.compat eps M1 M2 N axes = .ok R ∧ Cad.compat eps M1' M2' R axes = .ok R' ∧
      ∀ i, (R i).SameData (R' i) := by
  have hce := compat_lt hv ⟨0, by omega⟩ hc he
  obtain ⟨R, h1, h2, h3, h4, h5⟩ := C39_compat_partial heps M1 M2 hm hv hA hnd hc he hcomp
  have off : ∀ i, ∀ a ∉ A, (R i).degree a = (N i).degree a ∧ (R i).lo a = (N i).lo a ∧ (R i).hi a = (N i).hi a ∧
        ∀ x, (R i).multOf a x = (N i).multOf a x := by
    intro i a ha
    obtain ⟨e1, e2, e3⟩ := h5 i a ha
    have hd : (R i).degree a = (N i).degree a := by unfold Nrb.degree; rw [e1, e2]
    refine ⟨hd, ?_, ?_, fun x => ?_⟩
    · unfold Nrb.lo; rw [hd, e3]
    · unfold Nrb.hi; rw [hd, e2, e3]
    · unfold Nrb.multOf; rw [e2, e3]
  have i0 : Fin m := ⟨0, by omega⟩
  have hc' : ∀ a, IsLeast (Set.range fun i => (R i).lo a) (c a) := by
    intro a
    by_cases ha : a ∈ A
    · refine ⟨⟨i0, (h4 a ha).lo i0⟩, ?_⟩
      rintro _ ⟨j, rfl⟩
      exact ((h4 a ha).lo j).ge
    · rw [show (fun i => (R i).lo a) = fun i => (N i).lo a from funext fun i => (off i a ha).2.1]
      exact hc a
  have he' : ∀ a, IsGreatest (Set.range fun i => (R i).hi a) (e a) := by
    intro a
    by_cases ha : a ∈ A
    · refine ⟨⟨i0, (h4 a ha).hi i0⟩, ?_⟩
      rintro _ ⟨j, rfl⟩
      exact ((h4 a ha).hi j).le
    · rw [show (fun i => (R i).hi a) = fun i => (N i).hi a from funext fun i => (off i a ha).2.2.1]
      exact he a
  have hcomp' : ∀ a ∈ A, Compatible eps R a (c a) (e a) :=
    fun a ha => (h4 a ha).compatible hv h2 (hce a) (hcomp a ha)
  obtain ⟨R', k1, k2, k3, k4, k5⟩ := C39_compat_partial heps M1' M2' hm h2 hA hnd hc' he' hcomp'
  refine ⟨R, R', h1, k1, fun i => ?_⟩
  have key : ∀ a, (R' i).degree a = (R i).degree a ∧ (R' i).knots a = (R i).knots a ∧ (R' i).lo a = (R i).lo a ∧
      (R' i).hi a = (R i).hi a := by
    intro a
    by_cases ha : a ∈ A
    · obtain ⟨q1, q2⟩ := (h4 a ha).again h2 k2 (hce a) (k4 a ha) i
      exact ⟨q1, q2, by rw [(h4 a ha).lo, (k4 a ha).lo], by rw [(h4 a ha).hi, (k4 a ha).hi]⟩
    · obtain ⟨e1, e2, e3⟩ := k5 i a ha
      have hd : (R' i).degree a = (R i).degree a := by unfold Nrb.degree; rw [e1, e2]
      refine ⟨hd, ?_, ?_, ?_⟩
      · unfold Nrb.knots; rw [e2, e3]
      · unfold Nrb.lo; rw [hd, e3]
      · unfold Nrb.hi; rw [hd, e2, e3]
  refine sameData_of_knots (h2 i) (k2 i) (fun a => ?_) (k3 i).nc (fun a => (key a).1)
    (fun a => (key a).2.1) (fun x hx hx' => ?_)
  · by_cases ha : a ∈ A
    · exact (h4 a ha).inner hv h2 (hce a) (hcomp a ha) i
    · obtain ⟨p1, p3, p4, p5⟩ := off i a ha
      intro x x1 x2
      rw [p5, p1]
      rw [p3] at x1
      rw [p4] at x2
      exact hin i a ha x x1 x2
  · rw [(k3 i).eval x hx']
    congr 1
    funext b
    rw [(key b).2.2.1, (key b).2.2.2, affMap_id (valid_lo_lt_hi (h2 i) b)]

end compat

namespace Ex

/-- memory before and after, with different contents -/
def memA : Fin 2 → Fin 1 → Mem ℚ 0 := fun _ _ => ⟨fun _ => 7, fun _ _ _ => 9, fun _ _ => 5⟩

def memB : Fin 2 → Fin 1 → Mem ℚ 0 := fun _ _ => ⟨fun _ => 8, fun _ _ _ => 10, fun _ _ => 11⟩

theorem K_least : ∀ a : Fin 1, IsLeast (Set.range fun i => ((![K1, K2] : Fin 2 → Nrb ℚ 1) i).lo a) 0 := by
  intro a
  fin_cases a
  exact ⟨⟨0, by decide +kernel⟩, by rintro _ ⟨i, rfl⟩; fin_cases i <;> decide +kernel⟩

theorem K_greatest : ∀ a : Fin 1, IsGreatest (Set.range fun i => ((![K1, K2] : Fin 2 → Nrb ℚ 1) i).hi a) 3 := by
  intro a
  fin_cases a
  exact ⟨⟨0, by decide +kernel⟩, by rintro _ ⟨i, rfl⟩; fin_cases i <;> decide +kernel⟩

theorem K_valid : ∀ i, ((![K1, K2] : Fin 2 → Nrb ℚ 1) i).Valid := by
  intro i
  fin_cases i
  exacts [K1_valid, K2_valid]

/-- curves of degrees 2 on `[0, 3]` and 1 on `[1, 2]`; the axis is given as `-1` or `0`, the memory differs -/
example := C100_memory_partial (eps := 1 / 1000) (by norm_num) le_rfl K_valid (axes := some [-1]) (A := [0])
  (.cons (Or.inr rfl) .nil) (by decide) (c := fun _ => 0) (e := fun _ => 3) K_least K_greatest
  (fun a _ => by fin_cases a; exact K_compatible) (fun _ a ha => absurd (by fin_cases a; simp) ha)
  (axes' := some [0]) (.cons (Or.inl rfl) .nil) memA memB memB memA

/-- the two curves exchanged -/
example := C100_order_partial (eps := 1 / 1000) (by norm_num) le_rfl K_valid (axes := some [-1]) (A := [0])
  (.cons (Or.inr rfl) .nil) (by decide) (c := fun _ => 0) (e := fun _ => 3) K_least K_greatest
  (fun a _ => by fin_cases a; exact K_compatible) (fun _ a ha => absurd (by fin_cases a; simp) ha)
  (Equiv.swap 0 1) memA memB memB memA

example := C100_idempotent_partial (eps := 1 / 1000) (by norm_num) le_rfl K_valid (axes := some [-1]) (A := [0])
  (.cons (Or.inr rfl) .nil) (by decide) (c := fun _ => 0) (e := fun _ => 3) K_least K_greatest
  (fun a _ => by fin_cases a; exact K_compatible) (fun _ a ha => absurd (by fin_cases a; simp) ha)
  memA memB memB memA

end Ex
end Igakit
