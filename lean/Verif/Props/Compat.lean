import Verif.Proofs.Merge

/-! # C39: `cad.compat` makes degrees and knots equal without changing the maps -/

set_option linter.unusedSectionVars false

namespace Igakit
open Spec

variable {K : Type} [Field K] [LinearOrder K] [IsStrictOrderedRing K] {d m : ℕ}

theorem mapM_res_ok {α β : Type} {f : α → Res β} {g : α → β} {l : List α} (h : ∀ a ∈ l, f a = .ok (g a)) :
    l.mapM f = .ok (l.map g) := by
  induction l with
  | nil => rfl
  | cons a l ih =>
    rw [List.mapM_cons, h a List.mem_cons_self, res_ok_bind,
      ih (fun b hb => h b (List.mem_cons_of_mem _ hb)), res_ok_bind, res_pure, List.map_cons]

/-- `axes` is the argument and `A` the axes it denotes: all axes if it is missing -/
def DenotesAxes (axes : Option (List ℤ)) (A : List (Fin d)) : Prop :=
  match axes with
  | none => A = List.finRange d
  | some l => List.Forall₂ (fun (i : ℤ) (a : Fin d) => i = a ∨ i = (a : ℤ) - d) l A

theorem compatAxes_ok {axes : Option (List ℤ)} {A : List (Fin d)} (h : DenotesAxes axes A) :
    Cad.compatAxes d axes = .ok A := by
  cases axes with
  | none => unfold DenotesAxes at h; subst h; rfl
  | some l =>
    unfold DenotesAxes at h
    show l.mapM (normAxis d) = .ok A
    induction h with
    | nil => rfl
    | @cons i a l A hi _ ih =>
      rw [List.mapM_cons]
      have : normAxis d i = .ok a := by
        have ha := a.isLt
        unfold normAxis
        rcases hi with hi | hi
        · rw [dif_pos (by omega)]
          congr 1; ext; dsimp only; omega
        · rw [dif_neg (by omega), dif_pos (by omega)]
          congr 1; ext; dsimp only; omega
      rw [this, res_ok_bind, ih, res_ok_bind, res_pure]

section stages
variable {eps : K} {N : Fin m → Nrb K (d + 1)} {A : List (Fin (d + 1))} {c e : Fin (d + 1) → K}

theorem compat_lt (hv : ∀ i, (N i).Valid) (i0 : Fin m) (hc : ∀ a, IsLeast (Set.range fun i => (N i).lo a) (c a))
    (he : ∀ a, IsGreatest (Set.range fun i => (N i).hi a) (e a)) (a : Fin (d + 1)) : c a < e a :=
  lt_of_le_of_lt ((hc a).2 ⟨i0, rfl⟩) (lt_of_lt_of_le (Nrb.lo_lt_hi (hv i0) a) ((he a).2 ⟨i0, rfl⟩))

theorem sameBounds_ok (hv : ∀ i, (N i).Valid) (i0 : Fin m) (hnd : A.Nodup)
    (hc : ∀ a, IsLeast (Set.range fun i => (N i).lo a) (c a))
    (he : ∀ a, IsGreatest (Set.range fun i => (N i).hi a) (e a)) :
    ∃ N1, Cad.sameBounds N A = .ok N1 ∧ (∀ i, (N1 i).Valid) ∧ (∀ i, (N i).AffineOf (N1 i)) ∧
      (∀ i, ∀ a ∉ A, (N1 i).axis a = (N i).axis a) ∧
      ∀ i, ∀ a ∈ A, (N1 i).axis a = ((N i).axis a).stretch (c a) (e a) := by
  have hm : 0 < m := lt_of_le_of_lt (Nat.zero_le _) i0.isLt
  have h1 : ∀ a, Cad.listMin (List.ofFn (fun j => (N j).lo a)) = c a := fun a =>
    (ofFn_min 0 (fun j => (N j).lo a) hm).unique (hc a)
  have h2 : ∀ a, Cad.listMax (List.ofFn (fun j => (N j).hi a)) = e a := fun a =>
    (ofFn_max 0 (fun j => (N j).hi a) hm).unique (he a)
  have h := fun i => fold_axes (R := Nrb.AffineOf) (Pre := fun _ _ => True)
    (Post := fun a B B' => B' = B.stretch (c a) (e a))
    (step := fun X (a : Fin (d + 1)) => X.remap (a : ℤ) (some (c a)) (some (e a)))
    (fun N hv => .refl hv) (fun N N' N'' v v' v'' => .trans v v' v'')
    (fun N a v _ => remap_step (compat_lt hv i0 hc he a) N a v) A hnd (N i) (hv i) (fun _ _ => trivial)
  choose N1 g1 g2 g3 g4 g5 using h
  refine ⟨N1, ?_, g2, g3, g4, g5⟩
  unfold Cad.sameBounds
  simp only [h1, h2]
  exact seqFin_ok g1

theorem sameDegree_ok (heps : 0 ≤ eps) (M : Fin m → Fin (d + 1) → Mem K d) (hv : ∀ i, (N i).Valid) (hnd : A.Nodup)
    {q : Fin (d + 1) → ℤ} (hq : ∀ a, IsGreatest (Set.range fun i => (N i).degree a) (q a))
    (i0 : Fin m) (hE : ∀ i, ∀ a ∈ A, ((N i).axis a).Elev eps (q a - (N i).degree a).toNat) :
    ∃ N2, Cad.sameDegree eps M N A = .ok N2 ∧ (∀ i, (N2 i).Valid) ∧ (∀ i, (N i).AffineOf (N2 i)) ∧
      (∀ i, ∀ a ∉ A, (N2 i).axis a = (N i).axis a) ∧
      ∀ i, ∀ a ∈ A, ((N i).axis a).Raised ((N2 i).axis a) (q a - (N i).degree a).toNat := by
  have hm : 0 < m := lt_of_le_of_lt (Nat.zero_le _) i0.isLt
  have h1 : ∀ a, Cad.degMax N a = q a := fun a =>
    (ofFn_max 0 (fun j => (N j).degree a) hm).unique (hq a)
  have h2 : ∀ i a, q a - (N i).degree a = ((q a - (N i).degree a).toNat : ℤ) := fun i a => by
    have := (hq a).2 ⟨i, rfl⟩
    dsimp only at this
    omega
  have h := fun i => fold_axes (R := Nrb.AffineOf)
    (Pre := fun a B => B.Elev eps (q a - (N i).degree a).toNat)
    (Post := fun a B B' => B.Raised B' (q a - (N i).degree a).toNat)
    (step := fun X (a : Fin (d + 1)) => X.elevate eps (M i a).k (M i a).e (M i a).b (a : ℤ)
      (some ((q a - (N i).degree a).toNat : ℤ)))
    (fun N hv => .refl hv) (fun N N' N'' v v' v'' => .trans v v' v'')
    (fun X a v hX => elevate_step heps (M i a) _ X a v hX) A hnd (N i) (hv i) (fun a ha => hE i a ha)
  choose N1 g1 g2 g3 g4 g5 using h
  refine ⟨N1, ?_, g2, g3, g4, g5⟩
  unfold Cad.sameDegree
  apply seqFin_ok
  intro i
  rw [← g1 i]
  congr 1
  funext X a
  rw [h1, ← h2]

theorem mergeKnots_ok (heps : 0 < eps) (M : Fin m → Fin (d + 1) → Mem K d) (hv : ∀ i, (N i).Valid) (hnd : A.Nodup)
    {q : Fin (d + 1) → ℤ} (hL : ∀ a ∈ A, Level eps (q a) (c a) (e a) (fun i => (N i).axis a)) :
    ∃ N3, Cad.mergeKnots eps M N A = .ok N3 ∧ (∀ i, (N3 i).Valid) ∧ (∀ i, (N i).AffineOf (N3 i)) ∧
      (∀ i, ∀ a ∉ A, (N3 i).axis a = (N i).axis a) ∧
      ∀ a ∈ A, ∃ l : Fin m → List K,
        (∀ i x, ((l i).count x : ℤ) = max 0 (topMult (fun i => (N i).axis a) (c a) (e a) x -
          ((N i).axis a).innerMult (c a) (e a) x)) ∧
        ∀ i, ((N i).axis a).Refined ((N3 i).axis a) (l i) := by
  have hb : ∀ a, ∃ bs : Fin m → List (K × ℤ), a ∈ A → Cad.innerBreaks eps N a = .ok bs ∧
      ∀ i x, Cad.multIn (bs i) x = ((N i).axis a).innerMult (c a) (e a) x := by
    intro a
    by_cases ha : a ∈ A
    · have hLa := hL a ha
      have hlt : ∀ i, (N i).lo a < (N i).hi a := fun i => Nrb.lo_lt_hi (hv i) a
      have hlen : ∀ i, (N i).len a = (N i).n a + (N i).degree a + 2 := fun i => ((N i).axis a).len_eq
      have hsep : ∀ i k, 0 ≤ k → k < (N i).len a → (N i).Sep eps a ((N i).U a k) := by
        intro i k h0 h1 j h0' h1'
        rcases hLa.sep i i _ _ (Ax.mult_pos.mpr ⟨k, h0, h1, rfl⟩)
          (Ax.mult_pos.mpr ⟨j, h0', by show j < (N i).len a; omega, rfl⟩) with h | h
        · exact Or.inl h.symm
        · exact Or.inr h.le
      obtain ⟨bs, g1, g2⟩ := innerBreaks_ok heps hv (a := a) (fun i => by
        have hp := (hv i a).one_le
        have hn := (hv i a).le
        have := hlen i
        refine ⟨?_, ?_⟩
        · rw [(N i).lo_eq]; exact hsep i _ (by omega) (by omega)
        · rw [(N i).hi_eq]; exact hsep i _ (by omega) (by omega))
      refine ⟨bs, fun _ => ⟨g1, fun i x => ?_⟩⟩
      have e1 := hLa.lo i
      have e2 := hLa.hi i
      rw [axis_lo] at e1
      rw [axis_hi] at e2
      rw [g2, e1, e2]
      rfl
    · exact ⟨fun _ => [], fun h => absurd h ha⟩
  choose bs hbs using hb
  have hl : ∀ a ∈ A, ∀ i x, ((Cad.mergeVals (bs a) i).count x : ℤ) =
      max 0 (topMult (fun i => (N i).axis a) (c a) (e a) x - ((N i).axis a).innerMult (c a) (e a) x) := by
    intro a ha i x
    rw [mergeVals_count]
    simp only [(hbs a ha).2]
    rfl
  have h := fun i => fold_axes (R := Nrb.AffineOf)
    (Pre := fun a B => B.Refinable eps (Cad.mergeVals (bs a) i))
    (Post := fun a B B' => B.Refined B' (Cad.mergeVals (bs a) i))
    (step := fun X (a : Fin (d + 1)) => X.refine eps (M i a).k (M i a).e (a : ℤ) (Cad.mergeVals (bs a) i))
    (fun N hv => .refl hv) (fun N N' N'' v v' v'' => .trans v v' v'')
    (fun X a v hX => refine_step heps (M i a) _ X a v hX) A hnd (N i) (hv i)
    (fun a ha => (hL a ha).refinable (hl a ha) i)
  choose N3 g1 g2 g3 g4 g5 using h
  refine ⟨N3, ?_, g2, g3, g4, fun a ha => ⟨fun i => Cad.mergeVals (bs a) i, hl a ha, fun i => g5 i a ha⟩⟩
  unfold Cad.mergeKnots
  have hmap : A.mapM (fun a => do
      let bs ← Cad.innerBreaks eps N a
      pure (a, Cad.mergeVals bs)) = (.ok (A.map (fun a => (a, Cad.mergeVals (bs a)))) : Res _) := by
    apply mapM_res_ok
    intro a ha
    rw [(hbs a ha).1, res_ok_bind, res_pure]
  rw [hmap, res_ok_bind]
  apply seqFin_ok
  intro i
  rw [← g1 i, List.foldlM_map]

end stages

/-- C39: `compat` succeeds on clamped objects, returns affine reparametrisations of its arguments, and on every
axis asked for the results have the same domain (the hull of the domains), the same degree (the largest) and
the same knots, with no more multiplicity than some argument needs; other axes are left alone. -/
theorem C39_compat_partial {eps : K} (heps : 0 < eps) (M1 M2 : Fin m → Fin (d + 1) → Mem K d) {N : Fin m → Nrb K (d + 1)}
    (hm : 2 ≤ m) (hv : ∀ i, (N i).Valid) {axes : Option (List ℤ)} {A : List (Fin (d + 1))}
    (hA : DenotesAxes axes A) (hnd : A.Nodup) {c e : Fin (d + 1) → K}
    (hc : ∀ a, IsLeast (Set.range fun i => (N i).lo a) (c a))
    (he : ∀ a, IsGreatest (Set.range fun i => (N i).hi a) (e a))
    (hcomp : ∀ a ∈ A, Compatible eps N a (c a) (e a)) :
    ∃ R, Cad.compat eps M1 M2 N axes = .ok R ∧ (∀ i, (R i).Valid) ∧ (∀ i, (N i).AffineOf (R i)) ∧
      (∀ a ∈ A, Merged N R a (c a) (e a)) ∧
      ∀ i, ∀ a ∉ A, (R i).shape a = (N i).shape a ∧ (R i).len a = (N i).len a ∧ (R i).U a = (N i).U a := by
  have i0 : Fin m := ⟨0, by omega⟩
  have hce := compat_lt hv i0 hc he
  unfold Cad.compat
  rw [if_neg (by omega), compatAxes_ok hA, res_ok_bind]
  by_cases hnil : A = []
  · rw [if_pos hnil]
    subst hnil
    exact ⟨N, rfl, hv, fun i => .refl (hv i), fun a ha => absurd ha (by simp), fun i a _ => ⟨rfl, rfl, rfl⟩⟩
  rw [if_neg hnil]
  obtain ⟨N1, a1, v1, r1, o1, s1⟩ := sameBounds_ok hv i0 hnd hc he
  rw [a1, res_ok_bind]
  have hdeg1 : ∀ i a, (N1 i).degree a = (N i).degree a := by
    intro i a
    by_cases ha : a ∈ A
    · rw [← axis_degree, s1 i a ha]; rfl
    · rw [← axis_degree, o1 i a ha]; rfl
  obtain ⟨q, hq⟩ : ∃ q : Fin (d + 1) → ℤ, ∀ a, IsGreatest (Set.range fun i => (N i).degree a) (q a) :=
    ⟨fun a => _, fun a => ofFn_max 0 (fun j => (N j).degree a) (by omega)⟩
  have hq1 : ∀ a, IsGreatest (Set.range fun i => (N1 i).degree a) (q a) := by
    intro a
    simp only [hdeg1]
    exact hq a
  have hdle : ∀ i a, (N i).degree a ≤ q a := fun i a => (hq a).2 ⟨i, rfl⟩
  have hlt : ∀ i a, ((N i).axis a).lo < ((N i).axis a).hi := fun i a => by
    rw [axis_lo, axis_hi]; exact Nrb.lo_lt_hi (hv i) a
  have hsep : ∀ a ∈ A, ∀ i j k l, 0 ≤ k → k < (N i).len a → 0 ≤ l → l < (N j).len a →
      (((N i).axis a).stretch (c a) (e a)).U k = (((N j).axis a).stretch (c a) (e a)).U l ∨
      eps < |(((N i).axis a).stretch (c a) (e a)).U k - (((N j).axis a).stretch (c a) (e a)).U l| := by
    intro a ha i j k l h1 h2 h3 h4
    have := (hcomp a ha).sep i j k l h1 h2 h3 h4
    rw [← axis_lo, ← axis_hi, ← axis_lo (N j), ← axis_hi (N j)] at this
    exact this
  obtain ⟨N2, a2, v2, r2, o2, s2⟩ := sameDegree_ok heps.le M1 v1 hnd hq1 i0 (by
    intro i a ha
    rw [s1 i a ha]
    have hC := hcomp a ha
    refine ⟨stretch_left (hC.left i), stretch_right (hC.right i), stretch_multLe (hlt i a) (hce a) (hC.mult i),
      ?_, ?_⟩
    · intro k h0 h1 h2
      have hp := (hv i a).one_le
      have hlen := ((N i).axis a).len_eq
      change (N i).degree a ≤ k at h0
      change k ≤ (N i).n a at h1
      change (N i).len a = (N i).n a + (N i).degree a + 2 at hlen
      rcases hsep a ha i i (k + 1) k (by omega) (by omega) (by omega) (by omega) with h | h
      · exact absurd h h2.ne'
      · rwa [abs_of_pos (sub_pos.mpr h2)] at h
    · intro ht
      rw [hdeg1] at ht
      obtain ⟨j, hj⟩ := (hq a).1
      dsimp only at hj
      rcases hC.jump i j (fun k => by rw [hj]; exact hdle k a) (by omega) with h | h
      · exact Or.inl h
      · refine Or.inr ?_
        have : (((q a - (N1 i).degree a).toNat : ℕ) : ℤ) = (N j).degree a - (N i).degree a := by
          rw [hdeg1, hj]; omega
        rw [this]
        exact stretch_noJump (hlt i a) (hce a) h)
  rw [a2, res_ok_bind]
  have hL : ∀ a ∈ A, Level eps (q a) (c a) (e a) (fun i => (N2 i).axis a) := by
    intro a ha
    have hC := hcomp a ha
    have hpos : ∀ i x, 0 < ((N2 i).axis a).mult x → ∃ k, 0 ≤ k ∧ k < (N i).len a ∧
        (((N i).axis a).stretch (c a) (e a)).U k = x := by
      intro i x hx
      have h := (s2 i a ha).mult x
      rw [s1 i a ha] at h
      have : 0 < (((N i).axis a).stretch (c a) (e a)).mult x := by
        split_ifs at h <;> omega
      exact Ax.mult_pos.mp this
    refine ⟨fun i => v2 i a, fun i => ?_, fun i => ?_, fun i => ?_, fun i => (s2 i a ha).left,
      fun i => (s2 i a ha).right, fun i x h1 h2 => ?_, fun i j x y hx hy => ?_⟩
    · have := (s2 i a ha).degree
      rw [axis_degree (N1 i), hdeg1] at this
      have := hdle i a
      omega
    · rw [(s2 i a ha).lo, s1 i a ha, stretch_lo (hlt i a)]
    · rw [(s2 i a ha).hi, s1 i a ha, stretch_hi (hlt i a)]
    · have h := (s2 i a ha).mult x
      rw [s1 i a ha] at h
      have h3 := stretch_multLe (hlt i a) (hce a) (hC.mult i) x
        (by show (((N i).axis a).stretch (c a) (e a)).lo < x; rw [stretch_lo (hlt i a)]; exact h1)
        (by show x < (((N i).axis a).stretch (c a) (e a)).hi; rw [stretch_hi (hlt i a)]; exact h2)
      rw [← Ax.mult_eq] at h3
      change _ ≤ (N i).degree a at h3
      rw [hdeg1] at h
      have := hdle i a
      have := (hv i a).one_le
      split_ifs at h <;> omega
    · obtain ⟨k, k0, k1, rfl⟩ := hpos i x hx
      obtain ⟨l, l0, l1, rfl⟩ := hpos j y hy
      exact hsep a ha i j k l k0 k1 l0 l1
  obtain ⟨N3, a3, v3, r3, o3, s3⟩ := mergeKnots_ok heps M2 v2 hnd hL
  refine ⟨N3, a3, v3, fun i => ?_, fun a ha => ?_, fun i a ha => ?_⟩
  · exact ((r1 i).trans (hv i) (v1 i) (v2 i) (r2 i)).trans (hv i) (v2 i) (v3 i) (r3 i)
  · obtain ⟨l, hl, hR⟩ := s3 a ha
    have hLa := hL a ha
    have hRd : ∀ i, (N3 i).degree a = q a := fun i => by
      rw [← axis_degree, (hR i).degree]; exact hLa.degree i
    have hre : ∀ i, _ := fun i => hLa.refined hl (R := fun i => (N3 i).axis a) hR i
    refine ⟨fun i => ?_, fun i => ?_, fun i => ?_, fun i => (hre i).2.2.1, fun i => (hre i).2.2.2,
      fun i x h1 h2 => ?_, fun i j => ?_, fun i j => ?_, fun i j => ?_⟩
    · rw [← axis_lo, (hR i).lo]; exact hLa.lo i
    · rw [← axis_hi, (hR i).hi]; exact hLa.hi i
    · rw [hRd]; exact hq a
    · have hmul : ((N3 i).multOf a x : ℤ) = topMult (fun i => (N2 i).axis a) (c a) (e a) x := (hre i).1 x h1 h2
      have hin : ∀ j, ((N2 j).axis a).innerMult (c a) (e a) x = raisedMult (N j) a (c a) (e a) ((N3 i).degree a) x := by
        intro j
        unfold Ax.innerMult raisedMult
        rw [if_pos ⟨h1, h2⟩, hRd, (s2 j a ha).mult, s1 j a ha, stretch_mult' (hlt j a) (hce a), hdeg1,
          axis_lo, axis_hi, axis_mult]
        have := hdle j a
        dsimp only
        split_ifs
        · rfl
        · push_cast; omega
      obtain ⟨t1, t2, t3⟩ := topMult_spec (fun i => (N2 i).axis a) (c a) (e a) x
      rw [hmul]
      refine ⟨?_, ?_⟩
      · rcases t1.eq_or_lt with h | h
        · refine ⟨i0, ?_⟩
          have h4 := t2 i0
          have h5 : 0 ≤ ((N2 i0).axis a).innerMult (c a) (e a) x := by
            unfold Ax.innerMult; split_ifs <;> omega
          dsimp only
          rw [← hin]
          omega
        · obtain ⟨j, hj⟩ := t3 h
          exact ⟨j, by dsimp only; rw [← hin, ← hj]⟩
      · rintro _ ⟨j, rfl⟩
        dsimp only
        rw [← hin]
        exact t2 j
    · exact (hLa.equal hl (R := fun i => (N3 i).axis a) hR i j).1
    · exact (hLa.equal hl (R := fun i => (N3 i).axis a) hR i j).2.1
    · exact (hLa.equal hl (R := fun i => (N3 i).axis a) hR i j).2.2
  · have : (N3 i).axis a = (N i).axis a := by rw [o3 i a ha, o2 i a ha, o1 i a ha]
    exact ⟨congrArg Ax.shape this, congrArg Ax.len this, congrArg Ax.U this⟩

end Igakit
