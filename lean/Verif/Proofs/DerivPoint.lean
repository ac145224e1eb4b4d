import Verif.Proofs.DerivRat
import Verif.Proofs.FindSpan

set_option linter.unusedSectionVars false

/-!
# The derivative routines at one point of the grid
-/

namespace Igakit

variable {K : Type} [Field K] [LinearOrder K] {d : ℕ}

/-! ## `TensorProd` -/

theorem flat_get {p n : ℤ} (D : ℤ → ℤ → K) {i e : ℤ} (h1 : 0 ≤ i) (h2 : i < p + 1) (h3 : 0 ≤ e) (h4 : e ≤ n) :
    (Arr2.mk 0 p 0 n D).flat.get (i + (p + 1) * e) = .ok (D i e) := by
  have hn : (p + 1) ≠ 0 := by omega
  rw [Flat.get_ok]
  · simp only [Arr2.flat, sub_zero, zero_add]
    rw [Int.add_mul_emod_self_left, Int.emod_eq_of_lt h1 h2, Int.add_mul_ediv_left _ _ hn, Int.ediv_eq_zero_of_lt h1 h2, zero_add]
  · simp only [Arr2.flat, sub_zero]
    exact off_lt h1 h2 h3 (by omega)

theorem tpTable_le (hd : d = 1 ∨ d = 2 ∨ d = 3) {k : ℕ} (hk : k ≤ 4) (c a : ℕ) :
    ((tpTable d k).getD c []).getD a 0 ≤ k := by
  have key : ∀ d ∈ [1, 2, 3], ∀ k ∈ [0, 1, 2, 3, 4], ∀ l ∈ tpTable d k, ∀ x ∈ l, x ≤ k := by decide
  have hk' : k ∈ [0, 1, 2, 3, 4] := by
    have : k = 0 ∨ k = 1 ∨ k = 2 ∨ k = 3 ∨ k = 4 := by omega
    simpa using this
  have h1 := key d (by simpa using hd) k hk'
  have h2 : ∀ x ∈ (tpTable d k).getD c [], x ≤ k := by
    rw [List.getD_eq_getElem?_getD]
    rcases h : (tpTable d k)[c]? with _ | l
    · simp
    · simpa using h1 l (List.mem_of_getElem? h)
  rw [List.getD_eq_getElem?_getD]
  rcases h : ((tpTable d k).getD c [])[a]? with _ | x
  · simp
  · simpa using h2 x (List.mem_of_getElem? h)

theorem foldl_prod (x : Fin d → K) : (List.finRange d).foldl (fun v a => v * x a) 1 = ∏ a, x a := by
  rw [Fin.prod_univ_def, List.prod_eq_foldl, List.foldl_map]

theorem foldl_sum (x : Fin d → K) : (List.finRange d).foldl (fun v a => v + x a) 0 = ∑ a, x a := by
  rw [Fin.sum_univ_def, List.sum_eq_foldl, List.foldl_map]

theorem tensorEntryC_ok {p : Fin d → ℤ} {order : ℕ} (D : Fin d → ℤ → ℤ → K) {e : List ℕ} (he : ∀ a, e.getD a 0 ≤ order)
    {loc : Fin d → ℤ} (hl : ∀ a, 0 ≤ loc a ∧ loc a < p a + 1) :
    tensorEntryC (fun a => p a + 1) (fun a => (Arr2.mk 0 (p a) 0 (order : ℤ) (D a)).flat) e loc =
      .ok (∏ a, D a (loc a) ((e.getD a 0 : ℕ) : ℤ)) := by
  unfold tensorEntryC
  rw [foldlM_ok (G := fun v a => v * D a (loc a) ((e.getD a 0 : ℕ) : ℤ)), foldl_prod]
  intro v a _
  rw [cm_one (hl a).1 (hl a).2, ok_bind, flat_get (D a) (hl a).1 (hl a).2 (by positivity) (by exact_mod_cast he a), ok_bind]

/-- the arrays `N0..` after `TensorProd` -/
theorem tensorProdC_ok (hd : d = 1 ∨ d = 2 ∨ d = 3) {p : Fin d → ℤ} {order : ℕ} (ho : order ≤ 4)
    (D : Fin d → ℤ → ℤ → K) {N : ℕ → Flat K} (hN : ∀ k, k ≤ order → (N k).size = (d : ℤ) ^ k * ∏ a, (p a + 1)) :
    ∃ N', tensorProdC (fun a => p a + 1) (fun a => (Arr2.mk 0 (p a) 0 (order : ℤ) (D a)).flat) order N = .ok N' ∧
      ∀ k, k ≤ order → (N' k).size = (d : ℤ) ^ k * ∏ a, (p a + 1) ∧ ∀ F : List (Fin d), F.length = k →
        ∀ loc, (∀ a, 0 ≤ loc a ∧ loc a < p a + 1) →
          (N' k).val (rOff F (locOff (fun a => p a + 1) loc)) = ∏ a, D a (loc a) (tpExp F a : ℕ) := by
  unfold tensorProdC
  obtain ⟨N', h1, h2, h3⟩ := forUpC_hoare
    (fun (i : ℤ) (N : ℕ → Flat K) => (∀ k, k ≤ order → (N k).size = (d : ℤ) ^ k * ∏ a, (p a + 1)) ∧
      ∀ k : ℕ, (k : ℤ) < i → ∀ F : List (Fin d), F.length = k → ∀ loc, (∀ a, 0 ≤ loc a ∧ loc a < p a + 1) →
        (N k).val (rOff F (locOff (fun a => p a + 1) loc)) = ∏ a, D a (loc a) (tpExp F a : ℕ))
    (lo := 0) (hi := (order : ℤ)) (s := N) (f := fun k N => do
      let Nk ← nestC d (fun a => p a + 1 - 1) (fun loc Nk =>
        forUpC 0 ((d : ℤ) ^ k.toNat - 1) (fun c Nk => do
          let v ← tensorEntryC (fun a => p a + 1) (fun a => (Arr2.mk 0 (p a) 0 (order : ℤ) (D a)).flat)
            ((tpTable d k.toNat).getD c.toNat []) loc
          let o ← cm ((c, (d : ℤ) ^ k.toNat) :: List.ofFn (fun a => (loc a, p a + 1)))
          Nk.set o v) Nk) (N k.toNat)
      .ok (Function.update N k.toNat Nk))
    (by omega) ⟨hN, fun k hk => by omega⟩
    (by
      intro i N a b ⟨u1, u2⟩
      obtain ⟨k, rfl⟩ : ∃ k : ℕ, i = k := ⟨i.toNat, by omega⟩
      rw [Int.toNat_natCast]
      have hko : k ≤ order := by omega
      have hN := u1 k hko
      set m := (d : ℤ) ^ k with hm
      set val : ℤ → (Fin d → ℤ) → K := fun c loc =>
        ∏ a, D a (loc a) ((((tpTable d k).getD c.toNat []).getD a 0 : ℕ) : ℤ) with hval
      have hbox : ∀ {loc : Fin d → ℤ}, (∀ a, 0 ≤ loc a ∧ loc a ≤ p a + 1 - 1) → ∀ a, 0 ≤ loc a ∧ loc a < p a + 1 :=
        fun h a => by have := h a; omega
      obtain ⟨Nk, v1, v2, v3⟩ := nestC_indep d (fun a => p a + 1 - 1) (fun A : Flat K => A.size = m * ∏ a, (p a + 1))
        (fun _ _ => True) (fun loc A => ∀ c, 0 ≤ c → c < m → A.val (c + m * locOff (fun a => p a + 1) loc) = val c loc)
        (fun loc Nk => forUpC 0 (m - 1) (fun c Nk => do
          let v ← tensorEntryC (fun a => p a + 1) (fun a => (Arr2.mk 0 (p a) 0 (order : ℤ) (D a)).flat)
            ((tpTable d k).getD c.toNat []) loc
          let o ← cm ((c, m) :: List.ofFn (fun a => (loc a, p a + 1)))
          Nk.set o v) Nk) (N k) hN (fun _ _ => trivial)
        (by
          intro loc A hloc hA _
          have hl := hbox hloc
          have hlr := locOff_range hl
          obtain ⟨A', w1, ⟨w2, w3⟩, w4⟩ := forUpC_indep
            (fun B : Flat K => B.size = A.size ∧ ∀ c j, 0 ≤ c → c < m → j ≠ locOff (fun a => p a + 1) loc →
              B.val (c + m * j) = A.val (c + m * j))
            (fun _ _ => True) (fun c B => B.val (c + m * locOff (fun a => p a + 1) loc) = val c loc)
            (lo := 0) (hi := m - 1) (s := A) (f := fun c Nk => do
              let v ← tensorEntryC (fun a => p a + 1) (fun a => (Arr2.mk 0 (p a) 0 (order : ℤ) (D a)).flat)
                ((tpTable d k).getD c.toNat []) loc
              let o ← cm ((c, m) :: List.ofFn (fun a => (loc a, p a + 1)))
              Flat.set Nk o v) ⟨rfl, fun _ _ _ _ _ => rfl⟩ (fun _ _ _ => trivial)
            (by
              intro c B c0 c1 ⟨x1, x2⟩ _
              refine ⟨⟨B.size, upd B.val (c + m * locOff (fun a => p a + 1) loc) (val c loc)⟩, ?_, ⟨x1, ?_⟩, by simp [upd], ?_⟩
              · rw [tensorEntryC_ok D (fun a => (tpTable_le hd (by omega) _ _).trans hko) hl, ok_bind,
                  cm_cons_loc (na := fun a => p a + 1) hl c0 (by omega), ok_bind, Flat.set_ok]
                rw [x1, hA]
                exact off_lt c0 (by omega) hlr.1 hlr.2
              · intro c' j y1 y2 y3
                have : c' + m * j ≠ c + m * locOff (fun a => p a + 1) loc := fun h => y3 (off_inj y1 y2 c0 (by omega) h).2
                simp only [upd, this, if_false]
                exact x2 c' j y1 y2 y3
              · intro c' _ _ hc'
                have : c' + m * locOff (fun a => p a + 1) loc ≠ c + m * locOff (fun a => p a + 1) loc := by omega
                simp [upd, this])
          refine ⟨A', w1, w2.trans hA, fun c c0 c1 => w4 c c0 (by omega), ?_⟩
          intro loc' hloc' hne
          refine ⟨fun _ => trivial, fun h c c0 c1 => ?_⟩
          rw [w3 c _ c0 c1 (fun h => hne (locOff_inj (hbox hloc') hl h)), h c c0 c1])
      rw [v1, ok_bind]
      refine ⟨_, rfl, ?_, ?_⟩
      · intro j hj
        by_cases hjk : j = k
        · subst hjk; rw [Function.update_self, v2]
        · rw [Function.update_of_ne hjk, u1 j hj]
      · intro j hj F hF loc hloc
        by_cases hjk : j = k
        · subst hjk
          rw [Function.update_self]
          have := v3 loc (fun a => by have := hloc a; omega) (tpCode F) (by positivity) (by
            rw [hm, ← hF]; exact_mod_cast tpCode_lt F)
          unfold rOff
          rw [hF, this, hval]
          simp only [Int.toNat_natCast]
          unfold tpExp
          rw [hF]
        · rw [Function.update_of_ne hjk]
          exact u2 j (by omega) F hF loc hloc)
  exact ⟨N', h1, fun k hk => ⟨h2 k hk, h3 k (by omega)⟩⟩

/-! ## `Interpolate` -/

theorem interpolateC_ok {nen dim dof : ℤ} {N U V : Flat K} (hN : N.size = dim * nen) (hU : U.size = dof * nen)
    (hV : V.size = dim * dof) : ∃ V', interpolateC nen dim dof N U V = .ok V' ∧ V'.size = V.size ∧
      ∀ i c, 0 ≤ i → i < dim → 0 ≤ c → c < dof →
        V'.val (i + dim * c) = ∑ a ∈ Finset.Ico 0 nen, N.val (i + dim * a) * U.val (c + dof * a) := by
  unfold interpolateC
  set S : ℤ → ℤ → K := fun i c => ∑ a ∈ Finset.Ico 0 nen, N.val (i + dim * a) * U.val (c + dof * a) with hS
  obtain ⟨V', h1, h2, h3⟩ := forUpC_indep (fun B : Flat K => B.size = V.size) (fun _ _ => True)
    (fun c B => ∀ i, 0 ≤ i → i < dim → B.val (i + dim * c) = S i c) (lo := 0) (hi := dof - 1) (s := V)
    (f := fun c V => forUpC 0 (dim - 1) (fun i (V : Flat K) => do
      let v ← sumC nen (fun a => do
        let o ← cm [(i, dim), (a, nen)]
        let x ← N.get o
        let o ← cm [(c, dof), (a, nen)]
        let y ← U.get o
        .ok (x * y))
      let o ← cm [(i, dim), (c, dof)]
      V.set o v) V) rfl (fun _ _ _ => trivial)
    (by
      intro c A c0 c1 hA _
      obtain ⟨A', w1, ⟨w2, w3⟩, w4⟩ := forUpC_indep
        (fun B : Flat K => B.size = V.size ∧ ∀ i c', 0 ≤ i → i < dim → c' ≠ c → B.val (i + dim * c') = A.val (i + dim * c'))
        (fun _ _ => True) (fun i B => B.val (i + dim * c) = S i c) (lo := 0) (hi := dim - 1) (s := A)
        (f := fun i (V : Flat K) => do
          let v ← sumC nen (fun a => do
            let o ← cm [(i, dim), (a, nen)]
            let x ← N.get o
            let o ← cm [(c, dof), (a, nen)]
            let y ← U.get o
            .ok (x * y))
          let o ← cm [(i, dim), (c, dof)]
          V.set o v) ⟨hA, fun _ _ _ _ _ => rfl⟩ (fun _ _ _ => trivial)
        (by
          intro i B i0 i1 ⟨x1, x2⟩ _
          refine ⟨⟨B.size, upd B.val (i + dim * c) (S i c)⟩, ?_, ⟨x1, ?_⟩, by simp [upd], ?_⟩
          · rw [sumC_ok (g := fun a => N.val (i + dim * a) * U.val (c + dof * a)) (by
              intro a a0 a1
              rw [cm_two i0 (by omega) a0 a1, ok_bind, Flat.get_ok (by rw [hN]; exact off_lt i0 (by omega) a0 a1), ok_bind,
                cm_two c0 (by omega) a0 a1, ok_bind, Flat.get_ok (by rw [hU]; exact off_lt c0 (by omega) a0 a1), ok_bind]), ok_bind,
              cm_two i0 (by omega) c0 (by omega), ok_bind, Flat.set_ok]
            rw [x1, hV]
            exact off_lt i0 (by omega) c0 (by omega)
          · intro i' c' y1 y2 y3
            have : i' + dim * c' ≠ i + dim * c := fun h => y3 (off_inj y1 y2 i0 (by omega) h).2
            simp only [upd, this, if_false]
            exact x2 i' c' y1 y2 y3
          · intro i' _ _ hi'
            have : i' + dim * c ≠ i + dim * c := by omega
            simp [upd, this])
      refine ⟨A', w1, w2, fun i i0 i1 => w4 i i0 (by omega), fun c' _ _ hc' => ⟨fun _ => trivial, fun h i i0 i1 => ?_⟩⟩
      rw [w3 i c' i0 i1 hc', h i i0 i1])
  exact ⟨V', h1, h2, fun i c i0 i1 c0 c1 => h3 c c0 (by omega) i i0 i1⟩

/-! ## `GeometryMap` -/

theorem foldlM_indep {σ : Type} {d : ℕ} (Fr : σ → Prop) (Q : Fin d → σ → Prop) {f : σ → Fin d → Chk σ}
    (step : ∀ i s, Fr s → ∃ s', f s i = .ok s' ∧ Fr s' ∧ Q i s' ∧ ∀ j, j ≠ i → Q j s → Q j s') {s : σ} (h0 : Fr s) :
    ∃ s', (List.finRange d).foldlM f s = .ok s' ∧ Fr s' ∧ ∀ i, Q i s' := by
  have key : ∀ (l : List (Fin d)), l.Nodup → ∀ s, Fr s → ∃ s', l.foldlM f s = .ok s' ∧ Fr s' ∧ (∀ i ∈ l, Q i s') ∧
      ∀ j, j ∉ l → Q j s → Q j s' := by
    intro l
    induction l with
    | nil => intro _ s h; exact ⟨s, rfl, h, by simp, fun _ _ h => h⟩
    | cons i l ih =>
      intro hn s h
      obtain ⟨hi, hn⟩ := List.nodup_cons.mp hn
      obtain ⟨s1, h1, h2, h3, h4⟩ := step i s h
      obtain ⟨s2, e1, e2, e3, e4⟩ := ih hn s1 h2
      refine ⟨s2, ?_, e2, ?_, ?_⟩
      · rw [List.foldlM_cons, h1]; exact e1
      · intro j hj
        rcases List.mem_cons.mp hj with rfl | hj
        · exact e4 j hi h3
        · exact e3 j hj
      · intro j hj hq
        rw [List.mem_cons, not_or] at hj
        exact e4 j hj.2 (h4 j hj.1 hq)
  obtain ⟨s', h1, h2, h3, -⟩ := key _ (List.nodup_finRange d) s h0
  exact ⟨s', h1, h2, fun i => h3 i (List.mem_finRange i)⟩

theorem geometryMapC_ok {nen dof : ℤ} {N1 X G : Flat K} (hN : N1.size = d * nen) (hX : X.size = d * nen)
    (hG : G.size = d * dof) : ∃ G', geometryMapC d nen dof N1 X G = .ok G' ∧ G'.size = G.size ∧
      ∀ (i : Fin d) (c : ℕ), (c : ℤ) < dof → G'.val (((i : ℕ) : ℤ) + (d : ℤ) * (c : ℤ)) =
        geometryMap (Finset.Ico 0 nen) (fun j a => N1.val (((j : ℕ) : ℤ) + (d : ℤ) * a))
          (fun a j => X.val (((j : ℕ) : ℤ) + (d : ℤ) * a)) (fun j c => G.val (((j : ℕ) : ℤ) + (d : ℤ) * ((c : ℕ) : ℤ))) i c := by
  unfold geometryMapC
  have hlt : ∀ i : Fin d, ((i : ℕ) : ℤ) < d := fun i => by exact_mod_cast i.isLt
  rw [axesC_ok (g := fun i j : Fin d => ∑ a ∈ Finset.Ico 0 nen, X.val (((i : ℕ) : ℤ) + (d : ℤ) * a) * N1.val (((j : ℕ) : ℤ) + (d : ℤ) * a)) (by
    intro i
    refine axesC_ok fun j => ?_
    refine sumC_ok fun a a0 a1 => ?_
    rw [cm_two (by positivity) (hlt i) a0 a1, ok_bind, Flat.get_ok (by rw [hX]; exact off_lt (by positivity) (hlt i) a0 a1), ok_bind,
      cm_two (by positivity) (hlt j) a0 a1, ok_bind, Flat.get_ok (by rw [hN]; exact off_lt (by positivity) (hlt j) a0 a1), ok_bind]),
    ok_bind]
  dsimp only
  set E1 := inverse d (fun i j : Fin d =>
    ∑ a ∈ Finset.Ico 0 nen, X.val (((i : ℕ) : ℤ) + (d : ℤ) * a) * N1.val (((j : ℕ) : ℤ) + (d : ℤ) * a)) with hE
  set S : Fin d → ℤ → K := fun i c => ∑ j, E1 j i * G.val (((j : ℕ) : ℤ) + (d : ℤ) * c) with hS
  obtain ⟨G', h1, h2, h3⟩ := forUpC_indep (fun B : Flat K => B.size = G.size) (fun _ _ => True)
    (fun c B => ∀ i : Fin d, B.val (((i : ℕ) : ℤ) + (d : ℤ) * c) = S i c) (lo := 0) (hi := dof - 1) (s := G)
    (f := fun c B => (List.finRange d).foldlM (fun (B : Flat K) (i : Fin d) => do
      let v ← (List.finRange d).foldlM (fun v (j : Fin d) => do
        let o ← cm [(((j : ℕ) : ℤ), (d : ℤ)), (c, dof)]
        let y ← G.get o
        .ok (v + E1 j i * y)) 0
      let o ← cm [(((i : ℕ) : ℤ), (d : ℤ)), (c, dof)]
      B.set o v) B) rfl (fun _ _ _ => trivial)
    (by
      intro c A c0 c1 hA _
      obtain ⟨A', w1, ⟨w2, w3⟩, w4⟩ := foldlM_indep
        (fun B : Flat K => B.size = G.size ∧ ∀ (i : Fin d) c', c' ≠ c → B.val (((i : ℕ) : ℤ) + (d : ℤ) * c') =
          A.val (((i : ℕ) : ℤ) + (d : ℤ) * c'))
        (fun (i : Fin d) B => B.val (((i : ℕ) : ℤ) + (d : ℤ) * c) = S i c)
        (f := fun (B : Flat K) (i : Fin d) => do
          let v ← (List.finRange d).foldlM (fun v (j : Fin d) => do
            let o ← cm [(((j : ℕ) : ℤ), (d : ℤ)), (c, dof)]
            let y ← G.get o
            .ok (v + E1 j i * y)) 0
          let o ← cm [(((i : ℕ) : ℤ), (d : ℤ)), (c, dof)]
          B.set o v)
        (by
          intro i B ⟨x1, x2⟩
          refine ⟨⟨B.size, upd B.val (((i : ℕ) : ℤ) + (d : ℤ) * c) (S i c)⟩, ?_, ⟨x1, ?_⟩, by simp [upd], ?_⟩
          · rw [foldlM_ok (G := fun v (j : Fin d) => v + E1 j i * G.val (((j : ℕ) : ℤ) + (d : ℤ) * c)) (by
              intro v j _
              rw [cm_two (by positivity) (hlt j) c0 (by omega), ok_bind,
                Flat.get_ok (by rw [hG]; exact off_lt (by positivity) (hlt j) c0 (by omega)), ok_bind]),
              ok_bind, cm_two (by positivity) (hlt i) c0 (by omega), ok_bind, Flat.set_ok (by
                rw [x1, hG]; exact off_lt (by positivity) (hlt i) c0 (by omega)),
              foldl_sum (fun j => E1 j i * G.val (((j : ℕ) : ℤ) + (d : ℤ) * c))]
          · intro i' c' hc'
            have : ((i' : ℕ) : ℤ) + (d : ℤ) * c' ≠ ((i : ℕ) : ℤ) + (d : ℤ) * c :=
              fun h => hc' (off_inj (by positivity) (hlt i') (by positivity) (hlt i) h).2
            simp only [upd, this, if_false]
            exact x2 i' c' hc'
          · intro j hj
            have : ((j : ℕ) : ℤ) + (d : ℤ) * c ≠ ((i : ℕ) : ℤ) + (d : ℤ) * c :=
              fun h => hj (Fin.ext (by exact_mod_cast (off_inj (by positivity) (hlt j) (by positivity) (hlt i) h).1))
            simp [upd, this])
        ⟨hA, fun _ _ _ => rfl⟩
      refine ⟨A', w1, w2, w4, fun c' _ _ hc' => ⟨fun _ => trivial, fun h i => ?_⟩⟩
      rw [w3 i c' hc', h i])
  refine ⟨G', h1, h2, fun i c hc => ?_⟩
  rw [h3 c (by positivity) (by omega) i]
  rfl

end Igakit
