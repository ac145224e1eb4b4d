import Verif.Proofs.DerivPoint

set_option linter.unusedSectionVars false

/-!
# The derivative routines: local control points, one point, the grid
-/

namespace Igakit

variable {K : Type} [Field K] [LinearOrder K] {d : ℕ}

theorem Grid.get_ok {α : Type} {A : Grid d α} {g : Fin d → ℤ} (h : ∀ a, 0 ≤ g a ∧ g a ≤ A.hi a) : A.get g = .ok (A.val g) := by
  unfold Grid.get; rw [if_pos h]

theorem Grid.set_ok {α : Type} {A : Grid d α} {g : Fin d → ℤ} {v : α} (h : ∀ a, 0 ≤ g a ∧ g a ≤ A.hi a) :
    A.set g v = .ok ⟨A.hi, Function.update A.val g v⟩ := by
  unfold Grid.set; rw [if_pos h]

/-- writing a column `A(0:m-1, loc)` -/
theorem column_ok {m j nen : ℤ} {f : ℤ → Flat K → Chk (Flat K)} {v : ℤ → K} {A : Flat K} (hA : A.size = m * nen) (hj0 : 0 ≤ j)
    (hj1 : j < nen) (hf : ∀ c (B : Flat K), 0 ≤ c → c < m → B.size = A.size → f c B = B.set (c + m * j) (v c)) :
    ∃ A', forUpC 0 (m - 1) f A = .ok A' ∧ A'.size = A.size ∧ (∀ c, 0 ≤ c → c < m → A'.val (c + m * j) = v c) ∧
      ∀ c i, 0 ≤ c → c < m → i ≠ j → A'.val (c + m * i) = A.val (c + m * i) := by
  obtain ⟨A', w1, ⟨w2, w3⟩, w4⟩ := forUpC_indep
    (fun B : Flat K => B.size = A.size ∧ ∀ c i, 0 ≤ c → c < m → i ≠ j → B.val (c + m * i) = A.val (c + m * i))
    (fun _ _ => True) (fun c B => B.val (c + m * j) = v c) (lo := 0) (hi := m - 1) (s := A) (f := f)
    ⟨rfl, fun _ _ _ _ _ => rfl⟩ (fun _ _ _ => trivial)
    (by
      intro c B c0 c1 ⟨x1, x2⟩ _
      refine ⟨⟨B.size, upd B.val (c + m * j) (v c)⟩, ?_, ⟨x1, ?_⟩, by simp [upd], ?_⟩
      · rw [hf c B c0 (by omega) x1, Flat.set_ok]
        rw [x1, hA]
        exact off_lt c0 (by omega) hj0 hj1
      · intro c' i y1 y2 y3
        have : c' + m * i ≠ c + m * j := fun h => y3 (off_inj y1 y2 c0 (by omega) h).2
        simp only [upd, this, if_false]
        exact x2 c' i y1 y2 y3
      · intro c' _ _ hc'
        have : c' + m * j ≠ c + m * j := by omega
        simp [upd, this])
  exact ⟨A', w1, w2, fun c c0 c1 => w4 c c0 (by omega), w3⟩

theorem gatherC_ok {map : Bool} {dof : ℤ} {p o n : Fin d → ℤ} {Pw F : Grid d (ℕ → K)} (hP : Pw.hi = n) (hF : F.hi = n)
    (ho : ∀ a, 0 ≤ o a ∧ o a + p a ≤ n a) {s : DerivWork K} {order : ℕ} (hs : s.Sized d order dof (∏ a, (p a + 1))) :
    ∃ s', gatherC map dof (fun a => p a + 1) o Pw F s = .ok s' ∧ s'.Sized d order dof (∏ a, (p a + 1)) ∧
      ∀ loc, (∀ a, 0 ≤ loc a ∧ loc a < p a + 1) →
        s'.WW.val (locOff (fun a => p a + 1) loc) = Pw.val (fun a => o a + loc a) 3 ∧
        (∀ c : ℕ, (c : ℤ) < dof → s'.FF.val (c + dof * locOff (fun a => p a + 1) loc) = F.val (fun a => o a + loc a) c) ∧
        (map = true → ∀ i : Fin d, s'.XX.val (((i : ℕ) : ℤ) + (d : ℤ) * locOff (fun a => p a + 1) loc) =
          Pw.val (fun a => o a + loc a) i / Pw.val (fun a => o a + loc a) 3) := by
  unfold gatherC
  set off := locOff (fun a => p a + 1) with hoff
  have hbox : ∀ {loc : Fin d → ℤ}, (∀ a, 0 ≤ loc a ∧ loc a ≤ p a + 1 - 1) → ∀ a, 0 ≤ loc a ∧ loc a < p a + 1 :=
    fun h a => by have := h a; omega
  obtain ⟨s', h1, h2, h3⟩ := nestC_indep d (fun a => p a + 1 - 1) (fun s : DerivWork K => s.Sized d order dof (∏ a, (p a + 1)))
    (fun _ _ => True)
    (fun loc s' => s'.WW.val (off loc) = Pw.val (fun a => o a + loc a) 3 ∧
        (∀ c : ℤ, 0 ≤ c → c < dof → s'.FF.val (c + dof * off loc) = F.val (fun a => o a + loc a) c.toNat) ∧
        (map = true → ∀ i : ℤ, 0 ≤ i → i < d → s'.XX.val (i + (d : ℤ) * off loc) =
          Pw.val (fun a => o a + loc a) i.toNat / Pw.val (fun a => o a + loc a) 3))
    (fun loc (s : DerivWork K) => do
      let f ← F.get (fun a => o a + loc a)
      let FF ← forUpC 0 (dof - 1) (fun c (FF : Flat K) => do
        let q ← cm ((c, dof) :: List.ofFn (fun a => (loc a, p a + 1)))
        FF.set q (f c.toNat)) s.FF
      let P ← Pw.get (fun a => o a + loc a)
      let q ← cm (List.ofFn (fun a => (loc a, p a + 1)))
      let WW ← s.WW.set q (P 3)
      let XX ← (if map then
        forUpC 0 ((d : ℤ) - 1) (fun i (XX : Flat K) => do
          let w ← WW.get q
          let q ← cm ((i, (d : ℤ)) :: List.ofFn (fun a => (loc a, p a + 1)))
          XX.set q (P i.toNat / w)) s.XX
        else .ok s.XX)
      .ok { s with FF := FF, WW := WW, XX := XX }) s hs (fun _ _ => trivial)
    (by
      intro loc t hloc ht _
      have hl := hbox hloc
      have hin : ∀ a, 0 ≤ o a + loc a ∧ o a + loc a ≤ n a := fun a => by have := hl a; have := ho a; omega
      have hr := locOff_range hl
      rw [← hoff] at hr
      have hcm := cm_loc (na := fun a => p a + 1) hl
      rw [← hoff] at hcm
      rw [Grid.get_ok (by rwa [hF]), ok_bind]
      obtain ⟨FF, e1, e2, e3, e4⟩ := column_ok (A := t.FF) (v := fun c => F.val (fun a => o a + loc a) c.toNat) ht.FF hr.1 hr.2
        (f := fun c (FF : Flat K) => do
          let q ← cm ((c, dof) :: List.ofFn (fun a => (loc a, p a + 1)))
          FF.set q (F.val (fun a => o a + loc a) c.toNat))
        (by
          intro c B c0 c1 _
          rw [cm_cons_loc (na := fun a => p a + 1) hl c0 c1, ok_bind])
      rw [e1, ok_bind, Grid.get_ok (by rwa [hP]), ok_bind, hcm, ok_bind, Flat.set_ok (by rw [ht.WW]; exact hr), ok_bind]
      set WW : Flat K := ⟨t.WW.size, upd t.WW.val (off loc) (Pw.val (fun a => o a + loc a) 3)⟩ with hWW
      have hX : ∃ XX : Flat K, (if map then
            forUpC 0 ((d : ℤ) - 1) (fun i (XX : Flat K) => do
              let w ← WW.get (off loc)
              let q ← cm ((i, (d : ℤ)) :: List.ofFn (fun a => (loc a, p a + 1)))
              XX.set q (Pw.val (fun a => o a + loc a) i.toNat / w)) t.XX
            else .ok t.XX) = .ok XX ∧ XX.size = t.XX.size ∧
          (map = true → (∀ i : ℤ, 0 ≤ i → i < d → XX.val (i + (d : ℤ) * off loc) =
            Pw.val (fun a => o a + loc a) i.toNat / Pw.val (fun a => o a + loc a) 3) ∧
            ∀ c i, 0 ≤ c → c < (d : ℤ) → i ≠ off loc → XX.val (c + (d : ℤ) * i) = t.XX.val (c + (d : ℤ) * i)) := by
        cases map with
        | false => exact ⟨t.XX, by simp, rfl, by simp⟩
        | true =>
          obtain ⟨XX, f1, f2, f3, f4⟩ := column_ok (A := t.XX)
            (v := fun i => Pw.val (fun a => o a + loc a) i.toNat / Pw.val (fun a => o a + loc a) 3) ht.XX hr.1 hr.2
            (f := fun i (XX : Flat K) => do
              let w ← WW.get (off loc)
              let q ← cm ((i, (d : ℤ)) :: List.ofFn (fun a => (loc a, p a + 1)))
              XX.set q (Pw.val (fun a => o a + loc a) i.toNat / w))
            (by
              intro c B c0 c1 _
              rw [Flat.get_ok (by rw [hWW]; simp only; rw [ht.WW]; exact hr), ok_bind,
                cm_cons_loc (na := fun a => p a + 1) hl c0 c1, ok_bind]
              simp [hWW, upd, hoff])
          exact ⟨XX, by rw [if_pos rfl]; exact f1, f2, fun _ => ⟨f3, f4⟩⟩
      obtain ⟨XX, f1, f2, f3⟩ := hX
      rw [f1, ok_bind]
      refine ⟨_, rfl, ⟨e2.trans ht.FF, ht.WW, f2.trans ht.XX, ht.N, ht.Wt, ht.GG⟩, ⟨by simp [hWW, upd], e3, fun hm => (f3 hm).1⟩, ?_⟩
      intro loc' hloc' hne
      have hno : off loc' ≠ off loc := fun h => hne (locOff_inj (hbox hloc') hl h)
      refine ⟨fun _ => trivial, fun ⟨g1, g2, g3⟩ => ⟨?_, ?_, ?_⟩⟩
      · simp only [hWW, upd, hno, if_false]; exact g1
      · intro c c0 c1
        rw [← g2 c c0 c1]
        exact e4 c _ c0 c1 hno
      · intro hm i i0 i1
        rw [← g3 hm i i0 i1]
        exact (f3 hm).2 i _ i0 i1 hno)
  refine ⟨s', h1, h2, fun loc hloc => ?_⟩
  obtain ⟨g1, g2, g3⟩ := h3 loc (fun a => by have := hloc a; omega)
  refine ⟨g1, fun c hc => ?_, fun hm i => ?_⟩
  · have := g2 c (by positivity) hc
    rwa [Int.toNat_natCast] at this
  · have := g3 hm ((i : ℕ) : ℤ) (by positivity) (by exact_mod_cast i.isLt)
    rwa [Int.toNat_natCast] at this

/-! ## sums over local functions -/

section
variable {ι κ : Type} {L : Finset ι} {L' : Finset κ} {e : κ → ι}

theorem ratW_transfer (hsum : ∀ f : ι → K, ∑ a ∈ L, f a = ∑ l ∈ L', f (e l)) {w : ι → K} {w' : κ → K}
    {ν : List (Fin d) → ι → K} {ν' : List (Fin d) → κ → K} (hw : ∀ l ∈ L', w (e l) = w' l)
    (hν : ∀ F, ∀ l ∈ L', ν F (e l) = ν' F l) : ratW L w ν = ratW L' w' ν' := by
  funext F
  unfold ratW
  rw [hsum]
  exact Finset.sum_congr rfl fun l hl => by rw [hw l hl, hν F l hl]

theorem rationalize_transfer (hsum : ∀ f : ι → K, ∑ a ∈ L, f a = ∑ l ∈ L', f (e l)) {w : ι → K} {w' : κ → K}
    {ν : List (Fin d) → ι → K} {ν' : List (Fin d) → κ → K} (hw : ∀ l ∈ L', w (e l) = w' l)
    (hν : ∀ F, ∀ l ∈ L', ν F (e l) = ν' F l) (F : List (Fin d)) {l : κ} (hl : l ∈ L') :
    rationalize L w ν F (e l) = rationalize L' w' ν' F l := by
  have hW := ratW_transfer hsum hw hν
  match F with
  | [] => simp only [rationalize, rat0, hW, hw l hl, hν _ l hl]
  | [_] => simp only [rationalize, rat0, rat1, hW, hw l hl, hν _ l hl]
  | [_, _] => simp only [rationalize, rat0, rat1, rat2, hW, hw l hl, hν _ l hl]
  | [_, _, _] => simp only [rationalize, rat0, rat1, rat2, rat3, hW, hw l hl, hν _ l hl]
  | [_, _, _, _] => simp only [rationalize, rat0, rat1, rat2, rat3, rat4, hW, hw l hl, hν _ l hl]
  | _ :: _ :: _ :: _ :: _ :: _ => simp only [rationalize]

end

/-- the body of the loop over the grid -/
theorem derivPointC_ok (J : Junk K) (N : Nrb K d) (hd : d = 1 ∨ d = 2 ∨ d = 3) (hN : ∀ a, 0 ≤ N.degree a ∧ N.degree a ≤ N.n a)
    {map : Bool} {order : ℕ} (ho : order ≤ 4) (hmap : map = true → order = 1) {dof : ℤ} (F : (Fin d → ℤ) → ℕ → K) (x : Fin d → K)
    (hspan : ∀ a, N.degree a ≤ N.spanAt x a ∧ N.spanAt x a ≤ N.n a)
    {s : DerivWork K} (hs : s.Sized d order dof (∏ a, (N.degree a + 1))) :
    ∃ s', derivPointC map order dof N.degree (N.spanAt x)
        (fun a => ⟨0, N.degree a, 0, order, dersBasisFuns J.k1 J.ndu J.a J.ders (N.spanAt x a) (x a) (N.degree a) order (N.U a)⟩)
        ⟨N.n, N.P⟩ ⟨N.n, F⟩ s = .ok s' ∧ s'.Sized d order dof (∏ a, (N.degree a + 1)) ∧
      ∀ (D : List (Fin d)) (c : ℕ), D.length = order → (c : ℤ) < dof → s'.GG.val ((tpCode D : ℤ) + (d : ℤ) ^ order * c) =
        if map then match D with
          | [i] => N.mappedAt J F x i c
          | _ => 0
        else N.derivAt J order F x D c := by
  unfold derivPointC
  set p := N.degree with hp
  set off := locOff (fun a => p a + 1) with hoff
  have hna : ∀ a, 0 < p a + 1 := fun a => by have := hN a; omega
  dsimp only
  obtain ⟨s1, h1, h2, h3⟩ := gatherC_ok (map := map) (o := fun a => N.spanAt x a - p a) (p := p) (n := N.n) (Pw := ⟨N.n, N.P⟩)
    (F := ⟨N.n, F⟩) rfl rfl (fun a => by have := hspan a; omega) hs
  rw [h1, ok_bind]
  obtain ⟨N1, e1, e2⟩ := tensorProdC_ok hd ho
    (fun a => dersBasisFuns J.k1 J.ndu J.a J.ders (N.spanAt x a) (x a) (p a) order (N.U a)) h2.N
  rw [e1, ok_bind]
  set nen := ∏ a, (p a + 1) with hnen
  -- values as functions of the offset
  have hinj : Set.InjOn off {loc : Fin d → ℤ | ∀ a, 0 ≤ loc a ∧ loc a < p a + 1} := fun u hu v hv h => locOff_inj hu hv h
  have hleft := hinj.leftInvOn_invFunOn
  set inv := Function.invFunOn off {loc : Fin d → ℤ | ∀ a, 0 ≤ loc a ∧ loc a < p a + 1} with hinv
  set ν : List (Fin d) → ℤ → K := fun D a => N.tensorN J order x D (inv a) with hν
  have hlocs : N.locs = Fintype.piFinset (fun a => Finset.Icc 0 (p a + 1 - 1)) := by
    unfold Nrb.locs; congr 1; funext a; rw [add_sub_cancel_right]
  have hmem : ∀ {l : Fin d → ℤ}, l ∈ N.locs ↔ ∀ a, 0 ≤ l a ∧ l a < p a + 1 := by
    intro l
    rw [hlocs, Fintype.mem_piFinset]
    simp only [Finset.mem_Icc]
    exact forall_congr' fun a => by omega
  have hsum : ∀ f : ℤ → K, ∑ a ∈ Finset.Ico 0 nen, f a = ∑ l ∈ N.locs, f (off l) := by
    intro f
    rw [hlocs]
    exact sum_locOff hna f
  have hνl : ∀ D, ∀ l ∈ N.locs, ν D (off l) = N.tensorN J order x D l := by
    intro D l hl
    simp only [hν]
    rw [hleft (hmem.mp hl)]
  have hold : ∀ k, k ≤ order → Holds d nen N1 ν k := by
    intro k hk
    refine ⟨(e2 k hk).1, ?_⟩
    intro D hD a a0 a1
    obtain ⟨loc, hl, rfl⟩ := locOff_surj hna a0 a1
    rw [(e2 k hk).2 D hD loc hl]
    have := hνl D loc (hmem.mpr hl)
    rw [hoff] at this
    rw [this]
    rfl
  obtain ⟨N2, f1, f2⟩ := rationalizeC_ok (W := s1.WW) (Wt := s1.Wt) h2.WW ho hold h2.Wt
  rw [f1, ok_bind]
  obtain ⟨V, g1, g2, g3⟩ := interpolateC_ok (N := N2 order) (U := s1.FF) (V := s1.GG) (f2 order le_rfl).1 h2.FF h2.GG
  rw [g1, ok_bind]
  have hw : ∀ l ∈ N.locs, s1.WW.val (off l) = N.P (N.ctl x l) 3 := fun l hl => (h3 l (hmem.mp hl)).1
  have hρ : ∀ (D : List (Fin d)), ∀ l ∈ N.locs, rationalize (Finset.Ico 0 nen) s1.WW.val ν D (off l) =
      rationalize N.locs (fun loc => N.P (N.ctl x loc) 3) (N.tensorN J order x) D l :=
    fun D l hl => rationalize_transfer hsum hw hνl D hl
  have hN2 : ∀ (k : ℕ) (D : List (Fin d)), k ≤ order → D.length = k → ∀ l ∈ N.locs,
      (N2 k).val ((tpCode D : ℤ) + (d : ℤ) ^ k * off l) =
        rationalize N.locs (fun loc => N.P (N.ctl x loc) 3) (N.tensorN J order x) D l := by
    intro k D hk hD l hl
    have hr := locOff_range (hmem.mp hl)
    have := (f2 k hk).2 D hD (off l) hr.1 hr.2
    unfold rOff at this
    rw [hD] at this
    rw [this, hρ D l hl]
  have hV : ∀ (D : List (Fin d)) (c : ℕ), D.length = order → (c : ℤ) < dof →
      V.val ((tpCode D : ℤ) + (d : ℤ) ^ order * c) = N.derivAt J order F x D c := by
    intro D c hD hc
    rw [g3 _ _ (by positivity) (by rw [← hD]; exact_mod_cast tpCode_lt D) (by positivity) hc, hsum]
    unfold Nrb.derivAt interpolate
    refine Finset.sum_congr rfl fun l hl => ?_
    rw [hN2 order D le_rfl hD l hl, (h3 l (hmem.mp hl)).2.1 c hc]
    rfl
  cases hm : map with
  | false =>
    rw [if_neg Bool.false_ne_true, ok_bind]
    refine ⟨_, rfl, ⟨h2.FF, h2.WW, h2.XX, fun k hk => (f2 k hk).1, h2.Wt, g2.trans h2.GG⟩, ?_⟩
    intro D c hD hc
    rw [if_neg Bool.false_ne_true]
    exact hV D c hD hc
  | true =>
    have ho1 := hmap hm
    subst ho1
    rw [if_pos rfl]
    obtain ⟨G, i1, i2, i3⟩ := geometryMapC_ok (d := d) (nen := nen) (dof := dof) (N1 := N2 1) (X := s1.XX) (G := V)
      (by simpa using (f2 1 le_rfl).1) h2.XX (by simpa using g2.trans h2.GG)
    rw [i1, ok_bind]
    refine ⟨_, rfl, ⟨h2.FF, h2.WW, h2.XX, fun k hk => (f2 k hk).1, h2.Wt, i2.trans (g2.trans h2.GG)⟩, ?_⟩
    intro D c hD hc
    rw [if_pos rfl]
    obtain ⟨i, rfl⟩ := List.length_eq_one_iff.mp hD
    have hcode : (tpCode [i] : ℤ) = ((i : ℕ) : ℤ) := by simp [tpCode]
    dsimp only
    rw [hcode, pow_one, i3 i c hc]
    unfold geometryMap Nrb.mappedAt geometryMap
    dsimp only
    have hX1 : (fun i j : Fin d => ∑ a ∈ Finset.Ico 0 nen, s1.XX.val (((i : ℕ) : ℤ) + (d : ℤ) * a) *
          (N2 1).val (((j : ℕ) : ℤ) + (d : ℤ) * a)) =
        fun i j : Fin d => ∑ a ∈ N.locs, N.P (N.ctl x a) i / N.P (N.ctl x a) 3 *
          rationalize N.locs (fun loc => N.P (N.ctl x loc) 3) (N.tensorN J 1 x) [j] a := by
      funext i j
      rw [hsum]
      refine Finset.sum_congr rfl fun l hl => ?_
      have e3 := hN2 1 [j] le_rfl rfl l hl
      have hcj : (tpCode [j] : ℤ) = ((j : ℕ) : ℤ) := by simp [tpCode]
      rw [hcj, pow_one] at e3
      rw [e3, (h3 l (hmem.mp hl)).2.2 hm i]
      rfl
    rw [hX1]
    refine Finset.sum_congr rfl fun j _ => ?_
    have e4 := hV [j] c rfl hc
    have hcj : (tpCode [j] : ℤ) = ((j : ℕ) : ℤ) := by simp [tpCode]
    rw [hcj, pow_one] at e4
    rw [e4]

theorem dersTablesC_ok (J : Junk K) {n p m r : ℤ} (h0 : 0 ≤ p) (hpn : p ≤ n) (hm : n + p + 1 ≤ m) (U X : ℤ → K) (order : ℕ) :
    ∃ t, dersTablesC J n p ⟨0, m, U⟩ order r ⟨0, r, X⟩ = .ok t ∧ (t.1.lo = 0 ∧ t.1.hi = r ∧ t.2.lo = 0 ∧ t.2.hi = r) ∧
      ∀ i, 0 ≤ i → i ≤ r → t.1.val i = findSpan n p (X i) U ∧
        t.2.val i = ⟨0, p, 0, order, dersBasisFuns J.k1 J.ndu J.a J.ders (findSpan n p (X i) U) (X i) p order U⟩ := by
  unfold dersTablesC
  refine forUpC_indep (fun t : Arr ℤ × Arr (Arr2 K) => t.1.lo = 0 ∧ t.1.hi = r ∧ t.2.lo = 0 ∧ t.2.hi = r)
    (fun i t => t.2.val i = ⟨0, p, 0, order, J.ders⟩)
    (fun i t => t.1.val i = findSpan n p (X i) U ∧
        t.2.val i = ⟨0, p, 0, order, dersBasisFuns J.k1 J.ndu J.a J.ders (findSpan n p (X i) U) (X i) p order U⟩)
    ⟨rfl, rfl, rfl, rfl⟩ (fun _ _ _ => rfl) ?_
  rintro i ⟨⟨l1, u1, v1⟩, ⟨l2, u2, v2⟩⟩ a b ⟨f1, f2, f3, f4⟩ hp
  dsimp only at f1 f2 f3 f4 hp
  subst f1 f2 f3 f4
  obtain ⟨s1, s2⟩ := findSpan_range (U := U) (X i) h0 hpn
  refine ⟨(⟨0, u2, upd v1 i (findSpan n p (X i) U)⟩, ⟨0, u2, upd v2 i
      ⟨0, p, 0, order, dersBasisFuns J.k1 J.ndu J.a J.ders (findSpan n p (X i) U) (X i) p order U⟩⟩), ?_, ?_, ?_, ?_⟩
  · dsimp only
    rw [Arr.get_ok a b, ok_bind, findSpanC_ok h0 hpn hm, ok_bind, Arr.set_ok a (by omega), ok_bind, Arr.get_ok a (by omega), ok_bind,
      Arr.get_ok a b, ok_bind, ok_bind, upd_same, hp,
      dersBasisFunsC_ok h0 s1 (by omega) (by positivity), ok_bind, Arr.set_ok a b, ok_bind]
  · exact ⟨rfl, rfl, rfl, rfl⟩
  · simp only [upd_same]; exact ⟨trivial, trivial⟩
  · intro j _ _ hj
    dsimp only
    rw [upd_ne _ _ hj, upd_ne _ _ hj]
    exact ⟨id, id⟩

/-- the derivative routines -/
theorem derivLoopsC_ok (J : Junk K) (N : Nrb K d) (hd : d = 1 ∨ d = 2 ∨ d = 3) (hN : ∀ a, 0 ≤ N.degree a ∧ N.degree a ≤ N.n a)
    {map : Bool} {order : ℕ} (ho : order ≤ 4) (hmap : map = true → order = 1) {dof : ℤ} (F : (Fin d → ℤ) → ℕ → K)
    {U : Fin d → Arr K} (hU : ∀ a, U a = ⟨0, N.n a + N.degree a + 1, N.U a⟩) (r : Fin d → ℤ) (X : Fin d → ℤ → K) {s : DerivWork K}
    (hs : s.Sized d order dof (∏ a, (N.degree a + 1))) (G : (Fin d → ℤ) → Flat K) :
    ∃ G', derivLoopsC J map order dof N.n N.degree U ⟨N.n, N.P⟩ ⟨N.n, F⟩ r (fun a => ⟨0, r a, X a⟩) s ⟨r, G⟩ = .ok G' ∧
      G'.hi = r ∧ ∀ g, (∀ a, 0 ≤ g a ∧ g a ≤ r a) → (G'.val g).size = (d : ℤ) ^ order * dof ∧
        ∀ (D : List (Fin d)) (c : ℕ), D.length = order → (c : ℤ) < dof → (G'.val g).val ((tpCode D : ℤ) + (d : ℤ) ^ order * c) =
        if map then match D with
          | [i] => N.mappedAt J F (fun a => X a (g a)) i c
          | _ => 0
        else N.derivAt J order F (fun a => X a (g a)) D c := by
  unfold derivLoopsC
  have ht := fun a => dersTablesC_ok J (n := N.n a) (p := N.degree a) (r := r a) (hN a).1 (hN a).2 le_rfl (N.U a) (X a) order
  choose t t1 t2 t3 using ht
  rw [axesC_ok (g := t) (fun a => by rw [hU a]; exact t1 a), ok_bind]
  have hspan : ∀ (g : Fin d → ℤ) (a : Fin d),
      N.degree a ≤ N.spanAt (fun a => X a (g a)) a ∧ N.spanAt (fun a => X a (g a)) a ≤ N.n a :=
    fun g a => findSpan_range (U := N.U a) (X a (g a)) (hN a).1 (hN a).2
  obtain ⟨u, h1, h2, h3⟩ := nestC_indep d r
    (fun u : DerivWork K × Grid d (Flat K) => u.1.Sized d order dof (∏ a, (N.degree a + 1)) ∧ u.2.hi = r) (fun _ _ => True)
    (fun g u => (u.2.val g).size = (d : ℤ) ^ order * dof ∧
      ∀ (D : List (Fin d)) (c : ℕ), D.length = order → (c : ℤ) < dof → (u.2.val g).val ((tpCode D : ℤ) + (d : ℤ) ^ order * c) =
        if map then match D with
          | [i] => N.mappedAt J F (fun a => X a (g a)) i c
          | _ => 0
        else N.derivAt J order F (fun a => X a (g a)) D c)
    (fun g (u : DerivWork K × Grid d (Flat K)) => do
      let k ← axesC d (fun a => (t a).1.get (g a))
      let M ← axesC d (fun a => (t a).2.get (g a))
      let s ← derivPointC map order dof N.degree k M ⟨N.n, N.P⟩ ⟨N.n, F⟩ u.1
      let G ← u.2.set g s.GG
      .ok (s, G)) (s, ⟨r, G⟩) ⟨hs, rfl⟩ (fun _ _ => trivial)
    (by
      rintro g ⟨w, H⟩ hg ⟨hw, hH⟩ _
      dsimp only at hw hH
      have hk : axesC d (fun a => (t a).1.get (g a)) = .ok (N.spanAt (fun a => X a (g a))) := by
        refine axesC_ok fun a => ?_
        obtain ⟨z1, z2, z3, z4⟩ := t2 a
        rw [Arr.get, if_pos (by rw [z1, z2]; exact hg a), (t3 a (g a) (hg a).1 (hg a).2).1]
        rfl
      have hM : axesC d (fun a => (t a).2.get (g a)) = .ok (fun a => ⟨0, N.degree a, 0, order,
          dersBasisFuns J.k1 J.ndu J.a J.ders (N.spanAt (fun a => X a (g a)) a) (X a (g a)) (N.degree a) order (N.U a)⟩) := by
        refine axesC_ok fun a => ?_
        obtain ⟨z1, z2, z3, z4⟩ := t2 a
        rw [Arr.get, if_pos (by rw [z3, z4]; exact hg a), (t3 a (g a) (hg a).1 (hg a).2).2]
        rfl
      obtain ⟨w', p1, p2, p3⟩ := derivPointC_ok J N hd hN ho hmap F (fun a => X a (g a)) (hspan g) hw
      dsimp only
      rw [hk, ok_bind, hM, ok_bind, p1, ok_bind, Grid.set_ok (by rw [hH]; exact hg), ok_bind]
      refine ⟨_, rfl, ⟨p2, hH⟩, ⟨?_, ?_⟩, ?_⟩
      · simp only [Function.update_self]; exact p2.GG
      · simp only [Function.update_self]; exact p3
      · intro h _ hne
        simp only [Function.update_of_ne hne]
        exact ⟨fun _ => trivial, id⟩)
  rw [h1, ok_bind]
  exact ⟨u.2, rfl, h2.2, h3⟩

theorem alloc_sized (order : ℕ) (dof nen : ℤ) (c : DerivWork K) : (DerivWork.alloc d order dof nen c).Sized d order dof nen where
  FF := rfl
  WW := rfl
  XX := rfl
  N := fun k hk => by simp [DerivWork.alloc, hk]
  Wt := fun k h1 hk => by simp [DerivWork.alloc, h1, hk]
  GG := rfl

end Igakit
