import Verif.Proofs.DataOrder

/-!
# C48 - C52: the control points are determined by the map, and consequences
-/

set_option linter.unusedSectionVars false

namespace Igakit
open Spec

variable {K : Type} [Field K] [LinearOrder K] [IsStrictOrderedRing K] {d : ℕ}

/-! ## C48 -/

/-- C48: two objects with the same knots that agree as maps have the same control points, weights and fields, if no
interior knot occurs more than `degree + 1` times -/
theorem C48_unique {N M : Nrb K d} (hv : N.Valid)
    (hm : ∀ a x, N.lo a < x → x < N.hi a → (N.multOf a x : ℤ) ≤ N.degree a + 1) (hk : N.SameKnots M) (hnc : M.nc = N.nc)
    (he : ∀ x, N.InDom x → M.eval x = N.eval x) : N.SameData M :=
  ⟨hk, hnc, fun _ hi => funext fun _ => net_unique hv hm hk (fun x hx => by rw [he x hx]) hi⟩

/-- C48 for objects without weights: same points and fields -/
theorem C48_points {N M : Nrb K d} (hv : N.Valid)
    (hm : ∀ a x, N.lo a < x → x < N.hi a → (N.multOf a x : ℤ) ≤ N.degree a + 1) (hk : N.SameKnots M) (hnc : M.nc = N.nc)
    (hN : ∀ idx, N.InNet idx → N.P idx 3 = 1) (hM : ∀ idx, M.InNet idx → M.P idx 3 = 1)
    (he : ∀ x, N.InDom x → ∀ c, M.proj x c = N.proj x c) : N.SameData M := by
  have key : ∀ (L : Nrb K d), L.Valid → (∀ idx, L.InNet idx → L.P idx 3 = 1) → ∀ x, L.InDom x → L.eval x 3 = 1 := by
    intro L hL hw x hx
    rw [Nrb.eval_apply, ← Nrb.wt_sum hL hx]
    refine Finset.sum_congr rfl fun idx h => ?_
    rw [hw idx, mul_one]
    intro a
    have := Finset.mem_Icc.1 (Fintype.mem_piFinset.1 h a)
    unfold Nrb.n at this
    omega
  refine C48_unique hv hm hk hnc fun x hx => funext fun c => ?_
  have := he x hx c
  unfold Nrb.proj at this
  rw [key N hv hN x hx, key M (hk.valid hv) hM x ((hk.inDom hv).2 hx), div_one, div_one] at this
  exact this

/-- C48: the bound on the multiplicity is needed.  A control point between `degree + 2` equal knots does not
influence the map. -/
theorem C48_inactive {N M : Nrb K d} (hv : N.Valid) (hk : N.SameKnots M) {a : Fin d} {i : ℤ} (h0 : 0 ≤ i)
    (hn : i + N.degree a + 1 < N.len a) (hi : N.U a i = N.U a (i + N.degree a + 1))
    (hP : ∀ idx, N.InNet idx → idx a ≠ i → M.P idx = N.P idx) {x : Fin d → K} (hx : N.InDom x) : M.eval x = N.eval x := by
  rw [hk.eval_eq hv, Nrb.eval]
  unfold tensor
  refine Finset.sum_congr rfl fun idx h => ?_
  have h' : ∀ b, 0 ≤ idx b ∧ idx b ≤ N.n b := fun b => Finset.mem_Icc.1 (Fintype.mem_piFinset.1 h b)
  by_cases hia : idx a = i
  · have hz : bsplineD (N.n a) (N.U a) (N.degree a).toNat (idx a) (x a) = 0 := by
      obtain ⟨p, hp, hK, e⟩ := deg_nat hv a
      have h1 := hK.one_le
      have h2 := hK.le
      have x1 := (hx a).1
      have x2 := (hx a).2
      rw [N.lo_eq, hp] at x1
      rw [N.hi_eq] at x2
      rw [hp] at hi hn
      rw [hp, Int.toNat_natCast, hia]
      obtain ⟨k1, k2, k3⟩ := SpanOf.of_findSpan hK x1 x2
      have hsp : SpanOf (N.n a) p (N.U a) (findSpan (N.n a) p (x a) (N.U a)) (x a) := ⟨k1, k2, k3⟩
      rw [hsp.basis hK.sorted h0 (by omega)]
      have hne := hsp.ne
      generalize findSpan (N.n a) p (x a) (N.U a) = k at *
      by_cases c1 : i < k - p
      · exact piece_zero_of_lt _ _ _ _ _ (by omega)
      · by_cases c2 : k < i
        · exact piece_zero_of_gt _ _ _ _ _ c2
        · have a1 := hK.sorted i k h0 (by omega) (by omega)
          have a2 := hK.sorted (k + 1) (i + p + 1) (by omega) (by omega) (by omega)
          rw [hi] at a1
          exact absurd (lt_of_le_of_lt a1 hne) (not_lt.2 a2)
    rw [Finset.prod_eq_zero (Finset.mem_univ a) hz, zero_smul, zero_smul]
  · rw [hP idx (fun b => by have := h' b; unfold Nrb.n at this; omega) hia]

/-! ## C49 -/

theorem history_knots {env : Env K} (heps : 0 < env.eps) : ∀ (p q : List (Call K)) {N M : Nrb K d}, N.Valid →
    (∀ a, N.InnerMult a) → N.SameKnots M → p.map Prod.snd = q.map Prod.snd → TameAll env N p →
    (history env N p).SameKnots (history env M q) ∧ TameAll env M q ∧
      ∀ s, placement env M s q = placement env N s p
  | [], [], N, M, _, _, hD, _, _ => ⟨hD, trivial, fun _ => rfl⟩
  | [], _ :: _, _, _, _, _, _, h, _ => by cases h
  | _ :: _, [], _, _, _, _, _, h, _ => by cases h
  | c :: p, c' :: q, N, M, hv, hi, hD, h, ht => by
    obtain ⟨h1, h2⟩ := ht
    rw [List.map_cons, List.map_cons, List.cons.injEq] at h
    obtain ⟨hc, hpq⟩ := h
    unfold history placement TameAll
    unfold Call.after at h2 ⊢
    cases hN : c.2.apply env c.1 c.2.vals N with
    | ok N' =>
      obtain ⟨M', hM, hD'⟩ := call_knots heps (jn' := c'.1) hv hi hD h1 hN
      have hF := call_follows heps (follows_start hv hi) h1 hN
      rw [hc] at hM h1
      rw [hN] at h2
      rw [hM]
      obtain ⟨k1, k2, k3⟩ := history_knots heps p q hF.valid hF.inner hD' hpq h2
      refine ⟨k1, ⟨tame_congr hv hD h1, k2⟩, fun s => ?_⟩
      dsimp only
      rw [k3, hc]
    | error e =>
      rw [hN] at h2
      cases hM : c'.2.apply env c'.1 c'.2.vals M with
      | ok M' =>
        rw [← hc] at hM
        obtain ⟨N', hN', _⟩ := call_knots heps (jn' := c.1) (hD.valid hv) (fun a => hD.inner hv (hi a)) hD.symm
          (tame_congr hv hD h1) hM
        rw [hN] at hN'
        cases hN'
      | error e' =>
        obtain ⟨k1, k2, k3⟩ := history_knots heps p q hv hi hD hpq h2
        rw [hc] at h1
        exact ⟨k1, ⟨tame_congr hv hD h1, k2⟩, k3⟩

theorem tameAll_congr {env : Env K} (heps : 0 < env.eps) {p : List (Call K)} {N M : Nrb K d} (hv : N.Valid)
    (hi : ∀ a, N.InnerMult a) (hD : N.SameKnots M) (ht : TameAll env N p) : TameAll env M p :=
  (history_knots heps p p hv hi hD rfl ht).2.1

/-- two histories of the same calls, seen from the start -/
theorem history_pair {env : Env K} (heps : 0 < env.eps) {p q : List (Call K)} {N M : Nrb K d} (hv : N.Valid)
    (hi : ∀ a, N.InnerMult a) (hD : N.SameKnots M) (hpq : p.map Prod.snd = q.map Prod.snd) (ht : TameAll env N p) :
    ∃ s : Placed K d, N.Follows (history env N p) s ∧ M.Follows (history env M q) s ∧
      (history env N p).SameKnots (history env M q) := by
  obtain ⟨k1, k2, k3⟩ := history_knots heps p q hv hi hD hpq ht
  have hs : Placed.start M = Placed.start N := by
    unfold Placed.start
    rw [show M.lo = N.lo from funext (hD.lo hv), show M.hi = N.hi from funext (hD.hi hv)]
  refine ⟨_, C46_history heps hv hi p ht, ?_, k1⟩
  have := C46_history heps (hD.valid hv) (fun a => hD.inner hv (hi a)) q k2
  rw [hs, k3] at this
  exact this

theorem Placed.surj {N N0 : Nrb K d} {s : Placed K d} (h : N0.Follows N s) {y : Fin d → K} (hy : N.InDom y) :
    ∃ x, s.par x = y ∧ N0.InDom x := by
  set e := Equiv.ofBijective s.axis h.axis with he
  have hx : s.par (fun j => (y (e.symm j) - s.off (e.symm j)) / s.slope (e.symm j)) = y := by
    funext i
    unfold Placed.par
    have : e.symm (s.axis i) = i := e.symm_apply_apply i
    dsimp only
    rw [this, mul_div_cancel₀ _ (h.slope i)]
    ring
  exact ⟨_, hx, (h.dom _).1 (by rw [hx]; exact hy)⟩

/-- C49: the data of an object after any sequence of method calls depend only on its data before and on the arguments
of the calls, not on the contents of uninitialised memory -/
theorem C49_deterministic {env : Env K} (heps : 0 < env.eps) {p q : List (Call K)} {N M : Nrb K d} (hv : N.Valid)
    (hi : ∀ a, N.InnerMult a) (hD : N.SameData M) (hpq : p.map Prod.snd = q.map Prod.snd) (ht : TameAll env N p) :
    (history env N p).SameData (history env M q) := by
  obtain ⟨s, h1, h2, h3⟩ := history_pair heps hv hi hD.toSameKnots hpq ht
  refine sameData_of_map h1.valid h1.inner h3 (by rw [h2.nc, h1.nc, hD.nc]) fun y hy => ?_
  obtain ⟨x, rfl, hx⟩ := Placed.surj h1 hy
  rw [h1.eval x hx, h2.eval x ((hD.toSameKnots.inDom hv).2 hx), hD.eval hv]

/-- C49: a call raises for both or for none -/
theorem C49_accepts {env : Env K} (heps : 0 < env.eps) (jn jn' : Scratch K) {N M : Nrb K d} (hv : N.Valid)
    (hi : ∀ a, N.InnerMult a) (hD : N.SameData M) {g : Geo K} (ht : g.Tame env.eps N) :
    (∃ N', g.apply env jn g.vals N = .ok N') ↔ ∃ M', g.apply env jn' g.vals M = .ok M' := by
  constructor
  · rintro ⟨N', h⟩
    obtain ⟨M', h', _⟩ := call_knots heps (jn' := jn') hv hi hD.toSameKnots ht h
    exact ⟨M', h'⟩
  · rintro ⟨M', h⟩
    obtain ⟨N', h', _⟩ := call_knots heps (jn' := jn) (hD.valid hv) (fun a => hD.inner hv (hi a)) hD.toSameKnots.symm
      (tame_congr hv hD.toSameKnots ht) h
    exact ⟨N', h'⟩

/-! ## C50 -/

theorem added_history {env : Env K} (heps : 0 < env.eps) : ∀ (p : List (Call K)) {N : Nrb K d}, N.Valid →
    (∀ a, N.InnerMult a) → (∀ c ∈ p, c.2.Refines d) → (∀ a, N.CanAdd env.eps a (addedAll a p)) →
    N.Added (history env N p) (fun a => addedAll a p) ∧ (∀ a, (history env N p).InnerMult a)
  | [], N, hv, hm, _, _ => ⟨Nrb.Added.refl hv, hm⟩
  | c :: p, N, hv, hm, hr, hc => by
    have hcons : ∀ a : Fin d, addedAll a (c :: p) = c.2.added a + addedAll a p := fun a => by
      unfold addedAll
      rw [List.map_cons, List.sum_cons]
    simp only [hcons] at hc ⊢
    obtain ⟨N', h1, h2⟩ := refines_ok heps c.1 hv hm (hr c (by simp)) hc
    have := added_history heps p h2.valid (fun a => inner_after (hc a) (hm a) h2.map (h2.knots a))
      (fun c h => hr c (by simp [h])) (fun a => canAdd_after (hc a) h2.map (h2.knots a))
    have he : history env N (c :: p) = history env N' p := by
      show history env (c.after env N) p = _
      unfold Call.after
      rw [h1]
    rw [he]
    exact ⟨h2.trans this.1, this.2⟩

/-- C50: refine an object by any sequence of `insert` and `refine` calls on any axes.  If altogether no knot gets
more than `degree` times into an axis, all calls are accepted, and the result depends only on which knots are added
to which axis: neither the order of the calls nor the division into calls matters. -/
theorem C50_order {env : Env K} (heps : 0 < env.eps) {N : Nrb K d} (hv : N.Valid) (hm : ∀ a, N.InnerMult a)
    {p q : List (Call K)} (hp : ∀ c ∈ p, c.2.Refines d) (hq : ∀ c ∈ q, c.2.Refines d)
    (hpq : ∀ a : Fin d, addedAll a p = addedAll a q) (hc : ∀ a, N.CanAdd env.eps a (addedAll a p)) :
    (history env N p).SameData (history env N q) ∧ ∀ a, (history env N p).knots a = N.knots a + addedAll a p := by
  obtain ⟨h1, i1⟩ := added_history heps p hv hm hp hc
  obtain ⟨h2, -⟩ := added_history heps q hv hm hq (fun a => by rw [← hpq]; exact hc a)
  refine ⟨sameData_of_map h1.valid i1 (sameKnots_of h1.valid h2.valid ?_ fun a => ?_) ?_ fun x hx => ?_, h1.knots⟩
  · funext a; rw [h1.shape, h2.shape, hpq]
  · rw [h1.knots, h2.knots, hpq]
  · rw [h1.map.nc, h2.map.nc]
  · have hx' : N.InDom x := fun a => by rw [← h1.map.lo, ← h1.map.hi]; exact hx a
    rw [h1.map.eval x hx', h2.map.eval x hx']

/-! ## C51 -/

theorem eval_sum {ι : Type} (s : Finset ι) {N : Nrb K d} (hv : N.Valid) {M : ι → Nrb K d} (hk : ∀ i ∈ s, N.SameKnots (M i))
    (α : ι → K) {c : ℕ} {c' : ι → ℕ} (hP : ∀ idx, N.InNet idx → N.P idx c = ∑ i ∈ s, α i * (M i).P idx (c' i)) (x : Fin d → K) :
    N.eval x c = ∑ i ∈ s, α i * (M i).eval x (c' i) := by
  have h2 : tensor N.n (fun a => (N.degree a).toNat) N.U (fun idx => ∑ i ∈ s, α i * (M i).P idx (c' i)) x =
      ∑ i ∈ s, α i * (M i).eval x (c' i) := by
    rw [tensor_sum s α (fun i idx => (M i).P idx (c' i))]
    exact Finset.sum_congr rfl fun i h => by rw [(hk i h).eval_eq hv, tensor_apply]
  rw [← h2, Nrb.eval, tensor_apply]
  refine tensor_congr (fun _ _ _ _ => rfl) (fun idx h => hP idx fun a => ?_) x
  have := h a
  unfold Nrb.n at this
  omega

theorem space_sum {ι : Type} (t : Finset ι) (s : Placed K d) (α : ι → K) (v : ι → ℕ → K) {w : ℕ → K}
    (hw : ∀ c, w c = ∑ i ∈ t, α i * v i c) (c : ℕ) : s.space w c = ∑ i ∈ t, α i * s.space (v i) c := by
  unfold Placed.space
  split_ifs with h
  · simp only [hw, Finset.mul_sum]
    rw [Finset.sum_comm]
    exact Finset.sum_congr rfl fun i _ => Finset.sum_congr rfl fun j _ => by ring
  · exact hw c

/-- C51: superposition.  If the control net of `N` is a linear combination of those of the objects `M i` with the
same knots, it is the same combination after any sequence of method calls made on all of them. -/
theorem C51_superposition {ι : Type} (t : Finset ι) {env : Env K} (heps : 0 < env.eps) {N : Nrb K d} (hv : N.Valid)
    (hi : ∀ a, N.InnerMult a) {M : ι → Nrb K d} (hk : ∀ i ∈ t, N.SameKnots (M i)) (α : ι → K)
    (hP : ∀ idx, N.InNet idx → ∀ c, N.P idx c = ∑ i ∈ t, α i * (M i).P idx c) {p : List (Call K)} {q : ι → List (Call K)}
    (hpq : ∀ i ∈ t, p.map Prod.snd = (q i).map Prod.snd) (ht : TameAll env N p) :
    (∀ i ∈ t, (history env N p).SameKnots (history env (M i) (q i))) ∧
      ∀ idx, (history env N p).InNet idx → ∀ c,
        (history env N p).P idx c = ∑ i ∈ t, α i * (history env (M i) (q i)).P idx c := by
  have hF := C46_history heps hv hi p ht
  have key : ∀ i ∈ t, (M i).Follows (history env (M i) (q i)) (placement env N (Placed.start N) p) ∧
      (history env N p).SameKnots (history env (M i) (q i)) := by
    intro i h
    obtain ⟨k1, k2, k3⟩ := history_knots heps p (q i) hv hi (hk i h) (hpq i h) ht
    have hs : Placed.start (M i) = Placed.start N := by
      unfold Placed.start
      rw [show (M i).lo = N.lo from funext ((hk i h).lo hv), show (M i).hi = N.hi from funext ((hk i h).hi hv)]
    have := C46_history heps ((hk i h).valid hv) (fun a => (hk i h).inner hv (hi a)) (q i) k2
    rw [hs, k3] at this
    exact ⟨this, k1⟩
  refine ⟨fun i h => (key i h).2, fun idx hidx c => ?_⟩
  refine net_linear t hF.valid (fun a x h1 h2 => by have := hF.inner a x h1 h2; omega) (fun i h => (key i h).2) α
    (c := c) (c' := fun _ => c) (fun y hy => ?_) hidx
  obtain ⟨x, rfl, hx⟩ := Placed.surj hF hy
  rw [hF.eval x hx, space_sum t _ α (fun i => (M i).eval x) (fun c => eval_sum t hv hk α (fun idx h => hP idx h c) x)]
  exact Finset.sum_congr rfl fun i h => by
    rw [(key i h).1.eval x (((hk i h).inDom hv).2 hx)]

/-! ## C52 -/

/-- C52: fields are independent of the geometry and of each other.  Take objects with the same knots.  If the homogeneous
coordinates agree, they agree after any sequence of method calls, whatever fields are there; a field that agrees with
a field of the other object (maybe in another column) still does. -/
theorem C52_fields {env : Env K} (heps : 0 < env.eps) {p q : List (Call K)} {N M : Nrb K d} (hv : N.Valid)
    (hi : ∀ a, N.InnerMult a) (hD : N.SameKnots M) (hpq : p.map Prod.snd = q.map Prod.snd) (ht : TameAll env N p) :
    (history env N p).SameKnots (history env M q) ∧
    ((∀ idx, N.InNet idx → ∀ c < 4, M.P idx c = N.P idx c) →
      ∀ idx, (history env N p).InNet idx → ∀ c < 4, (history env M q).P idx c = (history env N p).P idx c) ∧
    ∀ f f', (∀ idx, N.InNet idx → M.P idx (4 + f') = N.P idx (4 + f)) →
      ∀ idx, (history env N p).InNet idx → (history env M q).P idx (4 + f') = (history env N p).P idx (4 + f) := by
  obtain ⟨s, h1, h2, h3⟩ := history_pair heps hv hi hD hpq ht
  have hin : ∀ a x, (history env N p).lo a < x → x < (history env N p).hi a →
      ((history env N p).multOf a x : ℤ) ≤ (history env N p).degree a + 1 :=
    fun a x k1 k2 => by have := h1.inner a x k1 k2; omega
  have hev : ∀ c c', (∀ idx, N.InNet idx → M.P idx c' = N.P idx c) → ∀ x, M.eval x c' = N.eval x c := by
    intro c c' h x
    have := eval_sum {()} hv (M := fun _ : Unit => M) (fun _ _ => hD) (fun _ => 1) (c := c) (c' := fun _ => c')
      (fun idx hidx => by simp [h idx hidx]) x
    simpa using this.symm
  have fin : ∀ c c', (∀ x, N.InDom x → s.space (M.eval x) c' = s.space (N.eval x) c) →
      ∀ idx, (history env N p).InNet idx → (history env M q).P idx c' = (history env N p).P idx c := by
    intro c c' h idx hidx
    have := net_linear {()} h1.valid hin (M := fun _ : Unit => history env M q) (fun _ _ => h3) (fun _ => 1) (c := c)
      (c' := fun _ => c') (fun y hy => by
        obtain ⟨x, rfl, hx⟩ := Placed.surj h1 hy
        rw [h1.eval x hx, Finset.sum_singleton, one_mul, h2.eval x ((hD.inDom hv).2 hx), h x hx]) hidx
    simpa using this.symm
  refine ⟨h3, fun h idx hidx c hc => fin c c (fun x _ => ?_) idx hidx, fun f f' h idx hidx => fin _ _ (fun x _ => ?_) idx hidx⟩
  · unfold Placed.space
    rw [dif_pos hc, dif_pos hc]
    refine Finset.sum_congr rfl fun j _ => ?_
    rw [hev j j (fun idx hidx => h idx hidx j j.2)]
  · unfold Placed.space
    rw [dif_neg (by omega), dif_neg (by omega)]
    exact hev _ _ h x

/-! ## C53 -/

/-- C53: two sequences of method calls which place the object in the same way and end with the same knots end with the
same control points -/
theorem C53_confluent {env : Env K} (heps : 0 < env.eps) {p q : List (Call K)} {N : Nrb K d} (hv : N.Valid)
    (hi : ∀ a, N.InnerMult a) (hp : TameAll env N p) (hq : TameAll env N q)
    (hpar : ∀ x, (placement env N (Placed.start N) q).par x = (placement env N (Placed.start N) p).par x)
    (hmat : (placement env N (Placed.start N) q).mat = (placement env N (Placed.start N) p).mat)
    (hs : (history env N q).shape = (history env N p).shape)
    (hk : ∀ a, (history env N q).knots a = (history env N p).knots a) :
    (history env N p).SameData (history env N q) := by
  have h1 := C46_history heps hv hi p hp
  have h2 := C46_history heps hv hi q hq
  refine sameData_of_map h1.valid h1.inner (sameKnots_of h1.valid h2.valid hs hk) (by rw [h2.nc, h1.nc]) fun y hy => ?_
  obtain ⟨x, rfl, hx⟩ := Placed.surj h1 hy
  rw [h1.eval x hx, ← hpar, h2.eval x hx]
  unfold Placed.space
  rw [hmat]

theorem place_transform (g : Geo K) (hg : ∀ m, g ≠ .transform m) (s : Placed K d) (T : Fin 4 → Fin 4 → K) :
    g.place (s.transform T) = (g.place s).transform T := by
  cases g with
  | transform m => exact absurd rfl (hg m)
  | swap i j => unfold Geo.place; dsimp only; split <;> rfl
  | reverse a => unfold Geo.place; dsimp only; split <;> rfl
  | remap a b c => unfold Geo.place; dsimp only; split <;> rfl
  | _ => rfl

theorem placement_transform (env : Env K) (T : Fin 4 → Fin 4 → K) : ∀ (p : List (Call K)) (N : Nrb K d) (s : Placed K d),
    (∀ c ∈ p, ∀ m, c.2 ≠ .transform m) → placement env N (s.transform T) p = (placement env N s p).transform T
  | [], _, _, _ => rfl
  | c :: p, N, s, h => by
    unfold placement
    split
    · rw [place_transform _ (h c (by simp)), placement_transform env T p _ _ (fun c hc => h c (by simp [hc]))]
    · exact placement_transform env T p _ _ (fun c hc => h c (by simp [hc]))

theorem history_append (env : Env K) : ∀ (p q : List (Call K)) (N : Nrb K d),
    history env N (p ++ q) = history env (history env N p) q
  | [], _, _ => rfl
  | c :: p, q, N => history_append env p q (c.after env N)

theorem transform_knots (N : Nrb K d) (T : Fin 4 → Fin 4 → K) : N.SameKnots (N.transform T) :=
  ⟨rfl, rfl, fun _ _ _ _ => rfl⟩

/-- C53: it does not matter whether a transformation is applied before or after other method calls -/
theorem C53_transform {env : Env K} (heps : 0 < env.eps) {p q : List (Call K)} {N : Nrb K d} (hv : N.Valid)
    (hi : ∀ a, N.InnerMult a) (hp : TameAll env N p) (hpq : p.map Prod.snd = q.map Prod.snd)
    (hT : ∀ c ∈ p, ∀ m, c.2 ≠ .transform m) (T : Fin 4 → Fin 4 → K) (jn jn' : Scratch K) :
    (history env N (p ++ [(jn, .transform (.ok T))])).SameData (history env N ((jn', .transform (.ok T)) :: q)) := by
  have ha : ∀ (jn : Scratch K) (N : Nrb K d), Call.after env N (jn, .transform (.ok T)) = N.transform T := fun _ _ => rfl
  have hD := transform_knots N T
  have e1 : history env N (p ++ [(jn, .transform (.ok T))]) = (history env N p).transform T := by
    rw [history_append]
    exact ha jn _
  have e2 : history env N ((jn', .transform (.ok T)) :: q) = history env (N.transform T) q := by
    show history env (Call.after env N _) q = _
    rw [ha]
  rw [e1, e2]
  obtain ⟨k1, k2, k3⟩ := history_knots heps p q hv hi hD hpq hp
  have h1 := call_follows heps (jn := jn) (g := .transform (.ok T)) (C46_history heps hv hi p hp) trivial
    (N' := (history env N p).transform T) rfl
  have h2 := history_follows heps (N0 := N) (N := N.transform T) (s := (Placed.start N).transform T) q
    (call_follows heps (jn := jn') (g := .transform (.ok T)) (follows_start hv hi) trivial rfl) k2
  rw [k3, placement_transform env T p N _ hT] at h2
  refine sameData_of_map h1.valid h1.inner ((transform_knots _ T).symm.trans k1) (by rw [h2.nc, h1.nc]) fun y hy => ?_
  obtain ⟨x, rfl, hx⟩ := Placed.surj h1 hy
  rw [h1.eval x hx]
  exact h2.eval x hx

end Igakit
