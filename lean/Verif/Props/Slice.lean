import Verif.Props.NrbAxis
import Verif.Proofs.Slice

/-!
# Property C10: slicing restricts the map
-/

set_option linter.unusedSectionVars false

namespace Igakit
open Spec

variable {K : Type} [Field K] [LinearOrder K] [IsStrictOrderedRing K] {d : ℕ}

theorem setAxis_self (N : Nrb K (d + 1)) (a : Fin (d + 1)) :
    N.setAxis a (N.shape a) (N.len a) (N.U a) (N.row a) = N := by
  unfold Nrb.setAxis Nrb.row
  simp only [Function.update_eq_self, Fin.insertNth_self_removeNth]

/-- refinement also at the domain ends: result as a refinement of the rows -/
theorem refine_refn {eps : K} (heps : 0 < eps) (jk : ℤ → K) (je : ℤ → (Fin d → ℤ) → ℕ → K)
    {N : Nrb K (d + 1)} (hv : N.Valid) {axis : ℤ} {a : Fin (d + 1)}
    (ha : normAxis (d + 1) axis = .ok a) {values : List K}
    (hlo : ∀ x ∈ values, N.lo a ≤ x) (hhi : ∀ x ∈ values, x ≤ N.hi a)
    (hs : ∀ x ∈ values, N.Sep eps a x) (hss : ∀ x ∈ values, ∀ y ∈ values, x = y ∨ eps ≤ |x - y|)
    (hm : ∀ x, ((values.count x + mult (N.U a) 1 (N.len a - 2) x : ℕ) : ℤ) ≤ N.degree a) :
    ∃ T C, N.refine eps jk je axis values =
        .ok (N.setAxis a (N.shape a + values.length) (N.len a + values.length) T C) ∧
      IsRefn (N.n a) (N.degree a).toNat (N.U a) (N.row a) (N.n a + values.length) T C values ∧
      T (N.degree a) = N.lo a ∧ T (N.n a + values.length + 1) = N.hi a := by
  obtain ⟨p, hp, hk, e⟩ := deg_nat hv a
  have hpn : (N.degree a).toNat = p := by omega
  have hp1 := hk.one_le
  have hle := hk.le
  unfold Nrb.refine
  by_cases h0 : values = []
  · subst h0
    rw [if_pos rfl]
    refine ⟨N.U a, N.row a, ?_, ?_, rfl, ?_⟩
    · simp only [List.length_nil, Nat.cast_zero, add_zero]
      rw [setAxis_self]; rfl
    · simp only [List.length_nil, Nat.cast_zero, add_zero, hpn]
      exact IsRefn.refl hk.sorted _
    · simp only [List.length_nil, Nat.cast_zero, add_zero]; rw [N.hi_eq]
  · rw [if_neg h0, ha, res_ok_bind, refineArg_ok hlo hhi hm, res_ok_bind]
    have hperm := sort_perm values
    have hsrt := sort_pairwise values
    generalize values.mergeSort (fun x y => decide (x ≤ y)) = X at hperm hsrt
    have hlen : X.length = values.length := hperm.length_eq
    have hmem : ∀ j : ℤ, 0 ≤ j → j ≤ X.length - 1 → Nrb.ofList X j ∈ values := by
      intro j j1 j2
      rw [ofList_getElem X j1 j2]
      exact hperm.mem_iff.mp (List.getElem_mem _)
    obtain ⟨g1, g2, g3⟩ := refineKnotVector_refn heps jk je hk (N.row a)
      (r := X.length - 1) (by omega) (sortedOn_ofList hsrt)
      (fun j j1 j2 => by rw [← hp]; exact hlo _ (hmem j j1 j2))
      (fun j j1 j2 => by rw [← N.hi_eq]; exact hhi _ (hmem j j1 j2))
      (fun j j1 j2 => by rw [← e]; exact hs _ (hmem j j1 j2))
      (fun j j1 j2 i i1 i2 => by
        rcases hss _ (hmem j j1 j2) _ (hmem i i1 i2) with h | h
        · exact Or.inl h.symm
        · exact Or.inr h)
    rw [knotMS_ofList, Multiset.coe_eq_coe.mpr hperm,
      show N.n a + ((X.length : ℤ) - 1) + 1 = N.n a + values.length by rw [← hlen]; ring] at g1
    unfold BSp.RefineKnotVector
    rw [if_pos ⟨by omega, by omega, by omega⟩, res_ok_bind, hlen]
    rw [hlen] at g1 g2 g3
    rw [hp]
    refine ⟨_, _, rfl, ?_, ?_, ?_⟩
    · rw [← hp, hpn, hp]; exact g1
    · rw [g2 p (by omega) le_rfl, N.lo_eq, hp]
    · rw [N.hi_eq, ← g3]; congr 1; ring

/-- a knot value strictly inside the domain is neither the first nor the last knot -/
theorem mult_inner {n : ℤ} {p : ℕ} {U : ℤ → K} (hv : ValidKnots n p U) {u : K} (h1 : U p < u)
    (h2 : u < U (n + 1)) : mult U 0 (n + p + 1) u = mult U 1 (n + p) u := by
  have hp := hv.one_le
  have hle := hv.le
  unfold mult
  congr 1
  ext i
  simp only [Finset.mem_filter, Finset.mem_Icc]
  constructor
  · rintro ⟨⟨a, b⟩, c⟩
    refine ⟨⟨?_, ?_⟩, c⟩
    · by_contra hc
      have := hv.sorted i p a (by omega) (by omega)
      rw [c] at this; exact absurd h1 (not_lt.mpr this)
    · by_contra hc
      have := hv.sorted (n + 1) i (by omega) (by omega) b
      rw [c] at this; exact absurd h2 (not_lt.mpr this)
  · rintro ⟨⟨a, b⟩, c⟩
    exact ⟨by omega, c⟩

theorem mult_le_succ {n : ℤ} {p : ℕ} {U : ℤ → K} (hv : ValidKnots n p U) (u : K) :
    mult U 1 (n + p) u ≤ mult U 0 (n + p + 1) u ∧
    mult U 0 (n + p + 1) u ≤ mult U 1 (n + p) u + 1 := by
  have hp := hv.one_le
  have hle := hv.le
  constructor
  · unfold mult
    apply Finset.card_le_card
    intro i
    simp only [Finset.mem_filter, Finset.mem_Icc]
    rintro ⟨a, b⟩; exact ⟨by omega, b⟩
  · have key : ((Finset.Icc 0 (n + p + 1)).filter (fun i => U i = u)) ⊆
      insert (if U 0 = u then 0 else n + p + 1) ((Finset.Icc 1 (n + p)).filter (fun i => U i = u)) := by
      intro i
      simp only [Finset.mem_filter, Finset.mem_Icc, Finset.mem_insert]
      rintro ⟨⟨a, b⟩, c⟩
      by_cases h0 : i = 0
      · left; subst h0; rw [if_pos c]
      · by_cases h1 : i = n + p + 1
        · left
          rw [if_neg]; exact h1
          intro hc
          have s1 := hv.sorted 0 p (by omega) (by omega) (by omega)
          have s2 := hv.sorted (n + 1) (n + p + 1) (by omega) (by omega) (by omega)
          have s3 := hv.sorted p n (by omega) (by omega) (by omega)
          rw [← h1, c] at s2
          rw [hc] at s1
          exact absurd (lt_of_le_of_lt (s1.trans s3) hv.last) (not_lt.mpr s2)
        · right; exact ⟨by omega, c⟩
    have := (Finset.card_le_card key).trans (Finset.card_insert_le _ _)
    unfold mult; omega

/-- no value occurs more than `degree` times among the knots of axis `a` without the first and last -/
def Nrb.MultOK (N : Nrb K d) (a : Fin d) : Prop :=
  ∀ x, (mult (N.U a) 1 (N.len a - 2) x : ℤ) ≤ N.degree a

/-- the new knots strictly between the ends are the refined ones -/
theorem slice_inner {T : ℤ → K} {M p : ℤ} (hs : SortedOn T 0 M) {u0 u1 y : K} (h0 : u0 < y) (h1 : y < u1) (hp : 0 ≤ p)
    (hl : ∃ j, 0 ≤ j ∧ j ≤ M ∧ T j ≤ u0) (hr : ∃ j, 0 ≤ j ∧ j ≤ M ∧ u1 ≤ T j) :
    mult (Nrb.sliceKnots p (Nrb.searchR T (M + 1) u0 - 1) (Nrb.searchL T (M + 1) u1) T) 0
      (p + (Nrb.searchL T (M + 1) u1 + 1 - (Nrb.searchR T (M + 1) u0 - 1)) + p - 1) y = mult T 0 M y := by
  obtain ⟨a1, a2, a3⟩ := run_of_value hs u0
  obtain ⟨b1, b2, b3⟩ := run_of_value hs u1
  obtain ⟨j0, k1, k2, k3⟩ := hl
  obtain ⟨j1, l1, l2, l3⟩ := hr
  have c0 := (a2 j0 k1 k2).mp k3
  have c1 : ¬ j1 < Nrb.searchL T (M + 1) u1 := fun h => absurd ((b1 j1 l1 l2).mpr h) (not_lt.mpr l3)
  generalize Nrb.searchR T (M + 1) u0 = r at *
  generalize Nrb.searchL T (M + 1) u1 = l at *
  have d0 : j0 < l := (b1 j0 k1 k2).mp (lt_of_le_of_lt k3 (h0.trans h1))
  have d1 : r ≤ j1 := by
    by_contra hc
    exact absurd (l3.trans ((a2 j1 l1 l2).mpr (by omega))) (not_le.mpr (h0.trans h1))
  have d2 : r ≤ l := by
    by_contra hc
    have := (a2 l (by omega) (by omega)).mpr (by omega)
    exact lt_irrefl _ ((b1 l (by omega) (by omega)).mp (lt_of_le_of_lt this (h0.trans h1)))
  have e0 : T (r - 1) ≤ u0 := (a2 (r - 1) (by omega) (by omega)).mpr (by omega)
  have e1 : u1 ≤ T l := by
    by_contra hc
    exact lt_irrefl _ ((b1 l (by omega) (by omega)).mp (not_le.mp hc))
  unfold mult
  symm
  refine Finset.card_bij (fun z _ => z - (r - 1) + p) ?_ (fun x _ z _ h => by omega) ?_
  · intro z hz
    rw [Finset.mem_filter, Finset.mem_Icc] at hz ⊢
    have z1 : ¬ z < r := fun h => absurd ((a2 z hz.1.1 hz.1.2).mpr h) (by rw [hz.2]; exact not_le.mpr h0)
    have z2 := (b1 z hz.1.1 hz.1.2).mp (by rw [hz.2]; exact h1)
    refine ⟨by omega, ?_⟩
    unfold Nrb.sliceKnots
    rw [if_neg (by omega), if_pos (by omega), ← hz.2]
    congr 1; ring
  · intro j hj
    rw [Finset.mem_filter, Finset.mem_Icc] at hj
    unfold Nrb.sliceKnots at hj
    split_ifs at hj with g1 g2
    · rw [hj.2] at e0; exact absurd h0 (not_lt.mpr e0)
    · refine ⟨r - 1 + (j - p), ?_, by omega⟩
      rw [Finset.mem_filter, Finset.mem_Icc]
      exact ⟨by omega, hj.2⟩
    · rw [hj.2] at e1; exact absurd h1 (not_lt.mpr e1)

/-- C10: `nrb.slice(axis, u0, u1)` gives a valid object of the same degrees, clamped at both ends of
`[u0, u1]` on the axis, with the original knots strictly between, whose map is the restriction of the original
map. -/
theorem C10_slice_knots {eps : K} (heps : 0 < eps) (jk : ℤ → K) (je : ℤ → (Fin d → ℤ) → ℕ → K)
    {N : Nrb K (d + 1)} (hv : N.Valid) {axis : ℤ} {a : Fin (d + 1)}
    (ha : normAxis (d + 1) axis = .ok a) {start stop : Option K} {u0 u1 : K}
    (hst : u0 = start.getD (N.lo a)) (hsp : u1 = stop.getD (N.hi a))
    (h0 : N.lo a ≤ u0) (h1 : u1 ≤ N.hi a) (h01 : u0 < u1) (h01' : eps ≤ u1 - u0)
    (hs0 : N.Sep eps a u0) (hs1 : N.Sep eps a u1) (hm : N.MultOK a) :
    ∃ N', N.slice eps jk je axis start stop = .ok N' ∧ N'.Valid ∧ N'.nc = N.nc ∧
      (∀ b, N'.degree b = N.degree b) ∧ N'.lo a = u0 ∧ N'.hi a = u1 ∧
      (∀ b, b ≠ a → N'.shape b = N.shape b ∧ N'.U b = N.U b ∧ N'.lo b = N.lo b ∧ N'.hi b = N.hi b) ∧
      ClampedL (N'.degree a) (N'.U a) ∧ ClampedR (N'.n a) (N'.degree a) (N'.U a) ∧
      (∀ y, u0 < y → y < u1 → N'.multOf a y = N.multOf a y) ∧
      ∀ x, N'.InDom x → N'.eval x = N.eval x := by
  obtain ⟨p, hp, hk, e⟩ := deg_nat hv a
  have hp1 := hk.one_le
  have hle := hk.le
  have hpn : (N.degree a).toNat = p := by omega
  have hm' : ∀ x, (mult (N.U a) 1 (N.n a + p) x : ℤ) ≤ p := by
    intro x
    have := hm x
    rw [show N.len a - 2 = N.n a + p by omega, hp] at this
    exact this
  have hmm : ∀ x, mult (N.U a) 0 (N.n a + p + 1) x ≤ p + 1 := by
    intro x
    have a1 := hm' x
    have a2 := (mult_le_succ hk x).2
    omega
  have hfm : ∀ u, N.lo a ≤ u → u ≤ N.hi a → N.Sep eps a u →
      BSp.FindMult eps p (N.len a - 1) (N.U a) u = .ok (mult (N.U a) 0 (N.n a + p + 1) u : ℤ) := by
    intro u a1 a2 a3
    rw [N.lo_eq, hp] at a1
    unfold Nrb.Sep at a3
    rw [N.hi_eq] at a2
    rw [e] at a3 ⊢
    exact C02_FindMult heps hk a1 a2 a3 (hmm u)
  set s0 := mult (N.U a) 0 (N.n a + p + 1) u0 with hs0d
  set s1 := mult (N.U a) 0 (N.n a + p + 1) u1 with hs1d
  set L := List.replicate (max 0 ((p : ℤ) - s0)).toNat u0 ++ List.replicate (max 0 ((p : ℤ) - s1)).toNat u1
    with hL
  have hmem : ∀ x ∈ L, x = u0 ∨ x = u1 := by
    intro x hx
    rw [hL, List.mem_append, List.mem_replicate, List.mem_replicate] at hx
    rcases hx with hx | hx
    · exact Or.inl hx.2
    · exact Or.inr hx.2
  have hcount : ∀ x, L.count x = (if x = u0 then (max 0 ((p : ℤ) - s0)).toNat else 0) +
      (if x = u1 then (max 0 ((p : ℤ) - s1)).toNat else 0) := by
    intro x
    rw [hL, List.count_append, List.count_replicate, List.count_replicate]
    simp only [beq_iff_eq, @eq_comm _ x]
  obtain ⟨T, C, g1, g2, g3, g4⟩ := refine_refn heps jk je hv (normAxis_self a) (values := L)
    (by intro x hx; rcases hmem x hx with rfl | rfl; exacts [h0, h0.trans h01.le])
    (by intro x hx; rcases hmem x hx with rfl | rfl; exacts [h01.le.trans h1, h1])
    (by intro x hx; rcases hmem x hx with rfl | rfl; exacts [hs0, hs1])
    (by
      intro x hx y hy
      rcases hmem x hx with rfl | rfl <;> rcases hmem y hy with rfl | rfl
      · exact Or.inl rfl
      · right; rw [abs_sub_comm, abs_of_pos (sub_pos.mpr h01)]; exact h01'
      · right; rw [abs_of_pos (sub_pos.mpr h01)]; exact h01'
      · exact Or.inl rfl)
    (by
      intro x
      rw [hcount, show N.len a - 2 = N.n a + p by omega, hp]
      have b1 := hm' x
      have b2 := (mult_le_succ hk x).1
      by_cases hx0 : x = u0
      · subst hx0
        rw [if_pos rfl, if_neg h01.ne]; omega
      · rw [if_neg hx0]
        by_cases hx1 : x = u1
        · subst hx1
          rw [if_pos rfl]; omega
        · rw [if_neg hx1]; omega)
  rw [hpn] at g2
  have hcT : ∀ x, mult T 0 (N.n a + L.length + p + 1) x = mult (N.U a) 0 (N.n a + p + 1) x + L.count x := by
    intro x
    rw [← count_knotMS, g2.ms, Multiset.count_add, count_knotMS, Multiset.coe_count]
  have hlen : N.len a + L.length = N.n a + L.length + p + 1 + 1 := by omega
  obtain ⟨q1, q2, q3, q4, q5, q6⟩ := slice_core hk g2 (by rw [← hp]; exact g3) (by rw [g4, N.hi_eq])
    (by omega) h01 (by rw [← hp]; exact h0) (by rw [← N.hi_eq]; exact h1)
    (by rw [hcT, hcount, if_pos rfl, if_neg h01.ne]; omega)
    (by rw [hcT, hcount, if_pos rfl, if_neg h01.ne']; omega)
    (by
      intro hlt
      rw [mult_inner hk (lt_of_le_of_lt (by rw [← hp]; exact h0) h01) hlt]
      have := hm' u1; omega)
    (i0 := Nrb.searchR T (N.n a + L.length + p + 1 + 1) u0 - 1)
    (i1 := Nrb.searchL T (N.n a + L.length + p + 1 + 1) u1) rfl rfl rfl
  have hN : N.slice eps jk je axis start stop = .ok
      ((N.setAxis a (N.shape a + L.length) (N.len a + L.length) T C).setAxis a
        (Nrb.searchL T (N.n a + L.length + p + 1 + 1) u1 -
          (Nrb.searchR T (N.n a + L.length + p + 1 + 1) u0 - 1 - p))
        (p + (Nrb.searchL T (N.n a + L.length + p + 1 + 1) u1 + 1 -
          (Nrb.searchR T (N.n a + L.length + p + 1 + 1) u0 - 1)) + p)
        (Nrb.sliceKnots p (Nrb.searchR T (N.n a + L.length + p + 1 + 1) u0 - 1)
          (Nrb.searchL T (N.n a + L.length + p + 1 + 1) u1) T)
        (fun i => C (i + (Nrb.searchR T (N.n a + L.length + p + 1 + 1) u0 - 1 - p)))) := by
    unfold Nrb.slice
    rw [ha, res_ok_bind]
    dsimp only
    rw [← hst, ← hsp, pyAssert_ok h0, res_ok_bind, pyAssert_ok h1, res_ok_bind, pyAssert_ok h01,
      res_ok_bind, hp, hfm u0 h0 (h01.le.trans h1) hs0, res_ok_bind, hfm u1 (h0.trans h01.le) h1 hs1,
      res_ok_bind, g1, res_ok_bind]
    simp only [Nrb.setAxis_U_self, Nrb.setAxis_len, Function.update_self, Nrb.setAxis_row, hlen]
    rfl
  have hin : ∀ y, u0 < y → y < u1 → mult (Nrb.sliceKnots p (Nrb.searchR T (N.n a + L.length + p + 1 + 1) u0 - 1)
      (Nrb.searchL T (N.n a + L.length + p + 1 + 1) u1) T) 0
      (p + (Nrb.searchL T (N.n a + L.length + p + 1 + 1) u1 + 1 -
          (Nrb.searchR T (N.n a + L.length + p + 1 + 1) u0 - 1)) + p - 1) y = mult (N.U a) 0 (N.n a + p + 1) y := by
    intro y y0 y1
    rw [slice_inner g2.sorted (p := p) y0 y1, hcT, hcount, if_neg y0.ne', if_neg y1.ne]
    · rfl
    · omega
    · refine ⟨p, by omega, by omega, ?_⟩
      rw [show T p = N.U a p by rw [← hp]; exact g3, ← hp]; exact h0
    · refine ⟨N.n a + L.length + 1, by omega, by omega, ?_⟩
      rw [g4]; exact h1
  generalize Nrb.searchL T (N.n a + L.length + p + 1 + 1) u1 = i1 at *
  generalize Nrb.searchR T (N.n a + L.length + p + 1 + 1) u0 - 1 = i0 at *
  have hdeg : p + (i1 + 1 - i0) + p - (i1 - (i0 - p)) - 1 = (p : ℤ) := by ring
  refine ⟨_, hN, ?_, rfl, ?_, ?_, ?_, ?_, ?_, ?_, ?_, ?_⟩
  · apply Nrb.setAxis_valid
    · intro b hb
      rw [Nrb.setAxis_n_ne _ _ _ _ _ _ hb, Nrb.setAxis_degree_ne _ _ _ _ _ _ hb,
        Nrb.setAxis_U_ne _ _ _ _ _ _ hb]
      exact hv b
    · rw [hdeg]; exact q1
  · intro b
    by_cases hb : b = a
    · subst hb; rw [Nrb.setAxis_degree_self, hdeg, hp]
    · rw [Nrb.setAxis_degree_ne _ _ _ _ _ _ hb, Nrb.setAxis_degree_ne _ _ _ _ _ _ hb]
  · rw [Nrb.lo_eq, Nrb.setAxis_degree_self, hdeg, Nrb.setAxis_U_self]; exact q4
  · rw [Nrb.hi_eq, Nrb.setAxis_n_self, Nrb.setAxis_U_self]; exact q5
  · intro b hb
    refine ⟨?_, ?_, ?_, ?_⟩
    · simp [hb]
    · rw [Nrb.setAxis_U_ne _ _ _ _ _ _ hb, Nrb.setAxis_U_ne _ _ _ _ _ _ hb]
    · rw [Nrb.setAxis_lo_ne _ _ _ _ _ _ hb, Nrb.setAxis_lo_ne _ _ _ _ _ _ hb]
    · rw [Nrb.setAxis_hi_ne _ _ _ _ _ _ hb, Nrb.setAxis_hi_ne _ _ _ _ _ _ hb]
  · rw [Nrb.setAxis_degree_self, hdeg, Nrb.setAxis_U_self]; exact q2
  · rw [Nrb.setAxis_degree_self, hdeg, Nrb.setAxis_U_self, Nrb.setAxis_n_self]; exact q3
  · intro y y0 y1
    unfold Nrb.multOf
    rw [Nrb.setAxis_U_self, Nrb.setAxis_len, Function.update_self, e]
    exact hin y y0 y1
  · intro x hx
    have hxa := hx a
    rw [Nrb.lo_eq, Nrb.setAxis_degree_self, hdeg, Nrb.setAxis_U_self, q4, Nrb.hi_eq, Nrb.setAxis_n_self,
      Nrb.setAxis_U_self, q5] at hxa
    rw [Nrb.setAxis_eval, hdeg, Int.toNat_natCast, q6 _ hxa.1 hxa.2, N.eval_split a, hpn]
    have h1 : a.removeNth (N.setAxis a (N.shape a + L.length) (N.len a + L.length) T C).n =
        a.removeNth N.n := by
      funext b; exact Nrb.setAxis_n_ne _ _ _ _ _ _ (Fin.succAbove_ne a b)
    have h2 : (a.removeNth fun b => ((N.setAxis a (N.shape a + L.length) (N.len a + L.length) T C).degree
        b).toNat) = a.removeNth (fun b => (N.degree b).toNat) := by
      funext b
      show Int.toNat _ = Int.toNat _
      rw [Nrb.setAxis_degree_ne _ _ _ _ _ _ (Fin.succAbove_ne a b)]
    have h3 : a.removeNth (N.setAxis a (N.shape a + L.length) (N.len a + L.length) T C).U =
        a.removeNth N.U := by
      funext b; exact Nrb.setAxis_U_ne _ _ _ _ _ _ (Fin.succAbove_ne a b)
    rw [h1, h2, h3]

/-- C10: `nrb.slice(axis, u0, u1)` gives a valid object of the same degrees, clamped at both ends of
`[u0, u1]` on the axis, whose map is the restriction of the original map. -/
theorem C10_slice {eps : K} (heps : 0 < eps) (jk : ℤ → K) (je : ℤ → (Fin d → ℤ) → ℕ → K)
    {N : Nrb K (d + 1)} (hv : N.Valid) {axis : ℤ} {a : Fin (d + 1)}
    (ha : normAxis (d + 1) axis = .ok a) {start stop : Option K} {u0 u1 : K}
    (hst : u0 = start.getD (N.lo a)) (hsp : u1 = stop.getD (N.hi a))
    (h0 : N.lo a ≤ u0) (h1 : u1 ≤ N.hi a) (h01 : u0 < u1) (h01' : eps ≤ u1 - u0)
    (hs0 : N.Sep eps a u0) (hs1 : N.Sep eps a u1) (hm : N.MultOK a) :
    ∃ N', N.slice eps jk je axis start stop = .ok N' ∧ N'.Valid ∧ N'.nc = N.nc ∧
      (∀ b, N'.degree b = N.degree b) ∧ N'.lo a = u0 ∧ N'.hi a = u1 ∧
      (∀ b, b ≠ a → N'.shape b = N.shape b ∧ N'.U b = N.U b ∧ N'.lo b = N.lo b ∧ N'.hi b = N.hi b) ∧
      ClampedL (N'.degree a) (N'.U a) ∧ ClampedR (N'.n a) (N'.degree a) (N'.U a) ∧
      ∀ x, N'.InDom x → N'.eval x = N.eval x := by
  obtain ⟨N', e1, e2, e3, e4, e5, e6, e7, e8, e9, -, e10⟩ := C10_slice_knots heps jk je hv ha hst hsp h0 h1 h01 h01' hs0 hs1 hm
  exact ⟨N', e1, e2, e3, e4, e5, e6, e7, e8, e9, e10⟩

theorem multOK_of_list {N : Nrb K d} {a : Fin d} (hp : 0 ≤ N.degree a)
    (h : ∀ x ∈ Nrb.slab (N.U a) 1 (N.len a - 2),
      (((Nrb.slab (N.U a) 1 (N.len a - 2)).count x : ℕ) : ℤ) ≤ N.degree a) : N.MultOK a := by
  intro x
  have := count_le_of_list (l := []) hp (by simpa using h) x
  simpa using this

example := C10_slice (eps := 1 / 1000) (by norm_num) (fun _ => 7) (fun _ _ _ => 9) Ex.S_valid
  (axis := 0) (a := 0) rfl (start := some (1 / 2)) (stop := some 2) rfl rfl (by decide +kernel)
  (by decide +kernel) (by decide +kernel) (by norm_num) (Ex.U_sep _ (by decide +kernel))
  (Ex.U_sep _ (by decide +kernel)) (multOK_of_list (by decide +kernel) (by decide +kernel))
/-- the whole domain of the unclamped axis: both ends get clamped -/
example := C10_slice (eps := 1 / 1000) (by norm_num) (fun _ => 7) (fun _ _ _ => 9) Ex.S_valid
  (axis := 1) (a := 1) rfl (start := none) (stop := none) rfl rfl (by decide +kernel)
  (by decide +kernel) (by decide +kernel) (by decide +kernel) (Ex.W_sep _ (by decide +kernel))
  (Ex.W_sep _ (by decide +kernel)) (multOK_of_list (by decide +kernel) (by decide +kernel))

end Igakit
