import Verif.Proofs.Hull
import Verif.Props.Insert
import Verif.Props.Clamp
import Verif.Props.Refine
import Verif.Spec.Examples

/-!
# Properties C05-C07 for NURBS objects of any number of axes
-/

set_option linter.unusedSectionVars false

namespace Igakit
open Spec

variable {K : Type} [Field K] [LinearOrder K] [IsStrictOrderedRing K] {d : ℕ}

namespace Ex

/-- a rational surface of degree 2 × 2, clamped on the first axis, unclamped on the second,
with one field -/
def S : Nrb ℚ 2 where
  shape := ![6, 3]
  nc := 5
  len := ![9, 6]
  U := ![Ex.U, Ex.W]
  P := fun idx c => if c = 3 then 1 + idx 1 else (c + 1) * idx 0 * idx 0 + idx 1 * 3 - c

theorem S_valid : S.Valid := by
  intro a
  fin_cases a
  · exact Ex.U_valid
  · exact Ex.W_valid

end Ex

/-! ## C05, C06: evaluation -/

theorem callArg_ok {N : Nrb K d} {r : Fin d → ℤ} {X : Fin d → ℤ → K} (hr : ∀ a, 0 ≤ r a)
    (hx : ∀ a i, 0 ≤ i → i ≤ r a → N.lo a ≤ X a i ∧ X a i ≤ N.hi a) : N.callArg r X = .ok () := by
  unfold Nrb.callArg
  rw [if_neg (by push Not; exact hr)]
  rw [pyAssert_ok (c := ∀ a ∈ List.finRange d, ∀ x ∈ Nrb.slab (X a) 0 (r a), N.lo a ≤ x), pyAssert_ok]
  · rfl
  · intro a _ x hm
    obtain ⟨i, h1, h2, rfl⟩ := mem_slab.mp hm
    exact (hx a i h1 h2).2
  · intro a _ x hm
    obtain ⟨i, h1, h2, rfl⟩ := mem_slab.mp hm
    exact (hx a i h1 h2).1

/-- C05: calling a valid object of dimension at most three on a grid of in-domain parameters returns
at every grid position the quotient of the tensor product sums: points and fields. -/
theorem C05_call (jk : ℤ → K) (je : ℤ → ℕ → K) {N : Nrb K d} (hd : d ≤ 3) (hv : N.Valid)
    {r : Fin d → ℤ} {X : Fin d → ℤ → K} (hr : ∀ a, 0 ≤ r a)
    (hx : ∀ a i, 0 ≤ i → i ≤ r a → N.lo a ≤ X a i ∧ X a i ≤ N.hi a) :
    ∃ C, N.call jk je r X = .ok C ∧ ∀ i : Fin d → ℤ, (∀ a, 0 ≤ i a ∧ i a ≤ r a) →
      ∀ c, (C i).1 c = N.proj (fun a => X a (i a)) c ∧ (C i).2 c = N.proj (fun a => X a (i a)) (4 + c) := by
  obtain ⟨C, h1, h2⟩ := evaluateH_eq jk je hd hv r X
  unfold Nrb.call
  rw [callArg_ok hr hx, h1]
  refine ⟨_, rfl, ?_⟩
  intro i hi c
  simp only [Nrb.proj]
  rw [h2 i hi (fun a => hx a (i a) (hi a).1 (hi a).2)]
  exact ⟨rfl, rfl⟩

/-- C05: a parameter outside the domain is rejected. -/
theorem C05_call_rejects (jk : ℤ → K) (je : ℤ → ℕ → K) (N : Nrb K d)
    {r : Fin d → ℤ} {X : Fin d → ℤ → K} (hr : ∀ a, 0 ≤ r a)
    (hx : ∃ a i, 0 ≤ i ∧ i ≤ r a ∧ (X a i < N.lo a ∨ N.hi a < X a i)) :
    N.call jk je r X = .error .assertion := by
  obtain ⟨a, i, h1, h2, h3⟩ := hx
  unfold Nrb.call Nrb.callArg
  rw [if_neg (by push Not; exact hr)]
  by_cases h : ∀ a ∈ List.finRange d, ∀ x ∈ Nrb.slab (X a) 0 (r a), N.lo a ≤ x
  · rw [pyAssert_ok h, pyAssert_err]
    · rfl
    · intro h'
      have e1 := h a (List.mem_finRange a) _ (mem_slab.mpr ⟨i, h1, h2, rfl⟩)
      have e2 := h' a (List.mem_finRange a) _ (mem_slab.mpr ⟨i, h1, h2, rfl⟩)
      rcases h3 with h3 | h3
      · exact absurd e1 (not_le.mpr h3)
      · exact absurd e2 (not_le.mpr h3)
  · rw [pyAssert_err h]; rfl

example : (Ex.S.call (fun _ => 7) (fun _ _ => 9) ![0, 1] ![vec [3 / 2], vec [1 / 2, 0]]).map
    (fun C => [0, 1].map fun j => ([0, 1, 2].map (C ![0, j]).1, (C ![0,j]).2 0)) =
    .ok [([63 / 16, 47 / 8, 125 / 16], 187 / 16), ([17 / 4, 41 / 6, 113 / 12], 175 / 12)] := by
  decide +kernel
example := C05_call (fun _ => 7) (fun _ _ => 9) (N := Ex.S) (by decide) Ex.S_valid (r := ![0, 1])
  (X := ![vec [3 / 2], vec [1 / 2, 0]]) (by decide)
  (by intro a i h1 h2; fin_cases a
      · have h2 : i ≤ 0 := h2
        interval_cases i; decide +kernel
      · have h2 : i ≤ 1 := h2
        interval_cases i <;> decide +kernel)
example : Ex.S.call (fun _ => 7) (fun _ _ => 9) ![0, 1] ![vec [3 / 2], vec [1 / 2, -1]] =
    .error .assertion :=
  C05_call_rejects _ _ _ (by decide) ⟨1, 1, by decide, by decide, by decide +kernel⟩

/-- C06: with positive weights the denominator is positive and every returned point satisfies every
linear inequality (in coordinates and fields `S`) satisfied by all control points. -/
theorem C06_convex_hull (jk : ℤ → K) (je : ℤ → ℕ → K) {N : Nrb K d} (hd : d ≤ 3) (hv : N.Valid)
    {r : Fin d → ℤ} {X : Fin d → ℤ → K} (hr : ∀ a, 0 ≤ r a)
    (hx : ∀ a i, 0 ≤ i → i ≤ r a → N.lo a ≤ X a i ∧ X a i ≤ N.hi a)
    (hw : ∀ idx, (∀ a, 0 ≤ idx a ∧ idx a < N.shape a) → 0 < N.P idx 3) :
    ∃ C, N.call jk je r X = .ok C ∧ ∀ i : Fin d → ℤ, (∀ a, 0 ≤ i a ∧ i a ≤ r a) →
      0 < N.eval (fun a => X a (i a)) 3 ∧
      ∀ (α φ : ℕ → K) (S T : Finset ℕ) (β : K),
        (∀ idx, (∀ a, 0 ≤ idx a ∧ idx a < N.shape a) →
          ∑ c ∈ S, α c * (N.P idx c / N.P idx 3) + ∑ c ∈ T, φ c * (N.P idx (4 + c) / N.P idx 3) ≤ β) →
        ∑ c ∈ S, α c * (C i).1 c + ∑ c ∈ T, φ c * (C i).2 c ≤ β := by
  obtain ⟨C, h1, h2⟩ := C05_call jk je hd hv hr hx
  refine ⟨C, h1, ?_⟩
  intro i hi
  have hdom : N.InDom (fun a => X a (i a)) := fun a => hx a (i a) (hi a).1 (hi a).2
  have hw' : ∀ idx, (∀ a, 0 ≤ idx a ∧ idx a ≤ N.n a) → 0 < N.P idx 3 :=
    fun idx h => hw idx (fun a => ⟨(h a).1, by have := (h a).2; unfold Nrb.n at this; omega⟩)
  refine ⟨Nrb.eval_pos hv hdom hw', ?_⟩
  intro α φ S T β h
  have key := Nrb.hull2 hv hdom hw' S T α φ β
    (fun idx h' => h idx (fun a => ⟨(h' a).1, by have := (h' a).2; unfold Nrb.n at this; omega⟩))
  have e1 : ∑ c ∈ S, α c * (C i).1 c = ∑ c ∈ S, α c * (N.eval (fun a => X a (i a)) c /
      N.eval (fun a => X a (i a)) 3) :=
    Finset.sum_congr rfl (fun c _ => by rw [(h2 i hi c).1]; rfl)
  have e2 : ∑ c ∈ T, φ c * (C i).2 c = ∑ c ∈ T, φ c * (N.eval (fun a => X a (i a)) (4 + c) /
      N.eval (fun a => X a (i a)) 3) :=
    Finset.sum_congr rfl (fun c _ => by rw [(h2 i hi c).2]; rfl)
  rw [e1, e2]
  exact key

/-- C06: coordinatewise bounds of the control points bound every point. -/
theorem C06_bounding_box (jk : ℤ → K) (je : ℤ → ℕ → K) {N : Nrb K d} (hd : d ≤ 3) (hv : N.Valid)
    {r : Fin d → ℤ} {X : Fin d → ℤ → K} (hr : ∀ a, 0 ≤ r a)
    (hx : ∀ a i, 0 ≤ i → i ≤ r a → N.lo a ≤ X a i ∧ X a i ≤ N.hi a)
    (hw : ∀ idx, (∀ a, 0 ≤ idx a ∧ idx a < N.shape a) → 0 < N.P idx 3) {c : ℕ} {lb ub : K}
    (hb : ∀ idx, (∀ a, 0 ≤ idx a ∧ idx a < N.shape a) →
      lb ≤ N.P idx c / N.P idx 3 ∧ N.P idx c / N.P idx 3 ≤ ub) :
    ∃ C, N.call jk je r X = .ok C ∧ ∀ i : Fin d → ℤ, (∀ a, 0 ≤ i a ∧ i a ≤ r a) →
      lb ≤ (C i).1 c ∧ (C i).1 c ≤ ub := by
  obtain ⟨C, h1, h2⟩ := C06_convex_hull jk je hd hv hr hx hw
  refine ⟨C, h1, ?_⟩
  intro i hi
  constructor
  · have := (h2 i hi).2 (fun _ => -1) 0 {c} ∅ (-lb) (fun idx h => by
      simp only [Finset.sum_singleton, Finset.sum_empty, add_zero, neg_mul, one_mul, neg_le_neg_iff]
      exact (hb idx h).1)
    simpa using this
  · have := (h2 i hi).2 (fun _ => 1) 0 {c} ∅ ub (fun idx h => by
      simp only [Finset.sum_singleton, Finset.sum_empty, add_zero, one_mul]
      exact (hb idx h).2)
    simpa using this

example : ∀ idx : Fin 2 → ℤ, (∀ a, 0 ≤ idx a ∧ idx a < Ex.S.shape a) → 0 < Ex.S.P idx 3 := by
  intro idx h
  have := (h 1).1
  simp only [Ex.S, if_true]
  exact_mod_cast (by omega : 0 < 1 + idx 1)

/-! ## C07, C08: insertion -/

theorem findMult_res {eps : K} (heps : 0 < eps) {N : Nrb K d} (hv : N.Valid) {a : Fin d} {u : K}
    (h1 : N.lo a < u) (h2 : u < N.hi a) (hsep : N.Sep eps a u)
    (hm : (N.multOf a u : ℤ) ≤ N.degree a) :
    BSp.FindMult eps (N.degree a) (N.len a - 1) (N.U a) u = .ok (N.multOf a u) := by
  obtain ⟨p, hp, hk, e⟩ := deg_nat hv a
  unfold Nrb.Sep at hsep
  unfold Nrb.multOf at hm ⊢
  rw [e] at hsep hm ⊢
  rw [N.lo_eq] at h1
  rw [hp] at hm h1 ⊢
  exact C02_FindMult heps hk h1.le (by rw [← N.hi_eq]; exact h2.le) hsep (by omega)

/-- C07: `nrb.insert(axis, u, t)` at a value strictly inside the domain, with
`t + multiplicity ≤ degree`, keeps the map, adds `t` control points, and adds `t` copies of `u` to
the knots; the other axes are untouched. -/
theorem C07_insert {eps : K} (heps : 0 < eps) (jk : ℤ → K) (je : ℤ → (Fin d → ℤ) → ℕ → K)
    {N : Nrb K (d + 1)} (hv : N.Valid) {axis : ℤ} {a : Fin (d + 1)}
    (ha : normAxis (d + 1) axis = .ok a) {u : K} (h1 : N.lo a < u) (h2 : u < N.hi a)
    (hsep : N.Sep eps a u) {t : ℕ} (ht : ((t + N.multOf a u : ℕ) : ℤ) ≤ N.degree a) :
    ∃ N', N.insert eps jk je axis u (some t) = .ok N' ∧ N'.Valid ∧ N.SameMap N' ∧
      N'.shape = Function.update N.shape a (N.shape a + t) ∧
      N'.knots a = N.knots a + Multiset.replicate t u ∧ ∀ b, b ≠ a → N'.U b = N.U b := by
  obtain ⟨p, hp, hk, e⟩ := deg_nat hv a
  unfold Nrb.insert
  rw [ha, res_ok_bind]
  dsimp only
  rw [pyAssert_ok ⟨h1.le, h2.le⟩, res_ok_bind, findMult_res heps hv h1 h2 hsep (by omega), res_ok_bind,
    min_eq_left (by omega), Option.getD_some, pyAssert_ok (by omega), res_ok_bind]
  by_cases h0 : (t : ℤ) = 0
  · rw [if_pos h0]
    have h0 : t = 0 := by omega
    subst h0
    exact ⟨N, rfl, hv, Nrb.SameMap.refl N, by simp, by simp, fun _ _ => rfl⟩
  · rw [if_neg h0]
    unfold Nrb.Sep at hsep
    unfold Nrb.multOf at ht
    rw [e] at hsep ht
    obtain ⟨V, Q, g1, g2, g3, g4, g5, g6⟩ := C07_InsertKnot heps jk je hk (N.row a)
      (by rw [← hp]; exact h1) (by rw [← N.hi_eq]; exact h2) hsep (r := t) (by omega)
    have hpn : (N.degree a).toNat = p := by omega
    rw [← hp] at g1 g2 g3 g5
    rw [g1, res_ok_bind]
    have es : N.shape a + t - 1 = N.n a + t := by unfold Nrb.n; ring
    have ed : N.len a + t - (N.shape a + t) - 1 = N.degree a := by unfold Nrb.degree; ring
    refine ⟨_, rfl, ?_, ?_, ?_, ?_, ?_⟩
    · apply Nrb.setAxis_valid _ _ _ _ _ _ (fun b _ => hv b)
      rw [es, ed]; exact g2
    · apply Nrb.setAxis_sameMap _ _ _ _ _ _ ed g3
      · rw [N.hi_eq, ← g4]; congr 1; unfold Nrb.n; ring
      · intro w w1 w2
        rw [es, hpn]
        exact g6 w (by rw [← hp]; exact w1) (by rw [← N.hi_eq]; exact w2)
    · rfl
    · unfold Nrb.knots
      rw [Nrb.setAxis_U_self, Nrb.setAxis_len, Function.update_self]
      rw [show N.len a + t - 1 = N.n a + t + N.degree a + 1 by rw [N.len_eq]; ring, g5]
      congr 2
      rw [N.len_eq]; ring
    · intro b hb; exact Nrb.setAxis_U_ne _ _ _ _ _ _ hb

/-- C07: with `times=None` the value is raised to multiplicity equal to the degree. -/
theorem C07_insert_none {eps : K} (heps : 0 < eps) (jk : ℤ → K) (je : ℤ → (Fin d → ℤ) → ℕ → K)
    {N : Nrb K (d + 1)} (hv : N.Valid) {axis : ℤ} {a : Fin (d + 1)}
    (ha : normAxis (d + 1) axis = .ok a) {u : K} (h1 : N.lo a < u) (h2 : u < N.hi a)
    (hsep : N.Sep eps a u) (hm : (N.multOf a u : ℤ) ≤ N.degree a) :
    N.insert eps jk je axis u none =
      N.insert eps jk je axis u (some (((N.degree a - N.multOf a u).toNat : ℕ) : ℤ)) := by
  unfold Nrb.insert
  rw [ha, res_ok_bind, res_ok_bind]
  dsimp only
  rw [pyAssert_ok ⟨h1.le, h2.le⟩, res_ok_bind, res_ok_bind, findMult_res heps hv h1 h2 hsep hm,
    res_ok_bind, res_ok_bind, min_eq_left hm, Option.getD_some, Option.getD_none, Int.toNat_of_nonneg]
  omega


example := C07_insert (eps := 1 / 1000) (by norm_num) (fun _ => 7) (fun _ _ _ => 9) Ex.S_valid
  (axis := -2) (a := 0) rfl (u := 3 / 2) (by decide +kernel) (by decide +kernel)
  (Ex.U_sep _ (by decide +kernel)) (t := 2) (by decide +kernel)
example := C07_insert (eps := 1 / 1000) (by norm_num) (fun _ => 7) (fun _ _ _ => 9) Ex.S_valid
  (axis := 1) (a := 1) rfl (u := 1 / 2) (by decide +kernel) (by decide +kernel)
  (Ex.W_sep _ (by decide +kernel)) (t := 1) (by decide +kernel)

/-- C07: a request which would raise the multiplicity above the degree is rejected, as are values
outside the domain. -/
theorem C07_insert_rejects {eps : K} (heps : 0 < eps) (jk : ℤ → K) (je : ℤ → (Fin d → ℤ) → ℕ → K)
    {N : Nrb K (d + 1)} (hv : N.Valid) {axis : ℤ} {a : Fin (d + 1)}
    (ha : normAxis (d + 1) axis = .ok a) {u : K} :
    (N.lo a ≤ u → u ≤ N.hi a → N.Sep eps a u → (N.multOf a u : ℤ) ≤ N.degree a + 1 → ∀ t : ℤ,
      N.degree a < t + min (N.multOf a u : ℤ) (N.degree a) →
      N.insert eps jk je axis u (some t) = .error .assertion) ∧
    (u < N.lo a ∨ N.hi a < u → ∀ t, N.insert eps jk je axis u t = .error .assertion) := by
  constructor
  · intro h1 h2 hsep hm t ht
    obtain ⟨p, hp, hk, e⟩ := deg_nat hv a
    unfold Nrb.Sep at hsep
    unfold Nrb.multOf at hm ht
    rw [e] at hsep hm ht
    have hf : BSp.FindMult eps (N.degree a) (N.len a - 1) (N.U a) u =
        .ok (mult (N.U a) 0 (N.n a + p + 1) u : ℤ) := by
      rw [e, hp]
      exact C02_FindMult heps hk (by rw [← hp]; exact h1) (by rw [← N.hi_eq]; exact h2) hsep (by omega)
    unfold Nrb.insert
    rw [ha, res_ok_bind]
    dsimp only
    rw [pyAssert_ok ⟨h1, h2⟩, res_ok_bind, hf, res_ok_bind, Option.getD_some,
      pyAssert_err (by omega)]
    rfl
  · intro h t
    unfold Nrb.insert
    rw [ha, res_ok_bind]
    dsimp only
    rw [pyAssert_err]
    · rfl
    · rintro ⟨h1, h2⟩
      rcases h with h | h
      · exact absurd h1 (not_le.mpr h)
      · exact absurd h2 (not_le.mpr h)

example := (C07_insert_rejects (eps := 1 / 1000) (by norm_num) (fun _ => 7) (fun _ _ _ => 9) Ex.S_valid
  (axis := 0) (a := 0) rfl (u := 1)).1 (by decide +kernel) (by decide +kernel)
  (Ex.U_sep _ (by decide +kernel)) (by decide +kernel) 2 (by decide +kernel)

end Igakit
