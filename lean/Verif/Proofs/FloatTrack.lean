import Verif.Proofs.FloatParts
import Verif.Proofs.FloatAxis
import Verif.Props.Slice

/-! # From the simulation of one axis to errors of the object: refinement with closed ends, sections, parts, clamping -/

set_option linter.unusedSectionVars false

namespace Igakit
open Spec

variable {K : Type} [Field K] [LinearOrder K] [IsStrictOrderedRing K] {d : ℕ}

/-- the entries `QF` are computed from `P` by at most `k` combinations, and stand for `Q` -/
structure Tracks {ι : Type} (δ : K) (k : ℕ) (n n' : ℤ) (P : ℤ → ι → K) (QF : ℤ → ι → Fp K) (Q : ℤ → ι → K) : Prop where
  err : ∀ c A, (∀ i, 0 ≤ i → i ≤ n → |P i c| ≤ A) → ∀ i, 0 ≤ i → i ≤ n' → Fp.Err δ A (8 * k) (QF i c) (Q i c)
  box : ∀ c lo hi, 0 < lo → (∀ i, 0 ≤ i → i ≤ n → lo ≤ P i c ∧ P i c ≤ hi) → ∀ i, 0 ≤ i → i ≤ n' → Fp.Box δ lo hi (3 * k) (QF i c)

theorem rd_zero {δ : K} {rd : K → K} (hrd : RelErr δ rd) : rd 0 = 0 := by
  have := hrd 0
  rw [abs_zero, mul_zero, sub_zero] at this
  exact abs_eq_zero.mp (le_antisymm this (abs_nonneg _))

theorem tracks_of {ι : Type} {δ : K} {rd : K → K} (h0 : 0 ≤ δ) (hδ : δ < 1) (hrd : RelErr δ rd) (hmono : Monotone rd)
    (hone : rd 1 = 1) {k : ℕ} {n n' : ℤ} (hn : 0 ≤ n) {P : ℤ → ι → K} {QF : ℤ → ι → Fp K} {Q : ℤ → ι → K}
    (H : ∀ Rel : ℕ → Fp K → K → Prop, (∀ m a x, Rel m a x → Rel (m + 1) a x) →
      (∀ m u a b xF x yF y, a ≤ u → u ≤ b → a < b → Rel m xF x → Rel m yF y →
        Rel (m + 1) (Fp.cutF rd u a b xF yF) ((u - a) / (b - a) * x + (1 - (u - a) / (b - a)) * y)) →
      ∀ c, (∀ i, 0 ≤ i → i ≤ n → Rel 0 (some (P i c)) (P i c)) → ∀ i, 0 ≤ i → i ≤ n' → Rel k (QF i c) (Q i c)) :
    Tracks δ k n n' P QF Q := by
  refine ⟨fun c A hA => ?_, fun c lo hi hl hb => ?_⟩
  · exact H (fun m a x => Fp.Err δ A (8 * m) a x) (fun m a x h => h.mono h0 hδ (by omega))
      (fun m u a b xF x yF y ha hb hab hx hy => Fp.Err.cut h0 hδ hrd ha hb hab hx hy) c
      (fun i i0 i1 => ⟨_, rfl, by simp, hA i i0 i1⟩)
  · have hlh : lo ≤ hi := (hb 0 le_rfl hn).1.trans (hb 0 le_rfl hn).2
    exact H (fun m a _ => Fp.Box δ lo hi (3 * m) a) (fun m a x h => h.mono h0 hδ hl hlh (by omega))
      (fun m u a b xF x yF y ha hb hab hx hy => Fp.Box.cut h0 hδ hrd hmono hone hl ha hb hab hx hy) c
      (fun i i0 i1 => ⟨_, rfl, by simpa using (hb i i0 i1).1, by simpa using (hb i i0 i1).2⟩)

theorem Tracks.near {ι : Type} {δ : K} (h0 : 0 ≤ δ) (hδ : δ < 1) {k : ℕ} {n n' : ℤ} {p : ℕ} {U V : ℤ → K} {P : ℤ → ι → K}
    {QF : ℤ → ι → Fp K} {Q : ℤ → ι → K} (h : Tracks δ k n n' P QF Q) (hV : ValidKnots n' p V)
    (e : ∀ u, V p ≤ u → u ≤ V (n' + 1) → curve n' p V Q u = curve n p U P u) :
    NearCurve δ k n p U P n' V QF (fun i c => (QF i c).getD 0) :=
  near_of_err h0 hδ hV e h.err h.box

/-- a window of the entries -/
theorem Tracks.window {ι : Type} {δ : K} {k : ℕ} {n n' m off : ℤ} {P : ℤ → ι → K} {QF : ℤ → ι → Fp K} {Q : ℤ → ι → K}
    (h : Tracks δ k n n' P QF Q) (h1 : 0 ≤ off) (h2 : m + off ≤ n') :
    Tracks δ k n m P (fun i => QF (i + off)) (fun i => Q (i + off)) :=
  ⟨fun c A hA i a b => h.err c A hA _ (by omega) (by omega), fun c lo hi hl hb i a b => h.box c lo hi hl hb _ (by omega) (by omega)⟩

theorem setAxisF_self (N : Nrb K (d + 1)) (a : Fin (d + 1)) :
    N.setAxisF a (N.shape a) (N.len a) (N.U a) (fun i c => some (N.row a i c.1 c.2)) = N.toF := by
  unfold Nrb.setAxisF Nrb.toF Nrb.row
  simp only [Function.update_eq_self, Fin.insertNth_self_removeNth]

/-- `refine` in floating point, also at the ends of the domain: the knots and rows -/
theorem refineF_refn {δ : K} {rd : K → K} (h0 : 0 ≤ δ) (hδ : δ < 1) (hrd : RelErr δ rd) (hmono : Monotone rd)
    (hone : rd 1 = 1) {eps : K} (heps : 0 < eps) (hE : ∀ x, eps ≤ |x| → eps ≤ |rd x|) (jk : ℤ → K)
    (je : ℤ → (Fin d → ℤ) × ℕ → Fp K) {N : Nrb K (d + 1)} (hv : N.Valid) {axis : ℤ} {a : Fin (d + 1)}
    (ha : normAxis (d + 1) axis = .ok a) {values : List K}
    (hlo : ∀ x ∈ values, N.lo a ≤ x) (hhi : ∀ x ∈ values, x ≤ N.hi a)
    (hs : ∀ x ∈ values, N.Sep eps a x) (hss : ∀ x ∈ values, ∀ y ∈ values, x = y ∨ eps ≤ |x - y|)
    (hm : ∀ x, ((values.count x + mult (N.U a) 1 (N.len a - 2) x : ℕ) : ℤ) ≤ N.degree a) :
    ∃ T CF C, N.refineF rd eps jk je axis values =
        .ok (N.setAxisF a (N.shape a + values.length) (N.len a + values.length) T CF) ∧
      IsRefn (N.n a) (N.degree a).toNat (N.U a) (fun i (c : (Fin d → ℤ) × ℕ) => N.row a i c.1 c.2) (N.n a + values.length) T C values ∧
      T (N.degree a) = N.lo a ∧ T (N.n a + values.length + 1) = N.hi a ∧
      Tracks δ values.length (N.n a) (N.n a + values.length) (fun i c => N.row a i c.1 c.2) CF C := by
  obtain ⟨p, hp, hk, e⟩ := deg_nat hv a
  have hpn : (N.degree a).toNat = p := by omega
  have hp1 := hk.one_le
  have hle := hk.le
  have hz := rd_zero hrd
  unfold Nrb.refineF
  by_cases hv0 : values = []
  · subst hv0
    rw [if_pos rfl]
    refine ⟨N.U a, fun i c => some (N.row a i c.1 c.2), fun i c => N.row a i c.1 c.2, ?_, ?_, rfl, ?_, ?_⟩
    · simp only [List.length_nil, Nat.cast_zero, add_zero]
      rw [setAxisF_self]; rfl
    · simp only [List.length_nil, Nat.cast_zero, add_zero, hpn]
      exact IsRefn.refl hk.sorted _
    · simp only [List.length_nil, Nat.cast_zero, add_zero]; rw [N.hi_eq]
    · simp only [List.length_nil, Nat.cast_zero, add_zero]
      exact tracks_of h0 hδ hrd hmono hone (by omega) (fun Rel _ _ c h => h)
  · rw [if_neg hv0, ha, res_ok_bind, refineArg_ok hlo hhi hm, res_ok_bind]
    have hperm := sort_perm values
    have hsrt := sort_pairwise values
    generalize values.mergeSort (fun x y => decide (x ≤ y)) = X at hperm hsrt
    have hlen : X.length = values.length := hperm.length_eq
    have hmem : ∀ j : ℤ, 0 ≤ j → j ≤ X.length - 1 → Nrb.ofList X j ∈ values := by
      intro j j1 j2
      rw [ofList_getElem X j1 j2]
      exact hperm.mem_iff.mp (List.getElem_mem _)
    have y1 : ∀ j, 0 ≤ j → j ≤ (X.length : ℤ) - 1 → N.U a p ≤ Nrb.ofList X j :=
      fun j j1 j2 => by rw [← hp]; exact hlo _ (hmem j j1 j2)
    have y2 : ∀ j, 0 ≤ j → j ≤ (X.length : ℤ) - 1 → Nrb.ofList X j ≤ N.U a (N.n a + 1) :=
      fun j j1 j2 => by rw [← N.hi_eq]; exact hhi _ (hmem j j1 j2)
    have y3 : ∀ j, 0 ≤ j → j ≤ (X.length : ℤ) - 1 → SepFrom eps (Nrb.ofList X j) (N.U a) 0 (N.n a + p + 1) :=
      fun j j1 j2 => by rw [← e]; exact hs _ (hmem j j1 j2)
    have y4 : ∀ j, 0 ≤ j → j ≤ (X.length : ℤ) - 1 → SepFrom eps (Nrb.ofList X j) (Nrb.ofList X) 0 (X.length - 1) :=
      fun j j1 j2 i i1 i2 => by
        rcases hss _ (hmem j j1 j2) _ (hmem i i1 i2) with h | h
        · exact Or.inl h.symm
        · exact Or.inr h
    obtain ⟨g1, g2, g3⟩ := refineKnotVector_refn heps jk (fun _ => (0 : (Fin d → ℤ) × ℕ → K)) hk (fun i c => N.row a i c.1 c.2)
      (r := X.length - 1) (by omega) (sortedOn_ofList hsrt) y1 y2 y3 y4
    have hT : (Fp.refineKnotVector rd eps jk je (N.n a) p (N.U a) (fun i c => N.row a i c.1 c.2) (X.length - 1) (Nrb.ofList X)).1 =
        (refineKnotVector eps jk (fun _ => (0 : (Fin d → ℤ) × ℕ → K)) (N.n a) p (N.U a) (fun i c => N.row a i c.1 c.2)
          (X.length - 1) (Nrb.ofList X)).1 :=
      (Fp.refineKnotVector_rel (rd := rd) (Rel := fun _ _ _ => True) (fun _ _ _ _ => trivial)
        (fun _ _ _ _ _ _ _ _ _ _ _ _ _ => trivial) ((fun _ => 0, 0) : (Fin d → ℤ) × ℕ) heps hz hE jk je (fun _ => 0) hk
        (fun _ _ _ => trivial) (by omega) (sortedOn_ofList hsrt) y1 y2 y3 y4).1
    have htr := tracks_of h0 hδ hrd hmono hone (n := N.n a) (by omega) (fun Rel r1 r2 c hP =>
      (Fp.refineKnotVector_rel (rd := rd) r1 r2 c heps hz hE jk je (fun _ => 0) hk (P := fun i c => N.row a i c.1 c.2) hP
        (by omega) (sortedOn_ofList hsrt) y1 y2 y3 y4).2)
    rw [knotMS_ofList, Multiset.coe_eq_coe.mpr hperm,
      show N.n a + ((X.length : ℤ) - 1) + 1 = N.n a + values.length by rw [← hlen]; ring] at g1
    rw [show ((X.length : ℤ) - 1 + 1).toNat = values.length by omega,
      show N.n a + ((X.length : ℤ) - 1) + 1 = N.n a + values.length by rw [← hlen]; ring] at htr
    unfold Fp.RefineKnotVector
    rw [if_pos ⟨by omega, by omega, by omega⟩, res_ok_bind, hp]
    refine ⟨_, _, (refineKnotVector eps jk (fun _ => (0 : (Fin d → ℤ) × ℕ → K)) (N.n a) p (N.U a) (fun i c => N.row a i c.1 c.2)
      (X.length - 1) (Nrb.ofList X)).2, by rw [hlen]; rfl, ?_, ?_, ?_, ?_⟩
    · rw [← hp, hpn, hp, ← hlen, hT, hlen]
      rw [hlen] at g1
      exact g1
    · rw [← hlen, hT, g2 p (by omega) le_rfl, N.lo_eq, hp]
    · rw [← hlen, hT, N.hi_eq, ← g3]; congr 1; ring
    · rw [hlen] at htr ⊢
      exact htr

end Igakit
