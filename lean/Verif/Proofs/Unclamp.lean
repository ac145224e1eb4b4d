import Verif.Proofs.Clamp

set_option linter.unusedSectionVars false

namespace Igakit
open Spec

variable {K : Type*} [Field K] [LinearOrder K] [IsStrictOrderedRing K]
variable {E : Type*} [AddCommGroup E] [Module K E]

/-- knots written by the left half of `UnclampKnot` -/
theorem unclampLeft_knots {n p C : ℤ} (hC0 : 0 ≤ C) (hCp : C < p) (hpn : p ≤ n) (U : ℤ → K)
    (P : ℤ → E) :
    (∀ j, j < 0 ∨ C < j → (unclampLeft n p U P C).1 j = U j) ∧
    (∀ i, 0 ≤ i → i ≤ C → (unclampLeft n p U P C).1 (C - i) =
      U p - U (n + 1) + (unclampLeft n p U P C).1 (n - i)) := by
  have h := forUp_inv (f := fun i (U : ℤ → K) => upd U (C - i) (U p - U (n + 1) + U (n - i)))
    (fun i S => (∀ j, j ≤ C - i ∨ C < j → S j = U j) ∧
      ∀ l, 0 ≤ l → l < i → S (C - l) = U p - U (n + 1) + S (n - l))
    (lo := 0) (hi := C) (s := U) (by omega) ⟨fun _ _ => rfl, fun l a b => by omega⟩
    (by
      rintro i S h1 h2 ⟨ih1, ih2⟩
      refine ⟨fun j hj => ?_, fun l a b => ?_⟩
      · rw [upd_ne _ _ (by omega)]; exact ih1 j (by omega)
      · by_cases hl : l = i
        · subst hl
          rw [upd_same, upd_ne _ _ (by omega), ih1 p (by omega), ih1 (n + 1) (by omega)]
        · rw [upd_ne _ _ (by omega), upd_ne _ _ (by omega)]; exact ih2 l a (by omega))
  refine ⟨fun j hj => h.1 j (by omega), fun i a b => h.2 i a (by omega)⟩

theorem unclampLeft_valid {n : ℤ} {p : ℕ} {C : ℤ} (hC0 : 0 ≤ C) (hCp : C < p) {U : ℤ → K}
    (hv : ValidKnots n p U) (hcl : U (C + 1) = U p) (P : ℤ → E) :
    ValidKnots n p (unclampLeft n p U P C).1 := by
  have hp := hv.one_le
  have hle := hv.le
  obtain ⟨k1, k2⟩ := unclampLeft_knots hC0 hCp hle U P
  set V := (unclampLeft n p U P C).1 with hV
  refine ⟨hp, hle, ?_, ?_, ?_⟩
  · apply sortedOn_of_succ
    have key : ∀ (d : ℕ) (j : ℤ), 0 ≤ j → j = n + p - d → V j ≤ V (j + 1) := by
      intro d
      induction d using Nat.strong_induction_on with
      | _ d ih =>
        intro j h0 hj
        by_cases hjC : C < j
        · rw [k1 j (by omega), k1 (j + 1) (by omega)]
          exact hv.sorted _ _ (by omega) (by omega) (by omega)
        · have e1 := k2 (C - j) (by omega) (by omega)
          rw [show C - (C - j) = j by ring] at e1
          by_cases hjC' : j = C
          · rw [e1, hjC', k1 (C + 1) (by omega), hcl, k1 (n - (C - C)) (by omega)]
            have := hv.sorted n (n + 1) (by omega) (by omega) (by omega)
            rw [show n - (C - C) = n by ring]
            linarith
          · have e2 := k2 (C - (j + 1)) (by omega) (by omega)
            rw [show C - (C - (j + 1)) = j + 1 by ring] at e2
            rw [e1, e2]
            have := ih (d - (n - C).toNat) (by omega) (n - (C - j)) (by omega) (by omega)
            rw [show n - (C - j) + 1 = n - (C - (j + 1)) by ring] at this
            linarith
    intro i h1 h2
    exact key (n + p - i).toNat i h1 (by omega)
  · rw [k1 p (by omega), k1 (p + 1) (by omega)]; exact hv.first
  · rw [k1 n (by omega), k1 (n + 1) (by omega)]; exact hv.last

theorem inv_interp_left {p : ℕ} {f : Multiset K → E} (hf : IsForm p f) {m : Multiset K}
    (hm : m.card + 1 = p) {s t a : K} (h : t - s ≠ 0) (h' : t - a ≠ 0) :
    (1 - (a - s) / (t - s))⁻¹ • (f (a ::ₘ m) - ((a - s) / (t - s)) • f (t ::ₘ m)) = f (s ::ₘ m) := by
  have hne : 1 - (a - s) / (t - s) ≠ 0 := by
    have : 1 - (a - s) / (t - s) = (t - a) / (t - s) := by field_simp; ring
    rw [this]; exact div_ne_zero h' h
  rw [hf.interp' hm h a, add_sub_cancel_left, smul_smul, inv_mul_cancel₀ hne, one_smul]

theorem inv_interp_right {p : ℕ} {f : Multiset K → E} (hf : IsForm p f) {m : Multiset K}
    (hm : m.card + 1 = p) {s t b : K} (h : t - s ≠ 0) (h' : b - s ≠ 0) :
    ((b - s) / (t - s))⁻¹ • (f (b ::ₘ m) - (1 - (b - s) / (t - s)) • f (s ::ₘ m)) = f (t ::ₘ m) := by
  have hne : (b - s) / (t - s) ≠ 0 := div_ne_zero h' h
  rw [hf.interp' hm h b, add_sub_cancel_right, smul_smul, inv_mul_cancel₀ hne, one_smul]

theorem unclampLeft_form {n : ℤ} {p : ℕ} {C : ℤ} (hC0 : 0 ≤ C) (hCp : C < p) {U : ℤ → K}
    (hv : ValidKnots n p U) (hcl : ∀ j : ℤ, 1 ≤ j → j ≤ p → U j = U p) (P : ℤ → E)
    {f : Multiset K → E} (hf : IsForm p f) {lo hi : ℤ} (hrep : Rep p U P lo hi f)
    (hph : (p : ℤ) - 1 ≤ hi) {i : ℤ} (hi0 : 0 ≤ i) (hlo : lo ≤ i) (hhi : i ≤ hi) :
    (unclampLeft n p U P C).2 i = f (kn (unclampLeft n p U P C).1 i p) := by
  have hp := hv.one_le
  have hle := hv.le
  obtain ⟨k1, k2⟩ := unclampLeft_knots hC0 hCp hle U P
  have hvV := unclampLeft_valid hC0 hCp hv (hcl (C + 1) (by omega) (by omega)) P
  have e2 : (unclampLeft n p U P C).2 = forUp (p - C - 1) (p - 2) (fun i Pw =>
    forDown i 0 (fun j Pw =>
      let alpha := ((unclampLeft n p U P C).1 p - (unclampLeft n p U P C).1 (p + j - i - 1)) /
        ((unclampLeft n p U P C).1 (p + j + 1) - (unclampLeft n p U P C).1 (p + j - i - 1))
      upd Pw j ((1 - alpha)⁻¹ • (Pw j - alpha • Pw (j + 1)))) Pw) P := rfl
  rw [e2]
  set V := (unclampLeft n p U P C).1 with hV
  clear_value V
  have hVp : V p = U p := k1 p (by omega)
  -- knots attached to point `j` when stage `i` starts
  let G : ℤ → ℤ → Multiset K := fun i j =>
    kn V (p + j - i - 1) (i + 1).toNat + Multiset.replicate (p - i - 1).toNat (U p)
  have hG0 : ∀ i j, (p : ℤ) - C - 1 ≤ i → i ≤ (p : ℤ) - 1 → 0 ≤ j → j ≤ i →
      (i = (p : ℤ) - C - 1 ∨ j = i) → kn U j p = G i j := by
    intro i j h1 h2 h3 h4 h5
    have e : p = (p - i - 1).toNat + (i + 1).toNat := by omega
    rw [show kn U j p = kn U j ((p - i - 1).toNat + (i + 1).toNat) from by rw [← e], kn_add, add_comm]
    congr 1
    · apply kn_congr
      intro l a b
      rw [k1 _ (by omega)]
      congr 1; omega
    · apply kn_const
      intro l a b
      exact hcl _ (by omega) (by omega)
  have key := forUp_inv (f := fun i Pw => forDown i 0 (fun j Pw =>
      let alpha := (V p - V (p + j - i - 1)) / (V (p + j + 1) - V (p + j - i - 1))
      upd Pw j ((1 - alpha)⁻¹ • (Pw j - alpha • Pw (j + 1)))) Pw)
    (fun i (Q : ℤ → E) => (∀ j, 0 ≤ j → lo ≤ j → j ≤ i → Q j = f (G i j)) ∧
      (∀ j, i < j → Q j = P j))
    (lo := (p : ℤ) - C - 1) (hi := (p : ℤ) - 2) (s := P) (by omega)
    (by
      refine ⟨fun j a b c => ?_, fun j _ => rfl⟩
      rw [hrep j b (by omega), hG0 _ _ (le_refl _) (by omega) a c (Or.inl rfl)])
    (by
      rintro i Q h1 h2 ⟨ih1, ih2⟩
      have hnext : lo ≤ i + 1 → Q (i + 1) = f (G (i + 1) (i + 1)) := by
        intro hl
        rw [ih2 _ (by omega), hrep _ hl (by omega),
          hG0 (i + 1) (i + 1) (by omega) (by omega) (by omega) (le_refl _) (Or.inr rfl)]
      have inner := forDown_inv (f := fun j Pw =>
          let alpha := (V p - V (p + j - i - 1)) / (V (p + j + 1) - V (p + j - i - 1))
          upd Pw j ((1 - alpha)⁻¹ • (Pw j - alpha • Pw (j + 1))))
        (fun j (R : ℤ → E) => (∀ l, 0 ≤ l → l ≤ j → R l = Q l) ∧
          (∀ l, 0 ≤ l → lo ≤ l → j < l → l ≤ i + 1 → R l = f (G (i + 1) l)) ∧
          (∀ l, i < l → R l = Q l))
        (hi := i) (lo := 0) (s := Q) (by omega)
        (by
          refine ⟨fun l _ _ => rfl, fun l a b c d => ?_, fun l _ => rfl⟩
          have : l = i + 1 := by omega
          subst this
          exact hnext b)
        (by
          rintro j R hj1 hj2 ⟨r1, r2, r3⟩
          dsimp only
          refine ⟨fun l a b => ?_, fun l a b c d => ?_, fun l a => ?_⟩
          · rw [upd_ne _ _ (by omega)]; exact r1 l a (by omega)
          · by_cases hl : l = j
            · subst hl
              rw [upd_same, r1 l a (le_refl _), ih1 l a b (by omega),
                r2 (l + 1) (by omega) (by omega) (by omega) (by omega)]
              have m1 : G i l = V p ::ₘ (kn V (p + l - i - 1) (i + 1).toNat +
                  Multiset.replicate (p - i - 2).toNat (U p)) := by
                have : (p - i - 1).toNat = (p - i - 2).toNat + 1 := by omega
                simp only [G]
                rw [this, Multiset.replicate_succ, Multiset.add_cons, hVp]
              have m2 : G (i + 1) (l + 1) = V (p + l + 1) ::ₘ (kn V (p + l - i - 1) (i + 1).toNat +
                  Multiset.replicate (p - i - 2).toNat (U p)) := by
                have e : (i + 1 + 1).toNat = (i + 1).toNat + 1 := by omega
                have e' : (p : ℤ) - (i + 1) - 1 = p - i - 2 := by ring
                have e'' : (p : ℤ) + (l + 1) - (i + 1) - 1 = p + l - i - 1 := by ring
                simp only [G]
                rw [e, e', e'', kn_succ_last, Multiset.cons_add]
                congr 2
                omega
              have m3 : G (i + 1) l = V (p + l - i - 1) ::ₘ (kn V (p + l - i - 1) (i + 1).toNat +
                  Multiset.replicate (p - i - 2).toNat (U p)) := by
                have e : (i + 1 + 1).toNat = (i + 1).toNat + 1 := by omega
                have e' : (p : ℤ) - (i + 1) - 1 = p - i - 2 := by ring
                have e'' : (p : ℤ) + l - (i + 1) - 1 + 1 = p + l - i - 1 := by ring
                simp only [G]
                rw [e, e', kn_succ_first, Multiset.cons_add, e'']
              rw [m1, m2, m3]
              have hlt : V p < V (p + l + 1) := by
                have := hvV.sorted (p + 1) (p + l + 1) (by omega) (by omega) (by omega)
                exact lt_of_lt_of_le hvV.first this
              have hle2 : V (p + l - i - 1) ≤ V p :=
                hvV.sorted _ _ (by omega) (by omega) (by omega)
              apply inv_interp_left hf
              · rw [Multiset.card_add, card_kn, Multiset.card_replicate]; omega
              · exact sub_ne_zero.mpr (ne_of_gt (lt_of_le_of_lt hle2 hlt))
              · exact sub_ne_zero.mpr (ne_of_gt hlt)
            · rw [upd_ne _ _ hl]; exact r2 l a b (by omega) d
          · rw [upd_ne _ _ (by omega)]; exact r3 l a)
      refine ⟨fun j a b c => inner.2.1 j a b (by omega) c, fun j a => ?_⟩
      rw [inner.2.2 j (by omega)]; exact ih2 j (by omega))
  have hfin : (p : ℤ) - 2 + 1 = p - 1 := by ring
  rw [hfin] at key
  by_cases hc : i ≤ (p : ℤ) - 1
  · rw [key.1 i hi0 hlo hc]
    congr 1
    simp only [G]
    have a1 : ((p : ℤ) - 1 + 1).toNat = p := by omega
    have a2 : ((p : ℤ) - (p - 1) - 1).toNat = 0 := by omega
    have a3 : (p : ℤ) + i - (p - 1) - 1 = i := by ring
    rw [a1, a2, a3, Multiset.replicate_zero, add_zero]
  · rw [key.2 i (by omega), hrep i hlo hhi]
    congr 1
    apply kn_congr
    intro l a b
    rw [k1 _ (by omega)]

theorem unclampLeft_curve (jk jk' : ℤ → K) {n : ℤ} {p : ℕ} {C : ℤ} (hC0 : 0 ≤ C) (hCp : C < p)
    {U : ℤ → K} (hv : ValidKnots n p U) (hcl : ∀ j : ℤ, 1 ≤ j → j ≤ p → U j = U p) (P : ℤ → E)
    {u : K} (h1 : U p ≤ u) (h2 : u ≤ U (n + 1)) :
    curvePoint jk' n p (unclampLeft n p U P C).1 (unclampLeft n p U P C).2 u =
      curvePoint jk n p U P u := by
  have hp := hv.one_le
  have hle := hv.le
  obtain ⟨k1, -⟩ := unclampLeft_knots hC0 hCp hle U P
  apply curvePoint_transfer jk jk' hv
    (unclampLeft_valid hC0 hCp hv (hcl (C + 1) (by omega) (by omega)) P) P _ h1 h2
    (by rw [k1 _ (by omega)]; exact h1) (by rw [k1 _ (by omega)]; exact h2)
  intro f hf hr
  have hrg := findSpan_range (U := U) u (by omega : (0 : ℤ) ≤ p) hle
  rw [findSpan_congr (by omega) hle (fun i j a b c => hv.sorted i j (by omega) b (by omega))
    (fun i a _ => k1 i (by omega)) u]
  intro i a b
  exact unclampLeft_form hC0 hCp hv hcl P hf hr (by omega) (by omega) a b

/-! ### right -/

theorem unclampRight_knots {n p C : ℤ} (hC0 : 0 ≤ C) (hCp : C < p) (hpn : p ≤ n) (U : ℤ → K)
    (P : ℤ → E) :
    (∀ j, j < n + p + 1 - C ∨ n + p + 1 < j → (unclampRight n p U P C).1 j = U j) ∧
    (∀ i, 0 ≤ i → i ≤ C → (unclampRight n p U P C).1 (n + p + 1 - C + i) =
      U (n + 1) - U p + (unclampRight n p U P C).1 (p + i + 1)) := by
  have h := forUp_inv (f := fun i (U : ℤ → K) => upd U (n + p + 1 - C + i)
      (U (n + 1) - U p + U (p + i + 1)))
    (fun i S => (∀ j, j < n + p + 1 - C ∨ n + p + 1 - C + i ≤ j → S j = U j) ∧
      ∀ l, 0 ≤ l → l < i → S (n + p + 1 - C + l) = U (n + 1) - U p + S (p + l + 1))
    (lo := 0) (hi := C) (s := U) (by omega) ⟨fun _ _ => rfl, fun l a b => by omega⟩
    (by
      rintro i S h1 h2 ⟨ih1, ih2⟩
      refine ⟨fun j hj => ?_, fun l a b => ?_⟩
      · rw [upd_ne _ _ (by omega)]; exact ih1 j (by omega)
      · by_cases hl : l = i
        · subst hl
          rw [upd_same, upd_ne _ _ (by omega), ih1 p (by omega), ih1 (n + 1) (by omega)]
        · rw [upd_ne _ _ (by omega), upd_ne _ _ (by omega)]; exact ih2 l a (by omega))
  refine ⟨fun j hj => h.1 j (by omega), fun i a b => h.2 i a (by omega)⟩

theorem unclampRight_valid {n : ℤ} {p : ℕ} {C : ℤ} (hC0 : 0 ≤ C) (hCp : C < p) {U : ℤ → K}
    (hv : ValidKnots n p U) (hcl : U (n + p - C) = U (n + 1)) (P : ℤ → E) :
    ValidKnots n p (unclampRight n p U P C).1 := by
  have hp := hv.one_le
  have hle := hv.le
  obtain ⟨k1, k2⟩ := unclampRight_knots hC0 hCp hle U P
  set V := (unclampRight n p U P C).1 with hV
  refine ⟨hp, hle, ?_, ?_, ?_⟩
  · apply sortedOn_of_succ
    have key : ∀ (d : ℕ) (j : ℤ), j = d → j < n + p + 1 → V j ≤ V (j + 1) := by
      intro d
      induction d using Nat.strong_induction_on with
      | _ d ih =>
        intro j hj h0
        by_cases hjC : j + 1 < n + p + 1 - C
        · rw [k1 j (by omega), k1 (j + 1) (by omega)]
          exact hv.sorted _ _ (by omega) (by omega) (by omega)
        · have e1 := k2 (j + 1 - (n + p + 1 - C)) (by omega) (by omega)
          rw [show n + p + 1 - C + (j + 1 - (n + p + 1 - C)) = j + 1 by ring] at e1
          by_cases hjC' : j + 1 = n + p + 1 - C
          · rw [e1, hjC', k1 j (by omega), show j = n + p - C by omega, hcl,
              k1 _ (by omega), show (p : ℤ) + (n + p + 1 - C - (n + p + 1 - C)) + 1 = p + 1 by ring]
            have := hv.sorted p (p + 1) (by omega) (by omega) (by omega)
            linarith
          · have e2 := k2 (j - (n + p + 1 - C)) (by omega) (by omega)
            rw [show n + p + 1 - C + (j - (n + p + 1 - C)) = j by ring] at e2
            rw [e1, e2]
            have := ih (d - (n - C).toNat) (by omega) (p + (j - (n + p + 1 - C)) + 1) (by omega)
              (by omega)
            rw [show (p : ℤ) + (j - (n + p + 1 - C)) + 1 + 1 = p + (j + 1 - (n + p + 1 - C)) + 1 by
              ring] at this
            linarith
    intro i h1 h2
    exact key i.toNat i (by omega) h2
  · rw [k1 p (by omega), k1 (p + 1) (by omega)]; exact hv.first
  · rw [k1 n (by omega), k1 (n + 1) (by omega)]; exact hv.last

theorem unclampRight_form {n : ℤ} {p : ℕ} {C : ℤ} (hC0 : 0 ≤ C) (hCp : C < p) {U : ℤ → K}
    (hv : ValidKnots n p U) (hcl : ∀ j : ℤ, n + 1 ≤ j → j ≤ n + p → U j = U (n + 1)) (P : ℤ → E)
    {f : Multiset K → E} (hf : IsForm p f) {lo hi : ℤ} (hrep : Rep p U P lo hi f)
    (hpl : lo ≤ n - p + 1) {i : ℤ} (hin : i ≤ n) (hlo : lo ≤ i) (hhi : i ≤ hi) :
    (unclampRight n p U P C).2 i = f (kn (unclampRight n p U P C).1 i p) := by
  have hp := hv.one_le
  have hle := hv.le
  obtain ⟨k1, k2⟩ := unclampRight_knots hC0 hCp hle U P
  have hvV := unclampRight_valid hC0 hCp hv (hcl (n + p - C) (by omega) (by omega)) P
  have e2 : (unclampRight n p U P C).2 = forUp (p - C - 1) (p - 2) (fun i Pw =>
    forDown i 0 (fun j Pw =>
      let alpha := ((unclampRight n p U P C).1 (n + 1) - (unclampRight n p U P C).1 (n - j)) /
        ((unclampRight n p U P C).1 (n - j + i + 2) - (unclampRight n p U P C).1 (n - j))
      upd Pw (n - j) (alpha⁻¹ • (Pw (n - j) - (1 - alpha) • Pw (n - j - 1)))) Pw) P := rfl
  rw [e2]
  set V := (unclampRight n p U P C).1 with hV
  clear_value V
  have hVp : V (n + 1) = U (n + 1) := k1 _ (by omega)
  -- knots attached to point `n - j` when stage `i` starts
  let G : ℤ → ℤ → Multiset K := fun i j =>
    kn V (n - j) (i + 1).toNat + Multiset.replicate (p - i - 1).toNat (U (n + 1))
  have hG0 : ∀ i j, (p : ℤ) - C - 1 ≤ i → i ≤ (p : ℤ) - 1 → 0 ≤ j → j ≤ i →
      (i = (p : ℤ) - C - 1 ∨ j = i) → kn U (n - j) p = G i j := by
    intro i j h1 h2 h3 h4 h5
    have e : p = (i + 1).toNat + (p - i - 1).toNat := by omega
    rw [show kn U (n - j) p = kn U (n - j) ((i + 1).toNat + (p - i - 1).toNat) from by rw [← e],
      kn_add]
    congr 1
    · apply kn_congr
      intro l a b
      rw [k1 _ (by omega)]
    · apply kn_const
      intro l a b
      exact hcl _ (by omega) (by omega)
  have key := forUp_inv (f := fun i Pw => forDown i 0 (fun j Pw =>
      let alpha := (V (n + 1) - V (n - j)) / (V (n - j + i + 2) - V (n - j))
      upd Pw (n - j) (alpha⁻¹ • (Pw (n - j) - (1 - alpha) • Pw (n - j - 1)))) Pw)
    (fun i (Q : ℤ → E) => (∀ j, 0 ≤ j → n - j ≤ hi → j ≤ i → Q (n - j) = f (G i j)) ∧
      (∀ j, i < j → Q (n - j) = P (n - j)))
    (lo := (p : ℤ) - C - 1) (hi := (p : ℤ) - 2) (s := P) (by omega)
    (by
      refine ⟨fun j a b c => ?_, fun j _ => rfl⟩
      rw [hrep (n - j) (by omega) (by omega), hG0 _ _ (le_refl _) (by omega) a c (Or.inl rfl)])
    (by
      rintro i Q h1 h2 ⟨ih1, ih2⟩
      have hnext : n - (i + 1) ≤ hi → Q (n - (i + 1)) = f (G (i + 1) (i + 1)) := by
        intro hl
        rw [ih2 _ (by omega), hrep _ (by omega) hl,
          hG0 (i + 1) (i + 1) (by omega) (by omega) (by omega) (le_refl _) (Or.inr rfl)]
      have inner := forDown_inv (f := fun j Pw =>
          let alpha := (V (n + 1) - V (n - j)) / (V (n - j + i + 2) - V (n - j))
          upd Pw (n - j) (alpha⁻¹ • (Pw (n - j) - (1 - alpha) • Pw (n - j - 1))))
        (fun j (R : ℤ → E) => (∀ l, 0 ≤ l → l ≤ j → R (n - l) = Q (n - l)) ∧
          (∀ l, 0 ≤ l → n - l ≤ hi → j < l → l ≤ i + 1 → R (n - l) = f (G (i + 1) l)) ∧
          (∀ l, i < l → R (n - l) = Q (n - l)))
        (hi := i) (lo := 0) (s := Q) (by omega)
        (by
          refine ⟨fun l _ _ => rfl, fun l a b c d => ?_, fun l _ => rfl⟩
          have : l = i + 1 := by omega
          subst this
          exact hnext b)
        (by
          rintro j R hj1 hj2 ⟨r1, r2, r3⟩
          dsimp only
          refine ⟨fun l a b => ?_, fun l a b c d => ?_, fun l a => ?_⟩
          · rw [upd_ne _ _ (by omega)]; exact r1 l a (by omega)
          · by_cases hl : l = j
            · subst hl
              have hl1 := r2 (l + 1) (by omega) (by omega) (by omega) (by omega)
              rw [show n - (l + 1) = n - l - 1 by ring] at hl1
              rw [upd_same, r1 l a (le_refl _), ih1 l a b (by omega), hl1]
              have m1 : G i l = V (n + 1) ::ₘ (kn V (n - l) (i + 1).toNat +
                  Multiset.replicate (p - i - 2).toNat (U (n + 1))) := by
                have : (p - i - 1).toNat = (p - i - 2).toNat + 1 := by omega
                simp only [G]
                rw [this, Multiset.replicate_succ, Multiset.add_cons, hVp]
              have m2 : G (i + 1) (l + 1) = V (n - l) ::ₘ (kn V (n - l) (i + 1).toNat +
                  Multiset.replicate (p - i - 2).toNat (U (n + 1))) := by
                have e : (i + 1 + 1).toNat = (i + 1).toNat + 1 := by omega
                have e' : (p : ℤ) - (i + 1) - 1 = p - i - 2 := by ring
                have e'' : n - (l + 1) + 1 = n - l := by ring
                simp only [G]
                rw [e, e', kn_succ_first, Multiset.cons_add, e'']
              have m3 : G (i + 1) l = V (n - l + i + 2) ::ₘ (kn V (n - l) (i + 1).toNat +
                  Multiset.replicate (p - i - 2).toNat (U (n + 1))) := by
                have e : (i + 1 + 1).toNat = (i + 1).toNat + 1 := by omega
                have e' : (p : ℤ) - (i + 1) - 1 = p - i - 2 := by ring
                simp only [G]
                rw [e, e', kn_succ_last, Multiset.cons_add]
                congr 2
                omega
              rw [m1, m2, m3]
              have hlt : V (n - l) < V (n + 1) := by
                have := hvV.sorted (n - l) n (by omega) (by omega) (by omega)
                exact lt_of_le_of_lt this hvV.last
              have hle2 : V (n + 1) ≤ V (n - l + i + 2) :=
                hvV.sorted _ _ (by omega) (by omega) (by omega)
              apply inv_interp_right hf
              · rw [Multiset.card_add, card_kn, Multiset.card_replicate]; omega
              · exact sub_ne_zero.mpr (ne_of_gt (lt_of_lt_of_le hlt hle2))
              · exact sub_ne_zero.mpr (ne_of_gt hlt)
            · rw [upd_ne _ _ (by omega)]; exact r2 l a b (by omega) d
          · rw [upd_ne _ _ (by omega)]; exact r3 l a)
      refine ⟨fun j a b c => inner.2.1 j a b (by omega) c, fun j a => ?_⟩
      rw [inner.2.2 j (by omega)]; exact ih2 j (by omega))
  have hfin : (p : ℤ) - 2 + 1 = p - 1 := by ring
  rw [hfin] at key
  have ei : n - (n - i) = i := by ring
  by_cases hc : n - i ≤ (p : ℤ) - 1
  · have := key.1 (n - i) (by omega) (by omega) hc
    rw [ei] at this
    rw [this]
    congr 1
    simp only [G]
    have a1 : ((p : ℤ) - 1 + 1).toNat = p := by omega
    have a2 : ((p : ℤ) - (p - 1) - 1).toNat = 0 := by omega
    rw [a1, a2, ei, Multiset.replicate_zero, add_zero]
  · have := key.2 (n - i) (by omega)
    rw [ei] at this
    rw [this, hrep i hlo hhi]
    congr 1
    apply kn_congr
    intro l a b
    rw [k1 _ (by omega)]

theorem unclampRight_curve (jk jk' : ℤ → K) {n : ℤ} {p : ℕ} {C : ℤ} (hC0 : 0 ≤ C) (hCp : C < p)
    {U : ℤ → K} (hv : ValidKnots n p U) (hcl : ∀ j : ℤ, n + 1 ≤ j → j ≤ n + p → U j = U (n + 1))
    (P : ℤ → E) {u : K} (h1 : U p ≤ u) (h2 : u ≤ U (n + 1)) :
    curvePoint jk' n p (unclampRight n p U P C).1 (unclampRight n p U P C).2 u =
      curvePoint jk n p U P u := by
  have hp := hv.one_le
  have hle := hv.le
  obtain ⟨k1, -⟩ := unclampRight_knots hC0 hCp hle U P
  apply curvePoint_transfer jk jk' hv
    (unclampRight_valid hC0 hCp hv (hcl (n + p - C) (by omega) (by omega)) P) P _ h1 h2
    (by rw [k1 _ (by omega)]; exact h1) (by rw [k1 _ (by omega)]; exact h2)
  intro f hf hr
  have hrg := findSpan_range (U := U) u (by omega : (0 : ℤ) ≤ p) hle
  rw [findSpan_congr (by omega) hle (fun i j a b c => hv.sorted i j (by omega) b (by omega))
    (fun i _ a => k1 i (by omega)) u]
  intro i a b
  exact unclampRight_form hC0 hCp hv hcl P hf hr (by omega) (by omega) a b

end Igakit
