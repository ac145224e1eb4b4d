import Verif.Proofs.Ders

set_option linter.unusedSectionVars false

namespace Igakit
open Spec Polynomial

variable {K : Type*} [Field K] [LinearOrder K] [IsStrictOrderedRing K]

theorem upd2_same {α : Type*} (A : ℤ → ℤ → α) (i j : ℤ) (v : α) : upd2 A i j v i j = v := by
  simp [upd2]

theorem upd2_ne {α : Type*} (A : ℤ → ℤ → α) {i j x y : ℤ} (v : α) (h : x ≠ i ∨ y ≠ j) :
    upd2 A i j v x y = A x y := by
  unfold upd2; rw [if_neg]; rintro ⟨a, b⟩; rcases h with h | h <;> contradiction

/-- closed form of the inner loop of the first part -/
theorem nduInner_spec (left right : ℤ → K) (j : ℤ) (hj : 1 ≤ j) (N : ℤ → ℤ → K) :
    let g : ℤ → K := fun r => N r (j - 1) / (right (r + 1) + left (j - r))
    (∀ r, 0 ≤ r → r < j → (nduInner left right j N).1 r j =
      (if r = 0 then 0 else left (j - (r - 1)) * g (r - 1)) + right (r + 1) * g r) ∧
    (∀ r, 0 ≤ r → r < j → (nduInner left right j N).1 j r = right (r + 1) + left (j - r)) ∧
    (∀ x y, x < j → y < j → (nduInner left right j N).1 x y = N x y) ∧
    (nduInner left right j N).2 = left 1 * g (j - 1) := by
  intro g
  have := forUp_inv (f := fun r (s : (ℤ → ℤ → K) × K) =>
    let ndu := upd2 s.1 j r (right (r + 1) + left (j - r))
    let temp := ndu r (j - 1) / ndu j r
    (upd2 ndu r j (s.2 + right (r + 1) * temp), left (j - r) * temp))
    (fun i s => (∀ r, 0 ≤ r → r < i → s.1 r j =
        (if r = 0 then 0 else left (j - (r - 1)) * g (r - 1)) + right (r + 1) * g r) ∧
      (∀ r, 0 ≤ r → r < i → s.1 j r = right (r + 1) + left (j - r)) ∧
      (∀ x y, x < j → y < j → s.1 x y = N x y) ∧
      s.2 = if i = 0 then 0 else left (j - (i - 1)) * g (i - 1))
    (lo := 0) (hi := j - 1) (s := (N, 0)) (by omega)
    (by
      refine ⟨fun r a b => by omega, fun r a b => by omega, fun x y _ _ => rfl, by simp⟩)
    (by
      rintro i ⟨M, sv⟩ h1 h2 ⟨a, b, c, d⟩
      simp only at a b c d
      dsimp only
      have ht : upd2 M j i (right (i + 1) + left (j - i)) i (j - 1) /
          upd2 M j i (right (i + 1) + left (j - i)) j i = g i := by
        rw [upd2_same, upd2_ne _ _ (Or.inl (by omega)), c i (j - 1) (by omega) (by omega)]
      rw [ht]
      refine ⟨?_, ?_, ?_, ?_⟩
      · intro r x1 x2
        by_cases hri : r = i
        · subst hri
          rw [upd2_same, d]
        · rw [upd2_ne _ _ (Or.inl hri), upd2_ne _ _ (Or.inl (by omega)), a r x1 (by omega)]
      · intro r x1 x2
        rw [upd2_ne _ _ (Or.inl (by omega))]
        by_cases hri : r = i
        · subst hri; rw [upd2_same]
        · rw [upd2_ne _ _ (Or.inr hri), b r x1 (by omega)]
      · intro x y hx hy
        rw [upd2_ne _ _ (Or.inr (by omega)), upd2_ne _ _ (Or.inl (by omega)), c x y hx hy]
      · have h3 : ¬ (i + 1 = 0) := by omega
        have e : i + 1 - 1 = i := by ring
        rw [if_neg h3, e])
  have e : j - 1 + 1 = j := by ring
  rw [e] at this
  obtain ⟨a, b, c, d⟩ := this
  refine ⟨a, b, c, ?_⟩
  rw [show (nduInner left right j N).2 = _ from d, if_neg (by omega)]
  congr 2; ring

/-- the table `ndu`: pieces of all degrees on and above the diagonal, knot differences below -/
theorem nduTable_spec (jk : ℤ → K) (j2 : ℤ → ℤ → K) (k : ℤ) (u : K) (p : ℕ) (U : ℤ → K) :
    (∀ (q : ℕ) (r : ℤ), q ≤ p → 0 ≤ r → r ≤ q →
      nduTable jk j2 k u p U r q = piece U k q (k - q + r) u) ∧
    (∀ j r : ℤ, j ≤ p → 0 ≤ r → r < j →
      nduTable jk j2 k u p U j r = U (k + r + 1) - U (k + 1 - j + r)) := by
  have := forUp_inv (f := nduOuter k u U)
    (fun j s => (∀ (q : ℕ) (r : ℤ), (q : ℤ) ≤ j - 1 → 0 ≤ r → r ≤ q →
        s.ndu r q = piece U k q (k - q + r) u) ∧
      (∀ l r : ℤ, l ≤ j - 1 → 0 ≤ r → r < l → s.ndu l r = U (k + r + 1) - U (k + 1 - l + r)) ∧
      (∀ l, 1 ≤ l → l ≤ j - 1 → s.left l = u - U (k + 1 - l) ∧ s.right l = U (k + l) - u))
    (lo := 1) (hi := p) (s := { ndu := upd2 j2 0 0 1, left := jk, right := jk }) (by omega)
    (by
      refine ⟨fun q r a b c => ?_, fun l r a b c => by omega, fun l a b => by omega⟩
      have hr : r = 0 := by omega
      have hq : q = 0 := by omega
      subst hr hq
      simp [piece, coxDB, upd2])
    (by
      rintro j ⟨N, left, right⟩ h1 h2 ⟨a, c, b⟩
      simp only at a b c
      have e : j + 1 - 1 = j := by ring
      rw [e]
      have hlr : ∀ l, 1 ≤ l → l ≤ j → upd left j (u - U (k + 1 - j)) l = u - U (k + 1 - l) ∧
          upd right j (U (k + j) - u) l = U (k + l) - u := by
        intro l x1 x2
        by_cases hl : l = j
        · subst hl; simp
        · rw [upd_ne _ _ hl, upd_ne _ _ hl]; exact b l x1 (by omega)
      obtain ⟨i1, i2, i3, i4⟩ := nduInner_spec (upd left j (u - U (k + 1 - j)))
        (upd right j (U (k + j) - u)) j h1 N
      beta_reduce at i1 i4
      refine ⟨?_, ?_, hlr⟩
      · intro q r hq x1 x2
        simp only [nduOuter]
        by_cases hqj : (q : ℤ) ≤ j - 1
        · rw [upd2_ne _ _ (Or.inl (by omega)), i3 r q (by omega) (by omega)]
          exact a q r hqj x1 x2
        obtain ⟨t, ht⟩ : ∃ t : ℕ, (t : ℤ) = j - 1 := ⟨(j - 1).toNat, by omega⟩
        have hq2 : q = t + 1 := by omega
        have hjq : ((q : ℕ) : ℤ) = j := by omega
        subst hq2
        rw [hjq]
        have hg : ∀ r, 0 ≤ r → r ≤ j - 1 →
            N r (j - 1) / (upd right j (U (k + j) - u) (r + 1) + upd left j (u - U (k + 1 - j)) (j - r)) =
            piece U k t (k - j + r + 1) u / (U (k + r + 1) - U (k - j + r + 1)) := by
          intro r x1 x2
          rw [← ht, a t r (by omega) x1 (by omega), (hlr (r + 1) (by omega) (by omega)).2,
            (hlr (j - r) (by omega) (by omega)).1, ht]
          have e1 : k + 1 - (j - r) = k - j + r + 1 := by ring
          have e2 : k - (j - 1) + r = k - j + r + 1 := by ring
          have e3 : k + (r + 1) = k + r + 1 := by ring
          rw [e1, e2, e3]; congr 1; ring
        rw [piece_succ]
        have d1 : k - j + r + t + 1 = k + r := by omega
        have d2 : k - j + r + t + 2 = k + r + 1 := by omega
        rw [d1, d2]
        by_cases hrj : r = j
        · subst hrj
          rw [upd2_same, i4, hg (r - 1) (by omega) (by omega), (hlr 1 (by omega) (by omega)).1]
          have z : piece U k t (k - r + r + 1) u = 0 := piece_zero_of_gt _ _ _ _ _ (by omega)
          have e1 : k + 1 - 1 = k := by ring
          have e2 : k - r + (r - 1) + 1 = k := by ring
          have e3 : k - r + r = k := by ring
          have e4 : k + (r - 1) + 1 = k + r := by ring
          rw [z, e1, e2, e3, e4]; ring
        · rw [upd2_ne _ _ (Or.inl hrj), i1 r x1 (by omega), hg r x1 (by omega),
            (hlr (r + 1) (by omega) (by omega)).2]
          have e3 : k + (r + 1) = k + r + 1 := by ring
          rw [e3]
          by_cases hr0 : r = 0
          · subst hr0
            have z : piece U k t (k - j + 0) u = 0 := piece_zero_of_lt _ _ _ _ _ (by omega)
            rw [z, if_pos rfl]; ring
          · rw [if_neg hr0, hg (r - 1) (by omega) (by omega),
              (hlr (j - (r - 1)) (by omega) (by omega)).1]
            have e1 : k + 1 - (j - (r - 1)) = k - j + r := by ring
            have e2 : k - j + (r - 1) + 1 = k - j + r := by ring
            have e4 : k + (r - 1) + 1 = k + r := by ring
            rw [e1, e2, e4]; ring
      · intro l r hl x1 x2
        simp only [nduOuter]
        rw [upd2_ne _ _ (by omega)]
        by_cases hlj : l = j
        · subst hlj
          rw [i2 r x1 x2, (hlr (r + 1) (by omega) (by omega)).2, (hlr (l - r) (by omega) (by omega)).1]
          have e1 : k + (r + 1) = k + r + 1 := by ring
          have e2 : k + 1 - (l - r) = k + 1 - l + r := by ring
          rw [e1, e2]; ring
        · rw [i3 l r (by omega) (by omega)]
          exact c l r (by omega) x1 x2)
  refine ⟨fun q r a b c => this.1 q r (by omega) b c, fun j r a b c => this.2.1 j r (by omega) b c⟩

/-- the sum computed for function `r` and order `k`, before multiplication by the factor -/
def dsum (U : ℤ → K) (s : ℤ) (p : ℕ) (u : K) (r : ℤ) (k : ℕ) (m : ℕ) : K :=
  ∑ j ∈ Finset.range m, dcoef U p (s - p + r) k j * piece U s (p - k) (s - p + r + j) u

/-- what the algorithm needs to know about the table -/
structure NduOK (ndu : ℤ → ℤ → K) (U : ℤ → K) (s : ℤ) (p : ℕ) (u : K) : Prop where
  piece : ∀ (q : ℕ) (r : ℤ), q ≤ p → 0 ≤ r → r ≤ q → ndu r q = Spec.piece U s q (s - q + r) u
  diff : ∀ j r : ℤ, j ≤ p → 0 ≤ r → r < j → ndu j r = U (s + r + 1) - U (s + 1 - j + r)

/-- the coefficients of order `k` stored in a row -/
def RowOK (U : ℤ → K) (s : ℤ) (p : ℕ) (r : ℤ) (k : ℕ) (row : ℤ → K) : Prop :=
  ∀ j : ℤ, 0 ≤ j → (k : ℤ) - r ≤ j → j ≤ k → j ≤ p - r → row j = dcoef U p (s - p + r) k j

theorem dsum_grow {U : ℤ → K} {s : ℤ} {p : ℕ} {u : K} {r : ℤ} {k : ℕ} {m m' : ℕ} (hm : m ≤ m')
    (h : ∀ j : ℕ, m ≤ j → j < m' → (j : ℤ) < k - r ∨ (p : ℤ) - r < j) (hk : k ≤ p) :
    dsum U s p u r k m' = dsum U s p u r k m := by
  induction m', hm using Nat.le_induction with
  | base => rfl
  | succ m' hm ih =>
    unfold dsum at *
    rw [Finset.sum_range_succ, ih (fun j a b => h j a (by omega))]
    have : piece U s (p - k) (s - p + r + m') u = 0 := by
      rcases h m' hm (by omega) with h | h
      · exact piece_zero_of_lt _ _ _ _ _ (by push_cast [hk]; omega)
      · exact piece_zero_of_gt _ _ _ _ _ (by omega)
    rw [this, mul_zero, add_zero]

/-- one round of the loop over orders -/
theorem dersK_spec {ndu : ℤ → ℤ → K} {U : ℤ → K} {s : ℤ} {p : ℕ} {u : K} (hn : NduOK ndu U s p u)
    {r : ℤ} (hr0 : 0 ≤ r) (hrp : r ≤ p) (k : ℕ) (hk : k + 1 ≤ p) (st : DersSt K) (hs : st.s1 ≠ st.s2)
    (hrow : RowOK U s p r k (st.a st.s1)) :
    RowOK U s p r (k + 1) ((dersK ndu p r (k + 1 : ℕ) st).a st.s2) ∧
    (dersK ndu p r (k + 1 : ℕ) st).ders r (k + 1 : ℕ) = dsum U s p u r (k + 1) (k + 2) := by
  set I := s - p + r with hI
  -- denominators and lower degree values
  have hden : ∀ j : ℤ, 0 ≤ r - (k + 1 : ℕ) + j → r - (k + 1 : ℕ) + j ≤ p - (k + 1 : ℕ) →
      ndu (p - (k + 1 : ℕ) + 1) (r - (k + 1 : ℕ) + j) = U (I + p + j - k) - U (I + j) := by
    intro j a b
    rw [hn.diff _ _ (by push_cast; omega) a (by omega)]
    have e1 : s + (r - ((k + 1 : ℕ) : ℤ) + j) + 1 = I + p + j - k := by push_cast; omega
    have e2 : s + 1 - ((p : ℤ) - ((k + 1 : ℕ) : ℤ) + 1) + (r - ((k + 1 : ℕ) : ℤ) + j) = I + j := by
      push_cast; omega
    rw [e1, e2]
  have hval : ∀ j : ℤ, 0 ≤ r - (k + 1 : ℕ) + j → r - (k + 1 : ℕ) + j ≤ p - (k + 1 : ℕ) →
      ndu (r - (k + 1 : ℕ) + j) (p - (k + 1 : ℕ)) = piece U s (p - (k + 1)) (I + j) u := by
    intro j a b
    have e : (p : ℤ) - ((k + 1 : ℕ) : ℤ) = ((p - (k + 1) : ℕ) : ℤ) := by omega
    rw [e, hn.piece (p - (k + 1)) _ (by omega) a (by omega)]
    congr 1; omega
  -- first coefficient
  obtain ⟨f1, f2, f3⟩ : (∀ j, (dersFirst ndu p r (k + 1 : ℕ) st).1 st.s1 j = st.a st.s1 j) ∧
      ((k : ℤ) + 1 ≤ r → (dersFirst ndu p r (k + 1 : ℕ) st).1 st.s2 0 = dcoef U p I (k + 1) 0) ∧
      ((dersFirst ndu p r (k + 1 : ℕ) st).2 =
        if (k : ℤ) + 1 ≤ r then dcoef U p I (k + 1) 0 * piece U s (p - (k + 1)) I u else 0) := by
    unfold dersFirst
    dsimp only
    by_cases h : r ≥ ((k + 1 : ℕ) : ℤ)
    · have h' : (k : ℤ) + 1 ≤ r := by push_cast at h; exact h
      have hd := hden 0 (by omega) (by omega)
      have hv := hval 0 (by omega) (by omega)
      rw [add_zero] at hd hv
      have hc : st.a st.s1 0 / ndu (p - (k + 1 : ℕ) + 1) (r - (k + 1 : ℕ)) = dcoef U p I (k + 1) 0 := by
        rw [hd, hrow 0 (by omega) (by omega) (by omega) (by omega), dcoef,
          dcoef_out U p I k (0 - 1) (by omega), sub_zero]
      rw [if_pos h, if_pos h', upd2_same, hc, hv, add_zero]
      refine ⟨fun j => upd2_ne _ _ (Or.inl hs), fun _ => upd2_same _ _ _ _, rfl⟩
    · rw [if_neg h, if_neg (by push_cast at h; exact h)]
      exact ⟨fun _ => rfl, fun h' => absurd h' (by push_cast at h; exact h), rfl⟩
  -- middle coefficients
  obtain ⟨m1, m2, m3⟩ : (∀ j, (dersMid ndu p r (k + 1 : ℕ) st.s1 st.s2
        (dersFirst ndu p r (k + 1 : ℕ) st)).1 st.s1 j = st.a st.s1 j) ∧
      (∀ j, 0 ≤ j → (k : ℤ) + 1 - r ≤ j → j ≤ k → j ≤ p - r → (dersMid ndu p r (k + 1 : ℕ) st.s1 st.s2
        (dersFirst ndu p r (k + 1 : ℕ) st)).1 st.s2 j = dcoef U p I (k + 1) j) ∧
      (dersMid ndu p r (k + 1 : ℕ) st.s1 st.s2 (dersFirst ndu p r (k + 1 : ℕ) st)).2 =
        dsum U s p u r (k + 1) (k + 1) := by
    unfold dersMid
    dsimp only
    generalize hj1 : (if r - ((k + 1 : ℕ) : ℤ) > -1 then 1 else -(r - ((k + 1 : ℕ) : ℤ))) = j1
    generalize hj2 : (if r - 1 ≤ (p : ℤ) - ((k + 1 : ℕ) : ℤ) then ((k + 1 : ℕ) : ℤ) - 1 else p - r) = j2
    have a1 : 1 ≤ j1 := by rw [← hj1]; split_ifs <;> omega
    have a2 : (k : ℤ) + 1 - r ≤ j1 := by rw [← hj1]; push_cast; split_ifs <;> omega
    have a3 : 1 < j1 → j1 = (k : ℤ) + 1 - r := by rw [← hj1]; push_cast; split_ifs <;> omega
    have b1 : j2 ≤ k := by rw [← hj2]; push_cast; split_ifs <;> omega
    have b2 : j2 ≤ p - r := by rw [← hj2]; push_cast; split_ifs <;> omega
    have b3 : j2 = k ∨ j2 = p - r := by rw [← hj2]; push_cast; split_ifs <;> omega
    have ab : j1 ≤ j2 + 1 := by rw [← hj2, ← hj1]; push_cast; split_ifs <;> omega
    have := forUp_inv (lo := j1) (hi := j2) (s := dersFirst ndu p r (k + 1 : ℕ) st)
      (f := fun j (ad : (ℤ → ℤ → K) × K) =>
        let a := upd2 ad.1 st.s2 j ((ad.1 st.s1 j - ad.1 st.s1 (j - 1)) /
          ndu (p - (k + 1 : ℕ) + 1) (r - (k + 1 : ℕ) + j))
        (a, ad.2 + a st.s2 j * ndu (r - (k + 1 : ℕ) + j) (p - (k + 1 : ℕ))))
      (I := fun i (ad : (ℤ → ℤ → K) × K) => (∀ j, ad.1 st.s1 j = st.a st.s1 j) ∧
        (∀ j, 0 ≤ j → (k : ℤ) + 1 - r ≤ j → j < i → ad.1 st.s2 j = dcoef U p I (k + 1) j) ∧
        ad.2 = dsum U s p u r (k + 1) i.toNat) ab
      (by
        refine ⟨f1, ?_, ?_⟩
        · intro j x1 x2 x3
          have hj0 : j = 0 := by
            by_contra hne
            have := a3 (by omega)
            omega
          subst hj0
          exact f2 (by omega)
        · rw [f3]
          by_cases h : (k : ℤ) + 1 ≤ r
          · rw [if_pos h]
            have : j1 = 1 := by
              by_contra hne
              have := a3 (by omega)
              omega
            rw [this]
            simp [dsum, hI]
          · rw [if_neg h]
            rw [dsum_grow (m := 0) (by omega) (fun j x1 x2 => Or.inl ?_) hk]
            · simp [dsum]
            · push_cast
              have := a3; omega)
      (by
        rintro i ⟨A, d⟩ x1 x2 ⟨y1, y2, y3⟩
        simp only at y1 y2 y3
        have hc : (A st.s1 i - A st.s1 (i - 1)) / ndu (p - (k + 1 : ℕ) + 1) (r - (k + 1 : ℕ) + i) =
            dcoef U p I (k + 1) i := by
          rw [y1, y1, hrow i (by omega) (by omega) (by omega) (by omega),
            hrow (i - 1) (by omega) (by omega) (by omega) (by omega),
            hden i (by push_cast; omega) (by push_cast; omega), dcoef]
        dsimp only
        rw [hc]
        refine ⟨?_, ?_, ?_⟩
        · intro j; rw [upd2_ne _ _ (Or.inl hs)]; exact y1 j
        · intro j z1 z2 z3
          by_cases hji : j = i
          · subst hji; rw [upd2_same]
          · rw [upd2_ne _ _ (Or.inr hji)]; exact y2 j z1 z2 (by omega)
        · rw [upd2_same, y3, hval i (by push_cast; omega) (by push_cast; omega)]
          have e : (i + 1).toNat = i.toNat + 1 := by omega
          have e' : ((i.toNat : ℕ) : ℤ) = i := by omega
          rw [e, dsum, dsum, Finset.sum_range_succ, e'])
    obtain ⟨g1, g2, g3⟩ := this
    refine ⟨g1, fun j z1 z2 z3 z4 => g2 j z1 z2 (by omega), ?_⟩
    rw [show _ = dsum U s p u r (k + 1) (j2 + 1).toNat from g3]
    refine (dsum_grow (by omega) (fun j z1 z2 => Or.inr ?_) hk).symm
    omega
  -- last coefficient
  have hl : dersK ndu p r (k + 1 : ℕ) st =
      { a := (dersLast ndu p r (k + 1 : ℕ) st.s1 st.s2 (dersMid ndu p r (k + 1 : ℕ) st.s1 st.s2
          (dersFirst ndu p r (k + 1 : ℕ) st))).1, s1 := st.s2, s2 := st.s1,
        ders := upd2 st.ders r (k + 1 : ℕ) (dersLast ndu p r (k + 1 : ℕ) st.s1 st.s2
          (dersMid ndu p r (k + 1 : ℕ) st.s1 st.s2 (dersFirst ndu p r (k + 1 : ℕ) st))).2 } := rfl
  rw [hl]
  generalize dersMid ndu p r (k + 1 : ℕ) st.s1 st.s2 (dersFirst ndu p r (k + 1 : ℕ) st) = ad at m1 m2 m3
  dsimp only
  rw [upd2_same]
  unfold dersLast
  dsimp only
  by_cases h : r ≤ (p : ℤ) - ((k + 1 : ℕ) : ℤ)
  · rw [if_pos h]
    have e0 : r - ((k + 1 : ℕ) : ℤ) + ((k + 1 : ℕ) : ℤ) = r := by ring
    have hd := hden (k + 1 : ℕ) (by omega) (by omega)
    have hv := hval (k + 1 : ℕ) (by omega) (by omega)
    rw [e0] at hd hv
    have hc : -ad.1 st.s1 (((k + 1 : ℕ) : ℤ) - 1) / ndu (p - (k + 1 : ℕ) + 1) r =
        dcoef U p I (k + 1) (k + 1 : ℕ) := by
      rw [m1, hd, hrow _ (by omega) (by push_cast; omega) (by omega) (by omega), dcoef,
        dcoef_out U p I k ((k + 1 : ℕ) : ℤ) (by omega), zero_sub]
    rw [hc]
    refine ⟨?_, ?_⟩
    · intro j z1 z2 z3 z4
      dsimp only
      by_cases hj : j = ((k + 1 : ℕ) : ℤ)
      · subst hj; rw [upd2_same]
      · rw [upd2_ne _ _ (Or.inr hj)]
        exact m2 j z1 (by push_cast at z2; exact z2) (by push_cast at z3 hj; omega) z4
    · dsimp only
      rw [upd2_same, m3, hv, dsum, dsum, Finset.sum_range_succ _ (k + 1)]
  · rw [if_neg h]
    refine ⟨?_, ?_⟩
    · intro j z1 z2 z3 z4
      exact m2 j z1 (by push_cast at z2; exact z2) (by push_cast at h; omega) z4
    · rw [m3]
      refine (dsum_grow (by omega) (fun j z1 z2 => Or.inr ?_) hk).symm
      push_cast at h; omega

/-- above the degree the rounds do nothing and yield zero -/
theorem dersK_high {ndu : ℤ → ℤ → K} {p : ℕ} {r : ℤ} (hr0 : 0 ≤ r) (hrp : r ≤ p) (k : ℤ) (hk : p < k)
    (st : DersSt K) : (dersK ndu p r k st).ders r k = 0 := by
  have h1 : dersFirst ndu p r k st = (st.a, 0) := by
    unfold dersFirst; dsimp only; rw [if_neg (by omega)]
  have h2 : dersMid ndu p r k st.s1 st.s2 (st.a, 0) = (st.a, 0) := by
    unfold dersMid
    dsimp only
    rw [forUp_empty]
    split_ifs <;> omega
  have h3 : dersLast ndu p r k st.s1 st.s2 (st.a, 0) = (st.a, 0) := by
    unfold dersLast; dsimp only; rw [if_neg (by omega)]
  unfold dersK
  dsimp only
  rw [h1, h2, h3, upd2_same]

/-- the value stored for function `r` and order `k ≥ 1` -/
def dval (U : ℤ → K) (s : ℤ) (p : ℕ) (u : K) (r : ℤ) (k : ℕ) : K :=
  if k ≤ p then dsum U s p u r k (k + 1) else 0

theorem dersK_other {ndu : ℤ → ℤ → K} {p : ℕ} {r : ℤ} (k : ℤ) (st : DersSt K) {x y : ℤ}
    (h : x ≠ r ∨ y ≠ k) : (dersK ndu p r k st).ders x y = st.ders x y := by
  unfold dersK
  dsimp only
  rw [upd2_ne _ _ h]

theorem dersR_spec {ndu : ℤ → ℤ → K} {U : ℤ → K} {s : ℤ} {p : ℕ} {u : K} (hn : NduOK ndu U s p u)
    {r : ℤ} (hr0 : 0 ≤ r) (hrp : r ≤ p) (n : ℕ) (st : DersSt K) :
    (∀ k : ℕ, 1 ≤ k → k ≤ n → (dersR ndu p n r st).ders r k = dval U s p u r k) ∧
    (∀ x y : ℤ, (x ≠ r ∨ y < 1 ∨ n < y) → (dersR ndu p n r st).ders x y = st.ders x y) := by
  have := forUp_inv (lo := 1) (hi := (n : ℤ)) (f := dersK ndu p r)
    (s := { a := upd2 st.a 0 0 1, s1 := 0, s2 := 1, ders := st.ders })
    (I := fun i (t : DersSt K) => t.s1 ≠ t.s2 ∧
      (i - 1 ≤ p → RowOK U s p r (i - 1).toNat (t.a t.s1)) ∧
      (∀ k : ℕ, 1 ≤ k → (k : ℤ) < i → t.ders r k = dval U s p u r k) ∧
      (∀ x y : ℤ, (x ≠ r ∨ y < 1 ∨ i ≤ y) → t.ders x y = st.ders x y)) (by omega)
    (by
      refine ⟨by simp, ?_, fun k a b => by omega, fun x y _ => rfl⟩
      intro _ j x1 x2 x3 x4
      have hj : j = 0 := by simp at x3; omega
      subst hj
      simp [upd2, dcoef])
    (by
      rintro i t h1 h2 ⟨a, b, c, d⟩
      obtain ⟨k, hk⟩ : ∃ k : ℕ, i = ((k + 1 : ℕ) : ℤ) := ⟨(i - 1).toNat, by omega⟩
      subst hk
      have e1 : ((((k + 1 : ℕ) : ℤ)) - 1).toNat = k := by omega
      have e2 : ((((k + 1 : ℕ) : ℤ)) + 1 - 1).toNat = k + 1 := by omega
      rw [e1] at b
      rw [e2]
      have hsw : (dersK ndu p r ((k + 1 : ℕ) : ℤ) t).s1 = t.s2 := rfl
      have hsw2 : (dersK ndu p r ((k + 1 : ℕ) : ℤ) t).s2 = t.s1 := rfl
      have hnew : (dersK ndu p r ((k + 1 : ℕ) : ℤ) t).ders r ((k + 1 : ℕ) : ℤ) =
          dval U s p u r (k + 1) := by
        unfold dval
        by_cases hp : k + 1 ≤ p
        · rw [if_pos hp]
          exact (dersK_spec hn hr0 hrp k hp t a (b (by omega))).2
        · rw [if_neg hp]
          exact dersK_high hr0 hrp _ (by omega) t
      refine ⟨by rw [hsw, hsw2]; exact a.symm, ?_, ?_, ?_⟩
      · intro hp
        rw [hsw]
        exact (dersK_spec hn hr0 hrp k (by omega) t a (b (by omega))).1
      · intro k' x1 x2
        by_cases hkk : k' = k + 1
        · subst hkk; exact hnew
        · rw [dersK_other _ _ (Or.inr (by omega))]
          exact c k' x1 (by push_cast at x2 ⊢; omega)
      · intro x y hxy
        rw [dersK_other _ _ (by omega)]
        exact d x y (by omega))
  obtain ⟨a, b, c, d⟩ := this
  exact ⟨fun k x1 x2 => c k x1 (by omega), fun x y h => d x y (by omega)⟩

theorem dersScale_spec (p n : ℕ) (ders : ℤ → ℤ → K) (r : ℤ) (hr0 : 0 ≤ r) (hrp : r ≤ p) (k : ℕ)
    (hk : k ≤ n) :
    (dersScale p n ders).2 r k = ders r k * (p.descFactorial k : K) := by
  have := forUp_inv (lo := 1) (hi := (n : ℤ)) (s := ((p : ℤ), ders))
    (f := fun k (s : ℤ × (ℤ → ℤ → K)) =>
      (s.1 * (p - k), fun x y => if 0 ≤ x ∧ x ≤ p ∧ y = k then s.2 x y * (s.1 : K) else s.2 x y))
    (I := fun i (t : ℤ × (ℤ → ℤ → K)) => t.1 = (p.descFactorial i.toNat : ℤ) ∧
      (∀ k : ℕ, (k : ℤ) < i → t.2 r k = ders r k * (p.descFactorial k : K)) ∧
      (∀ y : ℤ, i ≤ y → t.2 r y = ders r y)) (by omega)
    (by
      refine ⟨by simp, ?_, fun y _ => rfl⟩
      intro k hk
      have : k = 0 := by omega
      subst this; simp)
    (by
      rintro i ⟨f, D⟩ h1 h2 ⟨a, b, c⟩
      dsimp only at a b c ⊢
      obtain ⟨k, rfl⟩ : ∃ k : ℕ, i = (k : ℤ) := ⟨i.toNat, by omega⟩
      rw [Int.toNat_natCast] at a
      refine ⟨?_, ?_, ?_⟩
      · have e : ((k : ℤ) + 1).toNat = k + 1 := by omega
        rw [e, Nat.descFactorial_succ, a]
        by_cases hkp : k ≤ p
        · push_cast [hkp]; ring
        · rw [Nat.descFactorial_eq_zero_iff_lt.mpr (by omega)]; simp
      · intro k' hk'
        by_cases e : k' = k
        · subst e
          rw [if_pos ⟨hr0, hrp, rfl⟩, c _ le_rfl, a]; push_cast; rfl
        · rw [if_neg (by omega)]; exact b k' (by omega)
      · intro y hy
        rw [if_neg (by omega)]; exact c y (by omega))
  exact this.2.1 k (by omega)

/-- `DersBasisFuns` computes the values of the derivatives of the pieces -/
theorem dersBasisFuns_spec (jk : ℤ → K) (j2 ja jd : ℤ → ℤ → K) (s : ℤ) (u : K) (p n : ℕ) (U : ℤ → K)
    (hw : Win U s p) (r : ℤ) (hr0 : 0 ≤ r) (hrp : r ≤ p) (k : ℕ) (hk : k ≤ n) :
    dersBasisFuns jk j2 ja jd s u p n U r k =
      (derivative^[k] (pieceP U s p (s - p + r))).eval u := by
  have hn : NduOK (nduTable jk j2 s u p U) U s p u :=
    ⟨(nduTable_spec jk j2 s u p U).1, (nduTable_spec jk j2 s u p U).2⟩
  unfold dersBasisFuns
  rw [dersScale_spec p n _ r hr0 hrp k hk]
  generalize hndu : nduTable jk j2 s u p U = ndu at hn
  have := forUp_inv (lo := 0) (hi := (p : ℤ)) (f := dersR ndu p n)
    (s := { a := ja, s1 := 0, s2 := 1,
            ders := fun x y => if 0 ≤ x ∧ x ≤ (p : ℤ) ∧ y = 0 then ndu x p else jd x y })
    (I := fun i (t : DersSt K) =>
      (∀ r : ℤ, 0 ≤ r → r < i → ∀ k : ℕ, 1 ≤ k → k ≤ n → t.ders r k = dval U s p u r k) ∧
      (∀ x : ℤ, 0 ≤ x → x ≤ (p : ℤ) → t.ders x 0 = ndu x p)) (by omega)
    (by
      refine ⟨fun r a b => by omega, fun x a b => ?_⟩
      dsimp only
      rw [if_pos ⟨a, b, rfl⟩])
    (by
      rintro i t h1 h2 ⟨a, b⟩
      obtain ⟨c, d⟩ := dersR_spec hn h1 h2 n t
      refine ⟨?_, ?_⟩
      · intro r x1 x2 k y1 y2
        by_cases hri : r = i
        · subst hri; exact c k y1 y2
        · rw [d r k (Or.inl hri)]; exact a r x1 (by omega) k y1 y2
      · intro x x1 x2
        rw [d x 0 (by omega)]; exact b x x1 x2)
  obtain ⟨a, b⟩ := this
  rcases Nat.eq_zero_or_pos k with rfl | hk0
  · rw [show ((0 : ℕ) : ℤ) = 0 from rfl, b r hr0 hrp, hn.piece p r le_rfl hr0 hrp]
    simp [eval_pieceP]
  · rw [a r hr0 (by omega) k hk0 hk]
    unfold dval
    by_cases hkp : k ≤ p
    · rw [if_pos hkp, iterate_derivative_pieceP U s p hw _ k hkp, eval_mul, eval_C, eval_finsetSum, dsum,
        mul_comm]
      congr 1
      refine Finset.sum_congr rfl fun j _ => ?_
      rw [eval_mul, eval_C, eval_pieceP]
    · rw [if_neg hkp, iterate_derivative_pieceP_zero _ _ _ _ _ (by omega)]; simp

end Igakit
