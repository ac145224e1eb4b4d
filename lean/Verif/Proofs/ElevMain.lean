import Verif.Proofs.ElevBrk

/-!
# The main loop of degree elevation
-/

set_option linter.unusedSectionVars false

namespace Igakit
open Spec Finset

variable {K : Type*} [Field K] [LinearOrder K] [IsStrictOrderedRing K]
variable {E : Type*} [AddCommGroup E] [Module K E]

theorem writeQ {α : Type*} (e : ℤ → α) (Q : ℤ → α) (c lo hi : ℤ) (h : lo ≤ hi + 1) :
    (forUp lo hi (fun j (Qc : (ℤ → α) × ℤ) => (upd Qc.1 Qc.2 (e j), Qc.2 + 1)) (Q, c)).2 = c + (hi + 1 - lo) ∧
    ∀ i, (forUp lo hi (fun j (Qc : (ℤ → α) × ℤ) => (upd Qc.1 Qc.2 (e j), Qc.2 + 1)) (Q, c)).1 i =
      if c ≤ i ∧ i < c + (hi + 1 - lo) then e (lo + (i - c)) else Q i := by
  have := forUp_inv (f := fun j (Qc : (ℤ → α) × ℤ) => (upd Qc.1 Qc.2 (e j), Qc.2 + 1)) (lo := lo) (hi := hi)
    (s := (Q, c)) (I := fun j Qc => Qc.2 = c + (j - lo) ∧
      ∀ i, Qc.1 i = if c ≤ i ∧ i < c + (j - lo) then e (lo + (i - c)) else Q i) h
    (by
      refine ⟨by dsimp only; ring, ?_⟩
      intro i; rw [if_neg (by omega)])
    (by
      rintro j ⟨Q', c'⟩ b1 b2 ⟨h1, h2⟩
      dsimp only at h1 h2 ⊢
      refine ⟨by omega, ?_⟩
      intro i
      by_cases hi : i = c'
      · rw [upd_eq _ _ hi, if_pos (by omega)]; congr 1; omega
      · rw [upd_ne _ _ hi, h2]
        by_cases hc : c ≤ i ∧ i < c + (j - lo)
        · rw [if_pos hc, if_pos (by omega)]
        · rw [if_neg hc, if_neg (by omega)])
  exact this

/-- the control points written so far belong to the forms of the spans done -/
def Post (p : ℕ) (U : ℤ → K) (S : ℕ) (a : ℕ → ℤ) (t : ℕ) (f : ℕ → Multiset K → E) (s : ℕ) (T : ℤ → K)
    (Q : ℤ → E) (cind : ℤ) : Prop :=
  ∀ i, 0 ≤ i → i < cind → ∀ s0, s0 ≤ s → kz a t (s0 + 1) - 1 - (p + t) ≤ i → i ≤ kz a t (s0 + 1) - 1 →
    Q i = elv (p + t) p (f s0) (kn T i (p + t))

/-- condition under which the knot removal uses the right knots -/
def ElevOK (p t S : ℕ) (a : ℕ → ℤ) : Prop :=
  ∀ s, s + 2 < S → (a (s + 2) - a (s + 1) ≤ a (s + 1) - a s + 1 ∨
    (p - (a (s + 2) - a (s + 1)) - 1 - (p - (a (s + 2) - a (s + 1)) + 2) / 2 < a (s + 1) - a s + t))

namespace Brk
variable {n : ℤ} {p : ℕ} {U : ℤ → K} {S : ℕ} {a : ℕ → ℤ} {P : ℤ → E} {f : ℕ → Multiset K → E} {t : ℕ}

/-- appending the points of span `s` -/
theorem post_write (H : Brk n p U S a) (hs : SortedOn U 0 (n + p + 1)) (Hf : Forms n p U P S a f) {s : ℕ}
    (h : s < S) {Q e : ℤ → E} {c lo hi : ℤ} (hlo : 0 ≤ lo) (hlh : lo ≤ hi + 1) (hhi : hi ≤ p + t)
    (hc : c - lo = kz a t (s + 1) - 1 - (p + t))
    (hQ : Post p U S a t f s (elvT U a S t (s + 1)) Q c)
    (he : ∀ k : ℤ, lo ≤ k → k ≤ (p : ℤ) + t → e k = elv (p + t) p (f s)
      (kn (elvT U a S t (s + 1)) (kz a t (s + 1) - 1 - (p + t) + k) (p + t))) :
    Post p U S a t f s (elvT U a S t (s + 1))
      (forUp lo hi (fun j (Qc : (ℤ → E) × ℤ) => (upd Qc.1 Qc.2 (e j), Qc.2 + 1)) (Q, c)).1
      (c + (hi + 1 - lo)) := by
  intro i i1 i2 s0 h0 w1 w2
  rw [(writeQ e Q c lo hi hlh).2 i]
  by_cases hi' : i < c
  · rw [if_neg (by omega)]
    exact hQ i i1 hi' s0 h0 w1 w2
  · rw [if_pos (by omega), he _ (by omega) (by omega),
      show kz a t (s + 1) - 1 - ((p : ℤ) + t) + (lo + (i - c)) = i by omega]
    symm
    apply H.agreeT hs Hf t h0 h (by omega) w2
    intro s' b1 b2 j j1 j2
    exact H.elvT_blk t (by omega) (by omega) j1 j2

/-- multiplicity and position of the block of knot `s+1` -/
theorem kz_succ (t s : ℕ) (a : ℕ → ℤ) : kz a t (s + 2) = kz a t (s + 1) + (a (s + 1) - a s) + t := by
  simp only [kz]; push_cast; ring

/-- removal and appending in round `s + 1` -/
theorem post_step (H : Brk n p U S a) (hs : SortedOn U 0 (n + p + 1)) (Hf : Forms n p U P S a f)
    (hok : ElevOK p t S a) {s : ℕ} (h : s + 1 < S) {Q e : ℤ → E} {Uh : ℤ → K} {oldr r lbz rbz : ℤ}
    (ht : 1 ≤ t)
    (ho : oldr = p - (a (s + 1) - a s)) (hr : r = p - (a (s + 2) - a (s + 1)))
    (hl : lbz = if oldr > 0 then (oldr + 2) / 2 else 1) (hrb : rbz = if r > 0 then p + t - (r + 1) / 2 else p + t)
    (hUh : ∀ i, 0 ≤ i → i < kz a t (s + 1) → Uh i = elvK U a S t i)
    (hQ : Post p U S a t f s (elvT U a S t (s + 1)) Q (kz a t (s + 1) - (oldr + 1) / 2))
    (he : ∀ k : ℤ, lbz ≤ k → k ≤ (p : ℤ) + t → e k = elv (p + t) p (f (s + 1))
      (Multiset.replicate (p + t - k).toNat (U (a (s + 1))) +
        Multiset.replicate k.toNat (U (a (s + 2))))) :
    let Qe := elevRem Uh (U (a (s + 1))) (U (a (s + 2))) ((p : ℤ) + t) oldr (kz a t (s + 1))
      (kz a t (s + 1) - (oldr + 1) / 2) lbz (Q, e)
    let Qc := forUp lbz rbz (fun j (Qc : (ℤ → E) × ℤ) => (upd Qc.1 Qc.2 (Qe.2 j), Qc.2 + 1))
      (Qe.1, kz a t (s + 1) - (oldr + 1) / 2)
    Qc.2 = (if r > 0 then kz a t (s + 2) - (r + 1) / 2 else kz a t (s + 2)) ∧
      Post p U S a t f (s + 1) (elvT U a S t (s + 2)) Qc.1 Qc.2 := by
  intro Qe Qc
  have hmul := H.mult s h
  have hmo := H.mono s (by omega)
  have hmo1 : a (s + 1) < a (s + 2) := H.mono (s + 1) (by omega)
  have hblk : ∀ i, kz a t (s + 1) ≤ i → i < kz a t (s + 2) → elvT U a S t (s + 2) i = U (a (s + 1)) :=
    fun i b1 b2 => H.elvT_blk t (by omega) (by omega) b1 b2
  have hkz := kz_succ t s a
  have hkp : (p : ℤ) + t + 1 ≤ kz a t (s + 1) := by
    rw [← H.kz_zero_one t]; exact H.kz_mono t (by omega) (by omega)
  have hor : 0 ≤ oldr := by omega
  have horp : oldr < p := by omega
  have hrp : r < p := by omega
  have hl' : lbz = (oldr + 2) / 2 := by rw [hl]; split_ifs <;> omega
  have hlr : lbz ≤ rbz + 1 := by rw [hrb]; split_ifs <;> omega
  have hrb2 : rbz ≤ p + t := by rw [hrb]; split_ifs <;> omega
  -- effect of the removal
  have hrem : Post p U S a t f (s + 1) (elvT U a S t (s + 2)) Qe.1 (kz a t (s + 1) - (oldr + 1) / 2) ∧
      ∀ k : ℤ, lbz ≤ k → k ≤ (p : ℤ) + t → Qe.2 k = elv (p + t) p (f (s + 1))
      (kn (elvT U a S t (s + 2)) (kz a t (s + 2) - 1 - (p + t) + k) (p + t)) := by
    -- windows after the round
    have hR : ∀ k : ℤ, lbz ≤ k → k ≤ (p : ℤ) + t →
        eremR (elv (p + t) p (f (s + 1))) Uh (U (a (s + 1))) (U (a (s + 2))) ((p + t : ℕ) : ℤ) (kz a t (s + 1))
          (max 0 (oldr - k)) k = elv (p + t) p (f (s + 1))
          (kn (elvT U a S t (s + 2)) (kz a t (s + 2) - 1 - (p + t) + k) (p + t)) := by
      intro k k1 k2
      unfold eremR
      congr 1
      rcases le_total oldr k with hk | hk
      · rw [show max 0 (oldr - k) = 0 by omega]
        symm
        have := kn_split3 (U := elvT U a S t (s + 2)) (W := Uh) (i := kz a t (s + 2) - 1 - ((p : ℤ) + t) + k)
          (x := 0) (y := (((p + t : ℕ) : ℤ) - k - 0).toNat) (z := k.toNat) (c := p + t) (u := U (a (s + 1)))
          (v := U (a (s + 2))) (by push_cast; omega) (by intro l a b; push_cast at b; omega)
          (by intro l l1 l2; exact hblk _ (by omega) (by push_cast at l2; omega))
          (by intro l l1 l2; exact elvT_ge t (s + 2) (by push_cast at l1; omega))
        rw [this]; rfl
      · rw [show max 0 (oldr - k) = oldr - k by omega]
        symm
        have e1 : kz a t (s + 2) - 1 - ((p : ℤ) + t) + k = kz a t (s + 1) - 1 - (oldr - k) := by omega
        rw [e1]
        exact kn_split3 (U := elvT U a S t (s + 2)) (W := Uh) (by push_cast; omega)
          (by
            intro l l1 l2
            rw [hUh _ (by omega) (by omega), elvT_lt t _ (by omega)])
          (by intro l l1 l2; exact hblk _ (by omega) (by push_cast at l2; omega))
          (by intro l l1 l2; exact elvT_ge t (s + 2) (by push_cast at l1; omega))
    have hR0 : ∀ k : ℤ, lbz ≤ k → k ≤ (p : ℤ) + t →
        eremR (elv (p + t) p (f (s + 1))) Uh (U (a (s + 1))) (U (a (s + 2))) ((p + t : ℕ) : ℤ) (kz a t (s + 1))
          0 k = elv (p + t) p (f (s + 1)) (Multiset.replicate (p + t - k).toNat (U (a (s + 1))) +
        Multiset.replicate k.toNat (U (a (s + 2)))) := by
      intro k k1 k2
      unfold eremR
      rw [Int.toNat_zero, kn_zero, zero_add]
      push_cast; rw [sub_zero]
    -- a point of an old window that does not reach the new block
    have hkeep : ∀ i, i + (p + t) < kz a t (s + 2) →
        kn (elvT U a S t (s + 2)) i (p + t) = kn (elvT U a S t (s + 1)) i (p + t) := by
      intro i hi
      apply kn_congr
      intro l l1 l2
      push_cast at l2
      rcases lt_or_ge (i + l) (kz a t (s + 1)) with hc | hc
      · rw [elvT_lt t _ (by omega), elvT_lt t _ (by omega)]
      · rw [elvT_ge t _ hc, hblk _ hc (by omega)]
    -- from the previous span to any span
    have hto : ∀ i s0, s0 ≤ s + 1 → kz a t (s + 1) - 1 - (p + t) ≤ i → i ≤ kz a t (s + 1) - 1 →
        kz a t (s0 + 1) - 1 - (p + t) ≤ i → i ≤ kz a t (s0 + 1) - 1 →
        elv (p + t) p (f s) (kn (elvT U a S t (s + 2)) i (p + t)) =
          elv (p + t) p (f s0) (kn (elvT U a S t (s + 2)) i (p + t)) := by
      intro i s0 h0 a1 a2 b1 b2
      rcases Nat.lt_or_ge s s0 with hc | hc
      · obtain rfl : s0 = s + 1 := by omega
        exact H.agreeT hs Hf t (by omega) h b1 a2 (fun s' c1 c2 j j1 j2 =>
          H.elvT_blk t (by omega) (by omega) j1 j2)
      · exact (H.agreeT hs Hf t hc (by omega) a1 b2 (fun s' c1 c2 j j1 j2 =>
          H.elvT_blk t (by omega) (by omega) j1 j2)).symm
    by_cases h2 : oldr > 1
    · have RH : RemHyp (elv (p + t) p (f s)) (elv (p + t) p (f (s + 1))) Uh (U (a (s + 1))) (U (a (s + 2)))
          (p + t) oldr (kz a t (s + 1)) (kz a t (s + 1) - (oldr + 1) / 2) lbz := by
        refine ⟨elv_form (Hf.form s (by omega)), elv_form (Hf.form (s + 1) h), by omega, by push_cast; omega,
          by push_cast; omega, rfl, hl', ?_, ?_, ?_⟩
        · intro i i1 i2
          rw [hUh i (by omega) (by omega)]
          apply sub_ne_zero.mpr
          apply ne_of_gt
          have hcard : #{x ∈ range S | kz a t (x + 1) ≤ i} ≤ s := by
            calc _ ≤ #(range s) := by
                  apply card_le_card
                  intro x hx
                  rw [mem_filter, mem_range] at hx
                  rw [mem_range]
                  by_contra hc
                  have := H.kz_mono t (s := s + 1) (s' := x + 1) (by omega) (by omega)
                  omega
              _ = s := card_range s
          unfold elvK
          exact H.ult (by omega) (by omega)
        · exact sub_ne_zero.mpr (ne_of_gt (H.lt (s + 1) h))
        · intro c c0 c1 c2
          push_cast at c2
          have c3 : kz a t (s + 1) - 1 - c ≥ 0 := by omega
          rw [hUh _ c3 (by omega), hUh _ (by omega) (by omega)]
          have : kz a t s ≤ kz a t (s + 1) - 1 - c := by
            cases s with
            | zero =>
              have : kz a t 0 = 0 := rfl
              omega
            | succ s =>
              have hk2 := kz_succ t s a
              have hk3 := hok s (by omega)
              rw [show s + 2 = s + 1 + 1 from rfl] at hk2 hk3
              rcases hk3 with hk | hk <;> omega
          rw [H.elvK_eq t (by omega) this (fun _ => by omega),
            H.elvK_eq t (by omega) (by omega : kz a t s ≤ kz a t (s + 1) - 1) (fun _ => by omega)]
      have hrm := elevRem_eq RH (Q := Q) (e := e)
        (by
          intro δ d1 d2 d3
          rw [hQ _ (by omega) d3 s le_rfl (by omega) (by omega)]
          unfold eremL
          congr 1
          rw [kn_split3 (U := elvT U a S t (s + 1)) (W := Uh) (x := δ.toNat)
            (y := (((p + t : ℕ) : ℤ) - δ - 0).toNat) (z := 0) (u := U (a (s + 1))) (v := U (a (s + 2)))
            (by push_cast; omega)
            (by
              intro l l1 l2
              rw [hUh _ (by omega) (by omega), elvT_lt t _ (by omega)])
            (by intro l l1 l2; exact elvT_ge t (s + 1) (by omega))
            (by intro l l1 l2; push_cast at l2; omega)]
          rfl)
        (by
          intro k k1 k2
          push_cast at k2
          rw [he k k1 k2, hR0 k k1 k2])
      obtain ⟨r1, r2, r3⟩ := hrm
      push_cast at r1 r2 r3
      refine ⟨?_, ?_⟩
      · intro i i1 i2 s0 h0 w1 w2
        by_cases hlow : i < kz a t (s + 1) - oldr
        · show Qe.1 i = _
          rw [r3 i (Or.inl hlow)]
          rcases Nat.lt_or_ge s s0 with hc | hc
          · obtain rfl : s0 = s + 1 := by omega
            rw [show s + 1 + 1 = s + 2 from rfl] at w1
            rw [hQ i i1 i2 s le_rfl (by omega) (by omega), ← hkeep i (by omega)]
            exact hto i (s + 1) le_rfl (by omega) (by omega) w1 w2
          · rw [hQ i i1 i2 s0 hc w1 w2, hkeep i (by omega)]
        · show Qe.1 i = _
          obtain ⟨δ, rfl⟩ : ∃ δ, i = kz a t (s + 1) - 1 - δ := ⟨kz a t (s + 1) - 1 - i, by ring⟩
          rw [r1 δ (by omega) (by omega) i2]
          rw [← hto _ s0 h0 (by omega) (by omega) w1 w2]
          unfold eremL
          congr 1
          symm
          rw [show oldr - δ = oldr - δ from rfl]
          exact kn_split3 (U := elvT U a S t (s + 2)) (W := Uh) (by push_cast; omega)
            (by
              intro l l1 l2
              rw [hUh _ (by omega) (by omega), elvT_lt t _ (by omega)])
            (by intro l l1 l2; exact hblk _ (by omega) (by push_cast at l2; omega))
            (by intro l l1 l2; exact elvT_ge t (s + 2) (by push_cast at l1; omega))
      · intro k k1 k2
        rw [← hR k k1 k2]
        have := r2 k k1 k2
        push_cast
        exact this
    · have hno : Qe = (Q, e) := by
        show elevRem _ _ _ _ _ _ _ _ _ = _
        unfold elevRem
        rw [if_neg h2]
      rw [hno]
      refine ⟨?_, ?_⟩
      · intro i i1 i2 s0 h0 w1 w2
        dsimp only
        rcases Nat.lt_or_ge s s0 with hc | hc
        · obtain rfl : s0 = s + 1 := by omega
          rw [show s + 1 + 1 = s + 2 from rfl] at w1
          rw [hQ i i1 i2 s le_rfl (by omega) (by omega), ← hkeep i (by omega)]
          exact hto i (s + 1) le_rfl (by omega) (by omega) w1 w2
        · rw [hQ i i1 i2 s0 hc w1 w2, hkeep i (by omega)]
      · intro k k1 k2
        dsimp only
        rw [he k k1 k2, ← hR k k1 k2, show max 0 (oldr - k) = 0 by omega, hR0 k k1 k2]
  have hQc2 : Qc.2 = kz a t (s + 1) - (oldr + 1) / 2 + (rbz + 1 - lbz) :=
    (writeQ _ _ _ _ _ hlr).1
  refine ⟨?_, ?_⟩
  · rw [hQc2, hrb, hl']
    split_ifs <;> omega
  · rw [hQc2]
    exact H.post_write hs Hf h (by omega) hlr hrb2 (by rw [show s + 1 + 1 = s + 2 from rfl]; omega)
      hrem.1 hrem.2

end Brk

end Igakit
