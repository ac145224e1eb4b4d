import Verif.Proofs.ElevMain

/-!
# Rounds of the main loop of degree elevation
-/

set_option linter.unusedSectionVars false

namespace Igakit
open Spec Finset

variable {K : Type*} [Field K] [LinearOrder K] [IsStrictOrderedRing K]
variable {E : Type*} [AddCommGroup E] [Module K E]

/-- `p` minus the multiplicity of knot `s` (`-1` at the start) -/
def oldrOf (p : ℕ) (a : ℕ → ℤ) : ℕ → ℤ
  | 0 => -1
  | s + 1 => p - (a (s + 1) - a s)

/-- control points at the start of round `s` -/
def HeadQ (p : ℕ) (U : ℤ → K) (P : ℤ → E) (S : ℕ) (a : ℕ → ℤ) (t : ℕ) (f : ℕ → Multiset K → E) :
    ℕ → ElevSt K E → Prop
  | 0, st => st.cind = 1 ∧ st.Qw 0 = P 0 ∧ st.kind = kz a t 1
  | s + 1, st => st.cind = kz a t (s + 1) - (oldrOf p a (s + 1) + 1) / 2 ∧
      Post p U S a t f s (elvT U a S t (s + 1)) st.Qw st.cind ∧ st.kind = kz a t (s + 1)

/-- state at the start of round `s` -/
structure Head (p : ℕ) (U : ℤ → K) (P : ℤ → E) (S : ℕ) (a : ℕ → ℤ) (t : ℕ) (f : ℕ → Multiset K → E)
    (s : ℕ) (st : ElevSt K E) : Prop where
  ha : st.a = a s
  hb : st.b = a s + 1
  hr : st.r = oldrOf p a s
  hua : st.ua = U (a s)
  hUh : ∀ i, 0 ≤ i → i < st.kind → st.Uh i = elvK U a S t i
  hbp : ∀ k : ℤ, 0 ≤ k → k ≤ p →
    st.bpts k = f s (Multiset.replicate (p - k).toNat (U (a s)) + kn U (a s) k.toNat)
  hQ : HeadQ p U P S a t f s st

namespace Brk
variable {n : ℤ} {p : ℕ} {U : ℤ → K} {S : ℕ} {a : ℕ → ℤ} {P : ℤ → E} {f : ℕ → Multiset K → E} {t : ℕ}

/-- one round of the main loop -/
theorem step (H : Brk n p U S a) (hs : SortedOn U 0 (n + p + 1)) (Hf : Forms n p U P S a f)
    (hok : ElevOK p t S a) (ht : 1 ≤ t) {eps : K} (he : 0 ≤ eps)
    (hsep : ∀ s, s < S → eps < |U (a s) - U (a s + 1)|) (jb : ℤ → ℤ → K) {s : ℕ} (h : s < S)
    {st : ElevSt K E} (I : Head p U P S a t f s st) :
    (s + 1 < S → Head p U P S a t f (s + 1) (elevStep eps (elevBez jb p t) n p t U P st)) ∧
    (s + 1 = S → (elevStep eps (elevBez jb p t) n p t U P st).b = n + p + 1 ∧
      (∀ i, 0 ≤ i → i ≤ kz a t S + (p + t) →
        (elevStep eps (elevBez jb p t) n p t U P st).Uh i = elvK U a S t i) ∧
      Post p U S a t f s (elvT U a S t S) (elevStep eps (elevBez jb p t) n p t U P st).Qw (kz a t S)) := by
  have hmo := H.mono s h
  have haS : a (s + 1) ≤ n + p + 1 := by
    have := H.le (s := s + 1) (s' := S) (by omega) le_rfl
    rw [H.last] at this; omega
  have hap := H.a_ge h.le
  have han := H.a_le h
  have hrun : elevRun eps (n + p + 1) U (n + p + 1 - st.b).toNat st.b = a (s + 1) := by
    apply elevRun_spec he
    · rw [I.hb]; omega
    · exact haS
    · intro j j1 j2
      rw [I.hb] at j1
      exact H.blk s h j (by omega) j2
    · intro hlt
      apply hsep (s + 1)
      by_contra hc
      have : s + 1 = S := by omega
      rw [this, H.last] at hlt; omega
    · rw [I.hb]; omega
  have hmulp : s + 1 < S → a (s + 1) - a s ≤ p := H.mult s
  have hmulS : s + 1 = S → a (s + 1) - a s = p + 1 := by
    intro hS
    rw [H.prev s hS, hS, H.last]; ring
  obtain ⟨st', hst'⟩ : ∃ x, x = elevStep eps (elevBez jb p t) n p t U P st := ⟨_, rfl⟩
  rw [← hst']
  delta elevStep at hst'
  extract_lets m ph b mul oldr r ub lbz rbz alfs bn ebpts Qe Uk Qc at hst'
  have hb : b = a (s + 1) := hrun
  clear_value b
  subst hb
  have hmul : mul = a (s + 1) - a s := by show a (s + 1) - st.b + 1 = _; rw [I.hb]; ring
  have hor : oldr = oldrOf p a s := I.hr
  have hr : r = p - (a (s + 1) - a s) := by show (p : ℤ) - mul = _; rw [hmul]
  have hub : ub = U (a (s + 1)) := rfl
  have hlbz : lbz = if oldr > 0 then (oldr + 2) / 2 else 1 := rfl
  have hrbz : rbz = if r > 0 then (p : ℤ) + t - (r + 1) / 2 else p + t := rfl
  -- Bezier points
  have hbn : (∀ k : ℤ, 0 ≤ k → k ≤ p → bn.1 k =
      f s (Multiset.replicate (p - k).toNat (U (a s)) + Multiset.replicate k.toNat (U (a (s + 1))))) ∧
      (∀ k : ℤ, 0 ≤ k → k < r → bn.2 k =
        f s (Multiset.replicate (p - k).toNat (U (a (s + 1))) + kn U (a (s + 1)) k.toNat)) := by
    by_cases h0 : r > 0
    · have e1 : bn = elevCut (p : ℤ) mul (p - mul) (elevAlfs U p mul st.a st.ua ub st.alfs)
          (st.bpts, st.nextbpts) := by
        show (if r > 0 then elevCut (p : ℤ) mul r alfs (st.bpts, st.nextbpts) else _) = _
        rw [if_pos h0]
        have : alfs = elevAlfs U p mul st.a st.ua ub st.alfs := by
          show (if r > 0 then _ else _) = _
          rw [if_pos h0]
        rw [this]
      have := elevCut_eq (Hf.form s h) (U := U) (a := a s) (mul := mul) (ua := U (a s)) (ub := U (a (s + 1)))
        (by omega) (by omega) (alfs := elevAlfs U p mul st.a st.ua ub st.alfs) (bp := st.bpts)
        (nb := st.nextbpts)
        (by
          intro l l1 l2
          rw [elevAlfs_eq _ _ _ _ _ _ _ _ l1 l2, I.ha, I.hua])
        (by
          intro j j1 j2
          exact H.blk s h j j1 (by omega))
        (by
          intro j j1 j2
          apply sub_ne_zero.mpr
          apply ne_of_gt
          exact lt_of_lt_of_le (H.lt s h) (hs _ _ (by omega) (by omega) (by omega)))
        I.hbp
      rw [e1]
      refine ⟨this.1, ?_⟩
      intro k k1 k2
      rw [this.2 k k1 (by omega), hmul, add_sub_cancel]
    · have e1 : bn = (st.bpts, st.nextbpts) := by
        show (if r > 0 then elevCut (p : ℤ) mul r alfs (st.bpts, st.nextbpts) else _) = _
        rw [if_neg h0]
      rw [e1]
      refine ⟨?_, ?_⟩
      · intro k k1 k2
        dsimp only
        rw [I.hbp k k1 k2]
        congr 2
        exact kn_const (fun l l1 l2 => H.blk s h _ (by omega) (by omega))
      · intro k k1 k2; omega
  have hl0 : 0 ≤ lbz := by rw [hlbz]; split_ifs <;> omega
  have heb : ∀ k : ℤ, lbz ≤ k → k ≤ (p : ℤ) + t → ebpts k = elv (p + t) p (f s)
      (Multiset.replicate (p + t - k).toNat (U (a s)) + Multiset.replicate k.toNat (U (a (s + 1)))) :=
    fun k k1 k2 => elevPts_eq jb ht hbn.1 hl0 k1 k2
  -- control points
  have hQ : Qc.2 = (if r > 0 then kz a t (s + 1) - (r + 1) / 2 else kz a t (s + 1)) ∧
      Post p U S a t f s (elvT U a S t (s + 1)) Qc.1 Qc.2 := by
    cases s with
    | zero =>
      obtain ⟨c1, c2, c3⟩ := I.hQ
      have hk1 := H.kz_zero_one t
      have ho1 : oldr = -1 := hor
      have hl1 : lbz = 1 := by rw [hlbz, if_neg (by omega)]
      have hlr : lbz ≤ rbz + 1 := by rw [hrbz, hl1]; split_ifs <;> omega
      have e1 : Qe = (st.Qw, ebpts) := by
        show elevRem _ _ _ _ _ _ _ _ _ = _
        unfold elevRem
        rw [if_neg (by omega)]
      have e2 : Qc = forUp lbz rbz (fun j (Qc : (ℤ → E) × ℤ) => (upd Qc.1 Qc.2 (ebpts j), Qc.2 + 1)) (st.Qw, 1) := by
        show forUp lbz rbz (fun j (Qc : (ℤ → E) × ℤ) => (upd Qc.1 Qc.2 (Qe.2 j), Qc.2 + 1)) (Qe.1, st.cind) = _
        rw [e1, c1]
      have e3 : Qc.2 = 1 + (rbz + 1 - lbz) := by rw [e2]; exact (writeQ _ _ _ _ _ hlr).1
      have hkn : ∀ k : ℤ, 0 ≤ k → k ≤ (p : ℤ) + t → kn (elvT U a S t 1) k (p + t) =
          Multiset.replicate (p + t - k).toNat (U (a 0)) + Multiset.replicate k.toNat (U (a 1)) := by
        intro k k1 k2
        have := kn_split3 (U := elvT U a S t 1) (W := U) (i := k) (x := 0) (y := ((p : ℤ) + t - k).toNat)
          (z := k.toNat) (c := p + t) (u := U (a 0)) (v := U (a 1)) (by omega)
          (by intro l l1 l2; push_cast at l2; omega)
          (by
            intro l l1 l2
            have k0 : kz a t 0 = 0 := rfl
            exact H.elvT_blk t (by omega) (by omega) (by omega)
              (by show k + l < kz a t 1; push_cast at l2; omega))
          (by intro l l1 l2; exact elvT_ge t 1 (by push_cast at l1; omega))
        rw [this]; simp
      refine ⟨?_, ?_⟩
      · rw [e3, hrbz, hl1]
        show _ = if r > 0 then kz a t 1 - (r + 1) / 2 else kz a t 1
        rw [hk1]
        split_ifs <;> ring
      · rw [e3, e2]
        apply H.post_write hs Hf h hl0 hlr (by rw [hrbz]; split_ifs <;> omega)
          (by show 1 - lbz = kz a t 1 - 1 - (p + t); omega)
        · intro i i1 i2 s0 h0 w1 w2
          obtain rfl : s0 = 0 := by omega
          obtain rfl : i = 0 := by omega
          rw [c2, Hf.rep 0 h 0 (by rw [H.zero]; omega) (by omega)]
          show _ = elv (p + t) p (f 0) (kn (elvT U a S t 1) 0 (p + t))
          rw [hkn 0 le_rfl (by omega)]
          rw [Int.toNat_zero, Multiset.replicate_zero, add_zero,
            show ((p : ℤ) + t - 0).toNat = p + t by omega, elv_diag (by omega)]
          congr 1
          exact kn_const (fun l l1 l2 => by
            rw [H.blk0 _ (by omega) (by omega), H.zero])
        · intro k k1 k2
          rw [heb k k1 k2]
          show _ = elv (p + t) p (f 0) (kn (elvT U a S t 1) (kz a t 1 - 1 - (p + t) + k) (p + t))
          rw [show kz a t 1 - 1 - ((p : ℤ) + t) + k = k by omega, hkn k (by omega) k2]
    | succ s =>
      obtain ⟨c1, c2, c3⟩ := I.hQ
      have ho1 : oldr = p - (a (s + 1) - a s) := hor
      have hoc : st.cind = kz a t (s + 1) - (oldr + 1) / 2 := by rw [c1, hor]
      have hk := I.hUh
      rw [c3] at hk
      rw [hoc] at c2
      have := H.post_step hs Hf hok h ht ho1 hr hlbz hrbz hk c2 heb
      have e1 : Qe = elevRem st.Uh (U (a (s + 1))) (U (a (s + 2))) ((p : ℤ) + t) oldr (kz a t (s + 1))
          (kz a t (s + 1) - (oldr + 1) / 2) lbz (st.Qw, ebpts) := by
        rw [← hoc, ← c3, ← I.hua]
      have e2 : Qc = forUp lbz rbz (fun j (Qc : (ℤ → E) × ℤ) => (upd Qc.1 Qc.2 (Qe.2 j), Qc.2 + 1))
          (Qe.1, kz a t (s + 1) - (oldr + 1) / 2) := by
        rw [← hoc]
      rw [e2, e1]
      exact this
  -- knots
  have hU : Uk.2 = kz a t (s + 1) ∧ ∀ i, 0 ≤ i → i < kz a t (s + 1) → Uk.1 i = elvK U a S t i := by
    cases s with
    | zero =>
      obtain ⟨c1, c2, c3⟩ := I.hQ
      have e1 : Uk = (st.Uh, st.kind) := by
        show (if st.a ≠ (p : ℤ) then _ else _) = _
        rw [if_neg]
        rw [I.ha, H.zero]; simp
      rw [e1]
      exact ⟨c3, by rw [← c3]; exact I.hUh⟩
    | succ s =>
      obtain ⟨c1, c2, c3⟩ := I.hQ
      have ho1 : oldr = p - (a (s + 1) - a s) := hor
      have hmos := H.mono s (by omega)
      have hmus := H.mult s (by omega)
      have hkz := kz_succ t s a
      have e1 : Uk = forUp 0 (((p : ℤ) + t) - oldr - 1) (fun _ (Uk : (ℤ → K) × ℤ) =>
          (upd Uk.1 Uk.2 (U (a (s + 1))), Uk.2 + 1)) (st.Uh, kz a t (s + 1)) := by
        show (if st.a ≠ (p : ℤ) then forUp 0 (((p : ℤ) + t) - oldr - 1) (fun _ (Uk : (ℤ → K) × ℤ) =>
          (upd Uk.1 Uk.2 st.ua, Uk.2 + 1)) (st.Uh, st.kind) else _) = _
        rw [if_pos, I.hua, c3]
        rw [I.ha]; push_cast at hap; omega
      have w := writeQ (fun _ => U (a (s + 1))) st.Uh (kz a t (s + 1)) 0 (((p : ℤ) + t) - oldr - 1) (by omega)
      rw [← e1] at w
      refine ⟨by rw [w.1]; show _ = kz a t (s + 2); omega, ?_⟩
      intro i i1 i2
      rw [show s + 1 + 1 = s + 2 from rfl] at i2
      rw [w.2 i]
      by_cases hi : kz a t (s + 1) ≤ i
      · rw [if_pos (by omega), H.elvK_eq t (by omega) hi (fun _ => i2)]
      · rw [if_neg (by omega)]
        exact I.hUh i i1 (by rw [c3]; omega)
  have hm : m = n + p + 1 := rfl
  refine ⟨?_, ?_⟩
  · intro h1
    have hlt : a (s + 1) < m := by
      have := H.a_le h1; omega
    rw [if_pos hlt] at hst'
    rw [hst']
    refine ⟨rfl, rfl, hr, hub, ?_, ?_, ?_⟩
    · dsimp only
      rw [hU.1]; exact hU.2
    · intro k k1 k2
      dsimp only
      have hmp := hmulp h1
      rcases lt_or_ge k r with hk | hk
      · rw [fillRange_out _ _ _ _ _ (by omega), fillRange_in _ _ _ _ _ (by omega) (by omega), sub_zero,
          hbn.2 k k1 hk]
        have e1 : Multiset.replicate ((p : ℤ) - k).toNat (U (a (s + 1))) + kn U (a (s + 1)) k.toNat =
            (Multiset.replicate ((p : ℤ) - k - (a (s + 1) - a s)).toNat (U (a (s + 1))) +
              kn U (a (s + 1)) k.toNat) + Multiset.replicate (a (s + 1) - a s).toNat (U (a (s + 1))) := by
          rw [add_right_comm, ← Multiset.replicate_add]
          congr 2; omega
        rw [e1]
        apply H.agree hs Hf h1
        rw [Multiset.card_add, Multiset.card_replicate, card_kn]; omega
      · rw [fillRange_in _ _ _ _ _ (by omega) (by omega), sub_zero,
          Hf.rep (s + 1) h1 _ (by omega) (by omega)]
        congr 1
        rw [show p = ((p : ℤ) - k).toNat + k.toNat by omega, kn_add]
        congr 1
        · rw [kn_const (x := U (a (s + 1))) (fun l l1 l2 => H.blk s h _ (by omega) (by omega))]
          congr 1; omega
        · congr 1; omega
    · show _ ∧ _ ∧ _
      have hr0 : 0 ≤ r := by have := hmulp h1; omega
      refine ⟨?_, ?_, ?_⟩
      · show Qc.2 = kz a t (s + 1) - (p - (a (s + 1) - a s) + 1) / 2
        rw [hQ.1, ← hr]
        split_ifs <;> omega
      · exact hQ.2
      · exact hU.1
  · intro h1
    have hge : ¬ a (s + 1) < m := by rw [h1, H.last, hm]; omega
    rw [if_neg hge] at hst'
    have hneg : ¬ r > 0 := by have := hmulS h1; omega
    rw [hst']
    refine ⟨?_, ?_, ?_⟩
    · dsimp only; rw [h1, H.last]
    · intro i i1 i2
      dsimp only
      rw [hU.1]
      rcases lt_or_ge i (kz a t (s + 1)) with hi | hi
      · rw [fillRange_out _ _ _ _ _ (by omega), hU.2 i i1 hi]
      · rw [fillRange_in _ _ _ _ _ (by omega) (by show i ≤ kz a t (s + 1) + ((p : ℤ) + t) + 0; rw [h1]; omega), hub,
          h1, H.elvK_eq t le_rfl (by rw [← h1]; exact hi) (fun h => absurd h (lt_irrefl _))]
    · have := hQ.2
      rw [hQ.1, if_neg hneg, h1] at this
      exact this

theorem loop (H : Brk n p U S a) (hs : SortedOn U 0 (n + p + 1)) (Hf : Forms n p U P S a f)
    (hok : ElevOK p t S a) (hp : 1 ≤ p) (ht : 1 ≤ t) {eps : K} (he : 0 ≤ eps)
    (hsep : ∀ s, s < S → eps < |U (a s) - U (a s + 1)|) (jb : ℤ → ℤ → K) :
    ∀ (fuel : ℕ) (s : ℕ) (st : ElevSt K E), s < S → S - s ≤ fuel → Head p U P S a t f s st →
      (∀ i, 0 ≤ i → i ≤ kz a t S + (p + t) →
        (elevLoop eps (elevBez jb p t) n p t U P fuel st).Uh i = elvK U a S t i) ∧
      Post p U S a t f (S - 1) (elvT U a S t S) (elevLoop eps (elevBez jb p t) n p t U P fuel st).Qw (kz a t S) := by
  intro fuel
  induction fuel with
  | zero => intro s st h1 h2; omega
  | succ fuel ih =>
    intro s st h1 h2 I
    rw [elevLoop, if_pos (by rw [I.hb]; have := H.a_le h1; omega)]
    obtain ⟨g1, g2⟩ := H.step hs Hf hok ht he hsep jb h1 I
    rcases Nat.lt_or_ge (s + 1) S with h | h
    · exact ih (s + 1) _ h (by omega) (g1 h)
    · obtain ⟨b1, b2, b3⟩ := g2 (by omega)
      have : elevLoop eps (elevBez jb p t) n p t U P fuel (elevStep eps (elevBez jb p t) n p t U P st) =
          elevStep eps (elevBez jb p t) n p t U P st := by
        cases fuel with
        | zero => rfl
        | succ fuel => rw [elevLoop, if_neg (by omega)]
      rw [this]
      rw [show S - 1 = s by omega]
      exact ⟨b2, b3⟩

end Brk

end Igakit
