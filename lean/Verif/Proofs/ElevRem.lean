import Verif.Proofs.ElevBez

/-!
# The knot removal loop of degree elevation
-/

set_option linter.unusedSectionVars false

namespace Igakit
open Spec Finset

variable {K : Type*} [Field K] [LinearOrder K] [IsStrictOrderedRing K]
variable {E : Type*} [AddCommGroup E] [Module K E]

/-- value of the point `kind-1-δ` after `g` updates -/
def eremL (Fp : Multiset K → E) (Uh : ℤ → K) (ua ub : K) (ph kind g δ : ℤ) : E :=
  Fp (kn Uh (kind - 1 - δ) δ.toNat +
    (Multiset.replicate (ph - δ - g).toNat ua + Multiset.replicate g.toNat ub))

/-- value of the Bezier point `k` after `g` updates -/
def eremR (F : Multiset K → E) (Uh : ℤ → K) (ua ub : K) (ph kind g k : ℤ) : E :=
  F (kn Uh (kind - 1 - g) g.toNat +
    (Multiset.replicate (ph - k - g).toNat ua + Multiset.replicate k.toNat ub))

theorem eremL_step {ph : ℕ} {Fp : Multiset K → E} (hF : IsForm ph Fp) {Uh : ℤ → K} {ua ub : K} {kind g δ : ℤ}
    (hg : 0 ≤ g) (hδ : 0 ≤ δ) (hs : δ + g < ph) (hne : ua - Uh (kind - 1 - δ) ≠ 0) :
    eremL Fp Uh ua ub ph kind (g + 1) δ =
      ((ub - Uh (kind - 1 - δ)) / (ua - Uh (kind - 1 - δ))) • eremL Fp Uh ua ub ph kind g δ +
      (1 - (ub - Uh (kind - 1 - δ)) / (ua - Uh (kind - 1 - δ))) • eremL Fp Uh ua ub ph kind g (δ + 1) := by
  set M : Multiset K := kn Uh (kind - 1 - δ) δ.toNat +
    (Multiset.replicate (ph - δ - g - 1).toNat ua + Multiset.replicate g.toNat ub) with hM
  have cM : M.card + 1 = ph := by
    simp only [hM, Multiset.card_add, Multiset.card_replicate, card_kn]; omega
  have e1 : eremL Fp Uh ua ub ph kind (g + 1) δ = Fp (ub ::ₘ M) := by
    unfold eremL
    rw [hM, show (g + 1).toNat = g.toNat + 1 by omega, Multiset.replicate_succ, Multiset.add_cons,
      Multiset.add_cons, show (ph : ℤ) - δ - (g + 1) = ph - δ - g - 1 by ring]
  have e2 : eremL Fp Uh ua ub ph kind g δ = Fp (ua ::ₘ M) := by
    unfold eremL
    rw [hM, show ((ph : ℤ) - δ - g).toNat = (ph - δ - g - 1).toNat + 1 by omega, Multiset.replicate_succ,
      Multiset.cons_add, Multiset.add_cons]
  have e3 : eremL Fp Uh ua ub ph kind g (δ + 1) = Fp (Uh (kind - 1 - δ) ::ₘ M) := by
    unfold eremL
    rw [hM, show (δ + 1).toNat = δ.toNat + 1 by omega, kn_succ_first, Multiset.cons_add,
      show kind - 1 - (δ + 1) + 1 = kind - 1 - δ by ring, show (ph : ℤ) - (δ + 1) - g = ph - δ - g - 1 by ring]
  rw [e1, e2, e3, hF.interp' cM hne ub]

theorem eremR_step {ph : ℕ} {F : Multiset K → E} (hF : IsForm ph F) {Uh : ℤ → K} {ua ub : K} {kind g k : ℤ}
    (hg : 0 ≤ g) (hk : 0 ≤ k) (hs : k + g < ph) (hne : ub - ua ≠ 0) :
    eremR F Uh ua ub ph kind (g + 1) k =
      ((ub - Uh (kind - 1 - g)) / (ub - ua)) • eremR F Uh ua ub ph kind g k +
      (1 - (ub - Uh (kind - 1 - g)) / (ub - ua)) • eremR F Uh ua ub ph kind g (k + 1) := by
  set M : Multiset K := kn Uh (kind - 1 - g) g.toNat +
    (Multiset.replicate (ph - k - g - 1).toNat ua + Multiset.replicate k.toNat ub) with hM
  have cM : M.card + 1 = ph := by
    simp only [hM, Multiset.card_add, Multiset.card_replicate, card_kn]; omega
  have e1 : eremR F Uh ua ub ph kind (g + 1) k = F (Uh (kind - 1 - g) ::ₘ M) := by
    unfold eremR
    rw [hM, show (g + 1).toNat = g.toNat + 1 by omega, kn_succ_first, Multiset.cons_add,
      show kind - 1 - (g + 1) + 1 = kind - 1 - g by ring, show (ph : ℤ) - k - (g + 1) = ph - k - g - 1 by ring]
  have e2 : eremR F Uh ua ub ph kind g k = F (ua ::ₘ M) := by
    unfold eremR
    rw [hM, show ((ph : ℤ) - k - g).toNat = (ph - k - g - 1).toNat + 1 by omega, Multiset.replicate_succ,
      Multiset.cons_add, Multiset.add_cons]
  have e3 : eremR F Uh ua ub ph kind g (k + 1) = F (ub ::ₘ M) := by
    unfold eremR
    rw [hM, show (k + 1).toNat = k.toNat + 1 by omega, Multiset.replicate_succ, Multiset.add_cons,
      Multiset.add_cons, show (ph : ℤ) - (k + 1) - g = ph - k - g - 1 by ring]
  rw [e1, e2, e3, hF.interp' cM hne (Uh (kind - 1 - g))]
  have : 1 - (ub - Uh (kind - 1 - g)) / (ub - ua) = (Uh (kind - 1 - g) - ua) / (ub - ua) := by
    field_simp; ring
  rw [this]
  have : (ub - Uh (kind - 1 - g)) / (ub - ua) = 1 - (Uh (kind - 1 - g) - ua) / (ub - ua) := by
    field_simp; ring
  rw [this, add_comm]

/-- data for the knot removal of one round -/
structure RemHyp (Fp F : Multiset K → E) (Uh : ℤ → K) (ua ub : K) (ph : ℕ) (oldr kind cind lbz : ℤ) : Prop where
  fp : IsForm ph Fp
  f : IsForm ph F
  two : 2 ≤ oldr
  lt : oldr < ph
  hkind : (ph : ℤ) < kind
  hcind : cind = kind - (oldr + 1) / 2
  hlbz : lbz = (oldr + 2) / 2
  left : ∀ i, kind - 1 - oldr ≤ i → i ≤ kind - 1 → ua - Uh i ≠ 0
  ne : ub - ua ≠ 0
  guard : ∀ c, 0 ≤ c → c ≤ oldr - 1 - lbz → c + 1 < ph - oldr → Uh (kind - 1 - c) = Uh (kind - 1)

/-- state of the removal after `c` steps of round `tr` -/
structure RemInv (Fp F : Multiset K → E) (Uh : ℤ → K) (ua ub : K) (ph : ℕ) (oldr kind cind lbz : ℤ)
    (Q0 : ℤ → E) (tr c : ℤ) (Q e : ℤ → E) : Prop where
  l : ∀ δ, 0 ≤ δ → δ ≤ oldr → kind - 1 - δ < cind → Q (kind - 1 - δ) =
    eremL Fp Uh ua ub ph kind (if tr - c < δ then max 0 (tr + 1 - δ) else max 0 (tr - δ)) δ
  r : ∀ k, lbz ≤ k → k ≤ (ph : ℤ) → e k =
    eremR F Uh ua ub ph kind (if tr - c < k then max 0 (tr + 1 - k) else max 0 (tr - k)) k
  out : ∀ i, (i < kind - oldr ∨ cind ≤ i) → Q i = Q0 i

theorem elevRemIn_eq {Fp F : Multiset K → E} {Uh : ℤ → K} {ua ub : K} {ph : ℕ} {oldr kind cind lbz : ℤ}
    (H : RemHyp Fp F Uh ua ub ph oldr kind cind lbz) (Q0 : ℤ → E) {tr : ℤ} (h1 : 1 ≤ tr) (h2 : tr < oldr) :
    ∀ (fuel : ℕ) (c : ℤ) (Q e : ℤ → E), 0 ≤ c → tr - c ≤ fuel →
      RemInv Fp F Uh ua ub ph oldr kind cind lbz Q0 tr c Q e →
      ∃ c', 0 ≤ c' ∧ tr ≤ 2 * c' ∧ RemInv Fp F Uh ua ub ph oldr kind cind lbz Q0 tr c'
        (elevRemIn Uh ua ub (ub - ua) ((ub - Uh (kind - 1)) / (ub - ua)) ph oldr kind cind lbz tr fuel
          ⟨Q, e, kind - 1 - tr + c, kind - 1 + tr - c, tr - c⟩).Qw
        (elevRemIn Uh ua ub (ub - ua) ((ub - Uh (kind - 1)) / (ub - ua)) ph oldr kind cind lbz tr fuel
          ⟨Q, e, kind - 1 - tr + c, kind - 1 + tr - c, tr - c⟩).ebpts := by
  have b1 := H.two
  have b2 := H.lt
  have b3 := H.hkind
  have b4 := H.hcind
  have b5 := H.hlbz
  intro fuel
  induction fuel with
  | zero =>
    intro c Q e hc hf hI
    exact ⟨c, hc, by push_cast at hf; omega, hI⟩
  | succ fuel ih =>
    intro c Q e hc hf hI
    rw [elevRemIn]
    dsimp only
    by_cases hgo : kind - 1 + tr - c - (kind - 1 - tr + c) > tr
    swap
    · rw [if_neg hgo]
      exact ⟨c, hc, by omega, hI⟩
    rw [if_pos hgo]
    set s' := elevRemBody Uh ua ub (ub - ua) ((ub - Uh (kind - 1)) / (ub - ua)) ph oldr kind cind lbz tr
      ⟨Q, e, kind - 1 - tr + c, kind - 1 + tr - c, tr - c⟩ with hs'
    have hsi : s'.i = kind - 1 - tr + (c + 1) := by simp only [hs', elevRemBody]; ring
    have hsj : s'.j = kind - 1 + tr - (c + 1) := by simp only [hs', elevRemBody]; ring
    have hsk : s'.kj = tr - (c + 1) := by simp only [hs', elevRemBody]; ring
    have hse : s' = ⟨s'.Qw, s'.ebpts, kind - 1 - tr + (c + 1), kind - 1 + tr - (c + 1), tr - (c + 1)⟩ := by
      rw [← hsi, ← hsj, ← hsk]
    rw [hse]
    apply ih (c + 1) s'.Qw s'.ebpts (by omega) (by push_cast at hf; omega)
    refine ⟨?_, ?_, ?_⟩
    · intro δ d1 d2 d3
      by_cases e1 : δ = tr - c
      · have hi : kind - 1 - tr + c = kind - 1 - δ := by omega
        have : s'.Qw (kind - 1 - δ) = ((ub - Uh (kind - 1 - δ)) / (ua - Uh (kind - 1 - δ))) • Q (kind - 1 - δ) +
            (1 - (ub - Uh (kind - 1 - δ)) / (ua - Uh (kind - 1 - δ))) • Q (kind - 1 - δ - 1) := by
          simp only [hs', elevRemBody, hi]
          rw [if_pos d3, upd_same]
        rw [this, if_pos (by omega), hI.l δ d1 d2 d3, if_neg (by omega),
          show kind - 1 - δ - 1 = kind - 1 - (δ + 1) by ring,
          hI.l (δ + 1) (by omega) (by omega) (by omega), if_pos (by omega),
          show max 0 (tr + 1 - (δ + 1)) = c by omega, show max 0 (tr - δ) = c by omega,
          show max 0 (tr + 1 - δ) = c + 1 by omega,
          eremL_step H.fp hc d1 (by omega) (H.left _ (by omega) (by omega))]
      · have : s'.Qw (kind - 1 - δ) = Q (kind - 1 - δ) := by
          simp only [hs', elevRemBody]
          split_ifs
          · rw [upd_ne _ _ (by omega)]
          · rfl
        rw [this, hI.l δ d1 d2 d3]
        congr 1
        split_ifs <;> omega
    · intro k k1 k2
      by_cases e1 : k = tr - c
      · have hx : s'.ebpts k = ((ub - Uh (kind - 1 - c)) / (ub - ua)) • e k +
            (1 - (ub - Uh (kind - 1 - c)) / (ub - ua)) • e (k + 1) := by
          simp only [hs', elevRemBody]
          rw [if_pos (by omega)]
          by_cases e2 : kind - 1 + tr - c - tr ≤ kind - (ph : ℤ) + oldr
          · rw [if_pos e2, upd_eq _ _ e1, e1, show kind - 1 + tr - c - tr = kind - 1 - c by ring]
          · rw [if_neg e2, upd_eq _ _ e1, e1, H.guard c hc (by omega) (by omega)]
        rw [hx, if_pos (by omega), hI.r k k1 k2, if_neg (by omega), hI.r (k + 1) (by omega) (by omega),
          if_pos (by omega), show max 0 (tr + 1 - (k + 1)) = c by omega, show max 0 (tr - k) = c by omega,
          show max 0 (tr + 1 - k) = c + 1 by omega,
          eremR_step H.f hc (by omega) (by omega) H.ne]
      · have : s'.ebpts k = e k := by
          simp only [hs', elevRemBody]
          split_ifs
          · rw [upd_ne _ _ e1]
          · rw [upd_ne _ _ e1]
          · rfl
        rw [this, hI.r k k1 k2]
        congr 1
        split_ifs <;> omega
    · intro i hi
      rw [← hI.out i hi]
      simp only [hs', elevRemBody]
      split_ifs
      · rw [upd_ne _ _ (by omega)]
      · rfl

/-- result of the knot removal -/
theorem elevRem_eq {Fp F : Multiset K → E} {Uh : ℤ → K} {ua ub : K} {ph : ℕ} {oldr kind cind lbz : ℤ}
    (H : RemHyp Fp F Uh ua ub ph oldr kind cind lbz) {Q e : ℤ → E}
    (hl : ∀ δ : ℤ, 0 ≤ δ → δ ≤ oldr → kind - 1 - δ < cind → Q (kind - 1 - δ) = eremL Fp Uh ua ub ph kind 0 δ)
    (hr : ∀ k : ℤ, lbz ≤ k → k ≤ ph → e k = eremR F Uh ua ub ph kind 0 k) :
    (∀ δ : ℤ, 0 ≤ δ → δ ≤ oldr → kind - 1 - δ < cind →
      (elevRem Uh ua ub ph oldr kind cind lbz (Q, e)).1 (kind - 1 - δ) =
        eremL Fp Uh ua ub ph kind (oldr - δ) δ) ∧
    (∀ k : ℤ, lbz ≤ k → k ≤ ph → (elevRem Uh ua ub ph oldr kind cind lbz (Q, e)).2 k =
        eremR F Uh ua ub ph kind (max 0 (oldr - k)) k) ∧
    (∀ i, (i < kind - oldr ∨ cind ≤ i) → (elevRem Uh ua ub ph oldr kind cind lbz (Q, e)).1 i = Q i) := by
  have b1 := H.two
  have b2 := H.lt
  have b3 := H.hkind
  have b4 := H.hcind
  have b5 := H.hlbz
  have main := forUp_inv (f := fun tr (s : (ℤ → E) × (ℤ → E) × ℤ × ℤ) =>
      let i := s.2.2.1
      let j := s.2.2.2
      let q := elevRemIn Uh ua ub (ub - ua) ((ub - Uh (kind - 1)) / (ub - ua)) ph oldr kind cind lbz tr
        (j - i).toNat ⟨s.1, s.2.1, i, j, j - kind + 1⟩
      (q.Qw, q.ebpts, i - 1, j + 1)) (lo := 1) (hi := oldr - 1) (s := (Q, e, kind - 2, kind))
    (I := fun tr s => s.2.2.1 = kind - 1 - tr ∧ s.2.2.2 = kind - 1 + tr ∧
      RemInv Fp F Uh ua ub ph oldr kind cind lbz Q tr 0 s.1 s.2.1) (by omega)
    (by
      refine ⟨by dsimp only; ring, by dsimp only; ring, ?_, ?_, ?_⟩
      · intro δ d1 d2 d3
        refine (hl δ d1 d2 d3).trans ?_
        congr 1
        split_ifs <;> omega
      · intro k k1 k2
        refine (hr k k1 k2).trans ?_
        congr 1
        split_ifs <;> omega
      · intro i _; rfl)
    (by
      rintro tr ⟨Q1, e1, i, j⟩ t1 t2 ⟨hi, hj, hI⟩
      dsimp only at hi hj hI ⊢
      refine ⟨by omega, by omega, ?_⟩
      obtain ⟨c', c1, c2, hI'⟩ := elevRemIn_eq H Q t1 (by omega) (j - i).toNat 0 Q1 e1 le_rfl (by omega) hI
      rw [show kind - 1 - tr + 0 = i by omega, show kind - 1 + tr - 0 = j by omega,
        show tr - 0 = j - kind + 1 by omega] at hI'
      refine ⟨?_, ?_, hI'.out⟩
      · intro δ d1 d2 d3
        rw [hI'.l δ d1 d2 d3]
        congr 1
        split_ifs <;> omega
      · intro k k1 k2
        rw [hI'.r k k1 k2]
        congr 1
        split_ifs <;> omega)
  have hdef : elevRem Uh ua ub ph oldr kind cind lbz (Q, e) =
    (let s := forUp 1 (oldr - 1) (fun tr (s : (ℤ → E) × (ℤ → E) × ℤ × ℤ) =>
      let i := s.2.2.1
      let j := s.2.2.2
      let q := elevRemIn Uh ua ub (ub - ua) ((ub - Uh (kind - 1)) / (ub - ua)) ph oldr kind cind lbz tr
        (j - i).toNat ⟨s.1, s.2.1, i, j, j - kind + 1⟩
      (q.Qw, q.ebpts, i - 1, j + 1)) (Q, e, kind - 2, kind)
    (s.1, s.2.1)) := by
    unfold elevRem
    rw [if_pos (by omega)]
  rw [hdef]
  dsimp only
  obtain ⟨_, _, hI⟩ := main
  refine ⟨?_, ?_, hI.out⟩
  · intro δ d1 d2 d3
    refine (hI.l δ d1 d2 d3).trans ?_
    congr 1
    split_ifs <;> omega
  · intro k k1 k2
    refine (hI.r k k1 k2).trans ?_
    congr 1
    split_ifs <;> omega

end Igakit
