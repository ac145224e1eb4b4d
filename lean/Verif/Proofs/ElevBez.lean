import Verif.Model.Elevate
import Verif.Proofs.ElevForm
import Verif.Proofs.Clamp
import Verif.Proofs.DersAlg

/-!
# The loops of degree elevation that work on a single span
-/

set_option linter.unusedSectionVars false

namespace Igakit
open Spec Finset

variable {K : Type*} [Field K] [LinearOrder K] [IsStrictOrderedRing K]
variable {E : Type*} [AddCommGroup E] [Module K E]

theorem elevBin_eq {n k : ℕ} (h : k ≤ n) : elevBin n k = (n.choose k : ℕ) := by
  have key : ∀ c : ℕ, c ≤ n →
      forUp 0 ((c : ℤ) - 1) (fun i C => Int.tdiv (C * ((n : ℤ) - i)) (i + 1)) 1 = (n.choose c : ℕ) := by
    intro c hc
    have := forUp_inv (f := fun i C => Int.tdiv (C * ((n : ℤ) - i)) (i + 1)) (lo := 0) (hi := (c : ℤ) - 1) (s := 1)
      (I := fun i C => C = (n.choose i.toNat : ℕ)) (by omega) (by simp)
      (by
        rintro i C h1 h2 rfl
        obtain ⟨i, rfl⟩ := Int.eq_ofNat_of_zero_le h1
        have e := Nat.choose_succ_right_eq n i
        have e2 : (n : ℤ) - i = ((n - i : ℕ) : ℤ) := by omega
        have e3 : (((i : ℤ) + 1).toNat) = i + 1 := by omega
        rw [e3, e2, Int.toNat_natCast, ← Nat.cast_mul, ← e]
        push_cast
        exact Int.mul_tdiv_cancel _ (by omega))
    rw [sub_add_cancel] at this
    rw [this]; simp
  unfold elevBin
  by_cases h2 : k ≤ n - k
  · rw [show min (k : ℤ) (n - k) = (k : ℕ) by omega, key k h]
  · rw [show min (k : ℤ) (n - k) = ((n - k : ℕ) : ℤ) by omega, key _ (by omega), Nat.choose_symm h]

/-- row-wise filling of a table -/
theorem fillRow {α : Type*} (A : ℤ → ℤ → α) (i lo hi : ℤ) (g : (ℤ → ℤ → α) → ℤ → α)
    (hg : ∀ B : ℤ → ℤ → α, (∀ x y, x ≠ i → B x y = A x y) → ∀ j, g B j = g A j) (x y : ℤ) :
    forUp lo hi (fun j A => upd2 A i j (g A j)) A x y =
      if x = i ∧ lo ≤ y ∧ y ≤ hi then g A y else A x y := by
  by_cases h : lo ≤ hi + 1
  · have := forUp_inv (f := fun j A => upd2 A i j (g A j)) (lo := lo) (hi := hi) (s := A)
      (I := fun j B => ∀ x y, B x y = if x = i ∧ lo ≤ y ∧ y < j then g A y else A x y) h
      (by intro x y; rw [if_neg (by omega)])
      (by
        intro j B h1 h2 hB x y
        by_cases e : x = i ∧ y = j
        · obtain ⟨rfl, rfl⟩ := e
          rw [upd2_same, if_pos (by omega)]
          apply hg
          intro x y hx; rw [hB, if_neg (by tauto)]
        · rw [upd2_ne _ _ (by tauto), hB]
          by_cases e2 : x = i ∧ lo ≤ y ∧ y < j
          · rw [if_pos e2, if_pos (by omega)]
          · rw [if_neg e2, if_neg]
            rintro ⟨a, b, c⟩
            exact e2 ⟨a, b, lt_of_le_of_ne (by omega) (fun h => e ⟨a, h⟩)⟩)
    rw [this]
    by_cases e : x = i ∧ lo ≤ y ∧ y ≤ hi
    · rw [if_pos e, if_pos (by omega)]
    · rw [if_neg e, if_neg (by omega)]
  · rw [forUp_empty (by omega), if_neg (by omega)]

theorem elevBez_eq (jb : ℤ → ℤ → K) {p t i j : ℕ} (ht : 1 ≤ t) (hi : i ≤ p + t) (h1 : i ≤ j + t)
    (h2 : j ≤ p) (h3 : j ≤ i) :
    elevBez jb p t i j = (p.choose j : ℕ) * (t.choose (i - j) : ℕ) / ((p + t).choose i : ℕ) := by
  set c : ℕ → ℕ → K := fun i j => (p.choose j : ℕ) * (t.choose (i - j) : ℕ) / ((p + t).choose i : ℕ) with hc
  have hval : ∀ i j : ℕ, i ≤ p + t → i ≤ j + t → j ≤ p → j ≤ i →
      ((elevBin (p : ℤ) (j : ℤ) : ℤ) : K) * ((elevBin (t : ℤ) ((i : ℤ) - j) : ℤ) : K) /
        ((elevBin ((p : ℤ) + t) (i : ℤ) : ℤ) : K) = c i j := by
    intro i j h0 h1 h2 h3
    rw [show (i : ℤ) - j = ((i - j : ℕ) : ℤ) by omega, ← Nat.cast_add, elevBin_eq h2, elevBin_eq (by omega),
      elevBin_eq h0]
    simp [hc]
  have h00 : c 0 0 = 1 := by simp [hc]
  have hpp : c (p + t) p = 1 := by simp [hc]
  have hsym : ∀ i j : ℕ, i ≤ p + t → i ≤ j + t → j ≤ p → j ≤ i → c (p + t - i) (p - j) = c i j := by
    intro i j h0 h1 h2 h3
    simp only [hc]
    rw [Nat.choose_symm h2, Nat.choose_symm h0, show p + t - i - (p - j) = t - (i - j) by omega,
      Nat.choose_symm (by omega)]
  -- first stage
  set z0 : ℤ → ℤ → K := upd2 (upd2 jb 0 0 1) ((p : ℤ) + t) p 1 with hz0
  have z00 : z0 0 0 = 1 := by
    rw [hz0, upd2_ne _ _ (by left; omega), upd2_same]
  have zpp : z0 ((p : ℤ) + t) p = 1 := by rw [hz0, upd2_same]
  set z1 := forUp 1 (((p : ℤ) + t) / 2) (fun i bz =>
    forUp (max 0 (i - (t : ℤ))) (min (p : ℤ) i) (fun j bz => upd2 bz i j
      (elevBin p j * elevBin t (i - j) / (elevBin ((p : ℤ) + t) i : K))) bz) z0 with hz1
  have hs1 := forUp_inv (f := fun i bz =>
    forUp (max 0 (i - (t : ℤ))) (min (p : ℤ) i) (fun j bz => upd2 bz i j
      (elevBin p j * elevBin t (i - j) / (elevBin ((p : ℤ) + t) i : K))) bz) (lo := 1)
      (hi := ((p : ℤ) + t) / 2) (s := z0)
    (I := fun m z => z ((p : ℤ) + t) p = 1 ∧ ∀ i j : ℕ, (i : ℤ) < m → i ≤ j + t → j ≤ p → j ≤ i →
      z i j = c i j) (by omega)
    (by
      refine ⟨zpp, ?_⟩
      intro i j a b c' d
      have e1 : i = 0 := by omega
      have e2 : j = 0 := by omega
      subst e1; subst e2
      rw [h00]; exact_mod_cast z00)
    (by
      intro m z b1 b2 ⟨hz, hI⟩
      have hrow := fillRow z m (max 0 (m - (t : ℤ))) (min (p : ℤ) m)
        (fun _ j => (elevBin p j * elevBin t (m - j) / (elevBin ((p : ℤ) + t) m : K))) (fun _ _ _ => rfl)
      refine ⟨?_, ?_⟩
      · rw [hrow, if_neg (by omega)]; exact hz
      · intro i j a b c' d
        rw [hrow]
        by_cases e : (i : ℤ) = m
        · rw [if_pos (by omega), ← e]
          exact hval i j (by omega) b c' d
        · rw [if_neg (by omega)]
          exact hI i j (by omega) b c' d)
  have hs2 := forUp_inv (f := fun i bz =>
    forUp (max 0 (i - (t : ℤ))) (min (p : ℤ) i) (fun j bz => upd2 bz i j
      (bz ((p : ℤ) + t - i) (p - j))) bz) (lo := ((p : ℤ) + t) / 2 + 1)
      (hi := ((p : ℤ) + t) - 1) (s := z1)
    (I := fun m z => z ((p : ℤ) + t) p = 1 ∧ ∀ i j : ℕ, (i : ℤ) < m → i ≤ j + t → j ≤ p → j ≤ i →
      z i j = c i j) (by omega) hs1
    (by
      intro m z b1 b2 ⟨hz, hI⟩
      have hrow := fillRow z m (max 0 (m - (t : ℤ))) (min (p : ℤ) m)
        (fun z j => z ((p : ℤ) + t - m) (p - j)) (fun B hB j => hB _ _ (by omega))
      refine ⟨?_, ?_⟩
      · rw [hrow, if_neg (by omega)]; exact hz
      · intro i j a b c' d
        rw [hrow]
        by_cases e : (i : ℤ) = m
        · rw [if_pos (by omega), ← e]
          have := hI (p + t - i) (p - j) (by omega) (by omega) (by omega) (by omega)
          rw [hsym i j (by omega) b c' d] at this
          rw [← this]
          congr 1 <;> omega
        · rw [if_neg (by omega)]
          exact hI i j (by omega) b c' d)
  have hfin : elevBez jb p t = forUp (((p : ℤ) + t) / 2 + 1) (((p : ℤ) + t) - 1) (fun i bz =>
    forUp (max 0 (i - (t : ℤ))) (min (p : ℤ) i) (fun j bz => upd2 bz i j
      (bz ((p : ℤ) + t - i) (p - j))) bz) z1 := rfl
  rw [hfin]
  rw [sub_add_cancel] at hs2
  rcases hi.lt_or_eq with h | h
  · exact hs2.2 i j (by omega) h1 h2 h3
  · have : j = p := by omega
    subst this
    rw [h]
    push_cast
    rw [hs2.1]
    exact hpp.symm

/-- `elevRun` finds the end of the run of equal knots -/
theorem elevRun_spec {eps : K} (he : 0 ≤ eps) {m : ℤ} {U : ℤ → K} {b c : ℤ} (hbc : b ≤ c) (hc : c ≤ m)
    (heq : ∀ j, b ≤ j → j ≤ c → U j = U c) (hne : c < m → eps < |U c - U (c + 1)|) :
    ∀ (fuel : ℕ), (c - b).toNat ≤ fuel → elevRun eps m U fuel b = c := by
  intro fuel
  induction fuel generalizing b with
  | zero => intro h; simp only [elevRun]; omega
  | succ fuel ih =>
    intro h
    rw [elevRun]
    by_cases h1 : b = c
    · subst h1
      by_cases h2 : b < m
      · rw [if_pos h2, if_pos (hne h2)]
      · rw [if_neg h2]
    · rw [if_pos (by omega), if_neg]
      · exact ih (by omega) (fun j a1 a2 => heq j (by omega) a2) (by omega)
      · rw [heq b (by omega) hbc, heq (b + 1) (by omega) (by omega), sub_self, abs_zero]
        exact not_lt.mpr he

theorem elevAlfs_eq (U : ℤ → K) (p mul a : ℤ) (ua ub : K) (alfs : ℤ → K) (l : ℤ) (h1 : 0 ≤ l)
    (h2 : l ≤ p - mul - 1) :
    elevAlfs U p mul a ua ub alfs l = (ub - ua) / (U (a + (l + mul + 1)) - ua) := by
  have := forDown_inv (f := fun k alfs => upd alfs (k - mul - 1) ((ub - ua) / (U (a + k) - ua)))
    (hi := p) (lo := mul + 1) (s := alfs)
    (I := fun k al => ∀ l, k - mul ≤ l → l ≤ p - mul - 1 → al l = (ub - ua) / (U (a + (l + mul + 1)) - ua))
    (by omega) (by intro l a b; omega)
    (by
      intro k al b1 b2 hI l c1 c2
      by_cases e : l = k - mul - 1
      · rw [upd_eq _ _ e, e]; congr 3; ring_nf
      · rw [upd_ne _ _ e]; exact hI l (by omega) c2)
  exact this l (by omega) h2

/-- Bezier points of the span and the start of the next one -/
theorem elevCut_eq {p : ℕ} {f : Multiset K → E} (hf : IsForm p f) {U : ℤ → K} {a mul : ℤ} {ua ub : K}
    (hm : 1 ≤ mul) (hmp : mul < p) {alfs : ℤ → K} {bp nb : ℤ → E}
    (hal : ∀ l : ℤ, 0 ≤ l → l ≤ p - mul - 1 → alfs l = (ub - ua) / (U (a + (l + mul + 1)) - ua))
    (hub : ∀ j, a < j → j ≤ a + mul → U j = ub)
    (hne : ∀ j, a + mul < j → j ≤ a + p → U j - ua ≠ 0)
    (hb : ∀ k : ℤ, 0 ≤ k → k ≤ p → bp k = f (Multiset.replicate (p - k).toNat ua + kn U a k.toNat)) :
    let s := elevCut (p : ℤ) mul (p - mul) alfs (bp, nb)
    (∀ k : ℤ, 0 ≤ k → k ≤ p → s.1 k = f (Multiset.replicate (p - k).toNat ua + Multiset.replicate k.toNat ub)) ∧
    (∀ k : ℤ, 0 ≤ k → k < p - mul →
      s.2 k = f (Multiset.replicate (p - k).toNat ub + kn U (a + mul) k.toNat)) := by
  intro s
  -- value of entry k after pass j
  set v : ℤ → ℤ → E := fun j k => f (Multiset.replicate (p - k).toNat ua +
    (Multiset.replicate (min k (mul + j)).toNat ub + kn U (a + mul) (k - mul - j).toNat)) with hv
  have hv0 : ∀ k : ℤ, 0 ≤ k → k ≤ p → bp k = v 0 k := by
    intro k k1 k2
    rw [hb k k1 k2]
    simp only [hv]
    congr 2
    rw [show k.toNat = (min k (mul + 0)).toNat + (k - mul - 0).toNat by omega, kn_add]
    congr 1
    · exact kn_const (fun l l1 l2 => hub _ (by omega) (by omega))
    · rcases le_total mul k with h | h
      · congr 1; omega
      · rw [show (k - mul - 0).toNat = 0 by omega]; rfl
  have hstep : ∀ j k : ℤ, 1 ≤ j → mul + j ≤ k → k ≤ p → j ≤ p - mul →
      v j k = alfs (k - (mul + j)) • v (j - 1) k + (1 - alfs (k - (mul + j))) • v (j - 1) (k - 1) := by
    intro j k j1 k1 k2 j2
    set M : Multiset K := Multiset.replicate (p - k).toNat ua +
      (Multiset.replicate (mul + j - 1).toNat ub + kn U (a + mul) (k - mul - j).toNat) with hM
    have cM : M.card + 1 = p := by
      simp only [hM, Multiset.card_add, Multiset.card_replicate, card_kn]; omega
    have e1 : v j k = f (ub ::ₘ M) := by
      simp only [hv, hM]
      rw [show (min k (mul + j)).toNat = (mul + j - 1).toNat + 1 by omega, Multiset.replicate_succ,
        Multiset.cons_add, Multiset.add_cons]
    have e2 : v (j - 1) k = f (U (a + k - j + 1) ::ₘ M) := by
      simp only [hv, hM]
      rw [show (min k (mul + (j - 1))).toNat = (mul + j - 1).toNat by omega,
        show (k - mul - (j - 1)).toNat = (k - mul - j).toNat + 1 by omega, kn_succ_last, Multiset.add_cons,
        Multiset.add_cons]
      congr 3; omega
    have e3 : v (j - 1) (k - 1) = f (ua ::ₘ M) := by
      simp only [hv, hM]
      rw [show (min (k - 1) (mul + (j - 1))).toNat = (mul + j - 1).toNat by omega,
        show (k - 1 - mul - (j - 1)).toNat = (k - mul - j).toNat by omega,
        show ((p : ℤ) - (k - 1)).toNat = (p - k).toNat + 1 by omega, Multiset.replicate_succ, Multiset.cons_add]
    have hx := hne (a + k - j + 1) (by omega) (by omega)
    rw [e1, e2, e3, hf.interp' cM hx ub, hal _ (by omega) (by omega)]
    rw [show a + (k - (mul + j) + mul + 1) = a + k - j + 1 by ring]
  have hkeep : ∀ j k : ℤ, 1 ≤ j → k < mul + j → v j k = v (j - 1) k := by
    intro j k j1 k1
    simp only [hv]
    rw [show (min k (mul + j)).toNat = (min k (mul + (j - 1))).toNat by omega,
      show (k - mul - j).toNat = (k - mul - (j - 1)).toNat by omega]
  have main := forUp_inv (f := fun j (s : (ℤ → E) × (ℤ → E)) =>
    let b := forDown p (mul + j) (fun k (b : ℤ → E) =>
      upd b k (alfs (k - (mul + j)) • b k + (1 - alfs (k - (mul + j))) • b (k - 1))) s.1
    (b, upd s.2 ((p - mul : ℤ) - j) (b p))) (lo := 1) (hi := (p - mul : ℤ)) (s := (bp, nb))
    (I := fun j s => (∀ k : ℤ, 0 ≤ k → k ≤ p → s.1 k = v (j - 1) k) ∧
      (∀ k : ℤ, (p - mul : ℤ) - j < k → k < p - mul → s.2 k = v (p - mul - k) p))
    (by omega) ⟨by simpa using hv0, by intro k a b; omega⟩
    (by
      rintro j ⟨b0, n0⟩ j1 j2 ⟨hI, hN⟩
      dsimp only at hI hN ⊢
      have hd := forDown_inv (f := fun k (b : ℤ → E) =>
          upd b k (alfs (k - (mul + j)) • b k + (1 - alfs (k - (mul + j))) • b (k - 1)))
        (hi := (p : ℤ)) (lo := mul + j) (s := b0)
        (I := fun k b => ∀ l : ℤ, 0 ≤ l → l ≤ p → b l = if k < l then v j l else v (j - 1) l)
        (by omega) (by intro l l1 l2; rw [if_neg (by omega), hI l l1 l2])
        (by
          intro k b k1 k2 hb l l1 l2
          by_cases e : l = k
          · subst e
            rw [upd_same, if_pos (by omega), hb l l1 l2, if_neg (by omega), hb (l - 1) (by omega) (by omega),
              if_neg (by omega), hstep j l j1 k1 l2 j2]
          · rw [upd_ne _ _ e, hb l l1 l2]
            by_cases e2 : k < l
            · rw [if_pos e2, if_pos (by omega)]
            · rw [if_neg e2, if_neg (by omega)])
      have hfin : ∀ l : ℤ, 0 ≤ l → l ≤ p → forDown (p : ℤ) (mul + j) (fun k (b : ℤ → E) =>
          upd b k (alfs (k - (mul + j)) • b k + (1 - alfs (k - (mul + j))) • b (k - 1))) b0 l = v j l := by
        intro l l1 l2
        rw [hd l l1 l2]
        by_cases e : mul + j - 1 < l
        · rw [if_pos e]
        · rw [if_neg e, hkeep j l j1 (by omega)]
      refine ⟨?_, ?_⟩
      · intro k k1 k2
        rw [hfin k k1 k2]; congr 1; omega
      · intro k k1 k2
        by_cases e : k = p - mul - j
        · rw [upd_eq _ _ e, hfin p (by omega) (by omega)]; congr 1; omega
        · rw [upd_ne _ _ e]; exact hN k (by omega) k2)
  obtain ⟨m1, m2⟩ := main
  refine ⟨?_, ?_⟩
  · intro k k1 k2
    refine (m1 k k1 k2).trans ?_
    simp only [hv]
    rw [show (k - mul - (p - mul + 1 - 1)).toNat = 0 by omega, kn_zero, add_zero,
      show min k (mul + (p - mul + 1 - 1)) = k by omega]
  · intro k k1 k2
    refine (m2 k (by omega) k2).trans ?_
    simp only [hv]
    rw [show ((p : ℤ) - p).toNat = 0 by omega, Multiset.replicate_zero, zero_add,
      show min (p : ℤ) (mul + (p - mul - k)) = p - k by omega,
      show ((p : ℤ) - mul - (p - mul - k)).toNat = k.toNat by omega]

/-- the elevated Bezier points -/
theorem elevPts_eq (jb : ℤ → ℤ → K) {p t : ℕ} (ht : 1 ≤ t) {f : Multiset K → E} {ua ub : K} {bp eb : ℤ → E}
    (hb : ∀ k : ℤ, 0 ≤ k → k ≤ p →
      bp k = f (Multiset.replicate (p - k).toNat ua + Multiset.replicate k.toNat ub))
    {lbz i : ℤ} (hl : 0 ≤ lbz) (h1 : lbz ≤ i) (h2 : i ≤ p + t) :
    elevPts (elevBez jb p t) p t lbz bp eb i =
      elv (p + t) p f (Multiset.replicate (p + t - i).toNat ua + Multiset.replicate i.toNat ub) := by
  have main := forUp_inv (f := fun i (e : ℤ → E) =>
    forUp (max 0 (i - (t : ℤ))) (min (p : ℤ) i) (fun j e => upd e i (e i + elevBez jb p t i j • bp j)) (upd e i 0))
    (lo := lbz) (hi := (p : ℤ) + t) (s := eb)
    (I := fun m e => ∀ i, lbz ≤ i → i < m → e i =
      elv (p + t) p f (Multiset.replicate (p + t - i).toNat ua + Multiset.replicate i.toNat ub))
    (by omega) (by intro i a b; omega)
    (by
      intro m e b1 b2 hI i i1 i2
      obtain ⟨m, rfl⟩ := Int.eq_ofNat_of_zero_le (by omega : 0 ≤ m)
      have hin := forUp_inv (f := fun j (e : ℤ → E) => upd e (m : ℤ) (e m + elevBez jb p t m j • bp j))
        (lo := max 0 ((m : ℤ) - t)) (hi := min (p : ℤ) m) (s := upd e (m : ℤ) 0)
        (I := fun j e' => (∀ x, x ≠ (m : ℤ) → e' x = e x) ∧ e' m = ∑ l ∈ Ico (m - t) j.toNat,
          ((p.choose l : ℕ) * (t.choose (m - l) : ℕ) / ((p + t).choose m : ℕ) : K) •
            f (Multiset.replicate (p - l) ua + Multiset.replicate l ub))
        (by omega)
        (by
          refine ⟨fun x hx => upd_ne _ _ hx, ?_⟩
          rw [upd_same, Finset.Ico_eq_empty (by omega)]; simp)
        (by
          rintro j e' j1 j2 ⟨g1, g2⟩
          obtain ⟨j, rfl⟩ := Int.eq_ofNat_of_zero_le (by omega : 0 ≤ j)
          refine ⟨fun x hx => by rw [upd_ne _ _ hx, g1 x hx], ?_⟩
          rw [upd_same, g2, show ((j : ℤ) + 1).toNat = j + 1 by omega, Int.toNat_natCast,
            Finset.sum_Ico_succ_top (by omega), elevBez_eq jb ht (by omega) (by omega) (by omega) (by omega),
            hb j (by omega) (by omega)]
          congr 4
          rw [show ((p : ℤ) - j).toNat = p - j by omega])
      by_cases ei : i = m
      · subst ei
        rw [hin.2, show ((p : ℤ) + t - m).toNat = p + t - m by omega, Int.toNat_natCast,
          elv_bezier (by omega)]
        apply Finset.sum_congr _ (fun _ _ => rfl)
        ext x; rw [Finset.mem_Ico, Finset.mem_Icc]; omega
      · rw [hin.1 i ei]; exact hI i i1 (by omega))
  exact main i h1 (by omega)

end Igakit
