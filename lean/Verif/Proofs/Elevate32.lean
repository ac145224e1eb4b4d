import Verif.Model.Elevate32
import Verif.Proofs.ElevBez
import Verif.Proofs.ElevTop
import Mathlib.Data.Nat.Choose.Vandermonde
import Mathlib.Data.Nat.Choose.Bounds

/-!
# Binomial coefficients in 32 bits: supporting lemmas
-/

set_option linter.unusedSectionVars false

namespace Igakit
open Spec Finset

variable {K : Type*} [Field K] [LinearOrder K] [IsStrictOrderedRing K]
variable {E : Type*} [AddCommGroup E] [Module K E]

theorem wrap32_eq {z : ℤ} (h : In32 z) : wrap32 z = z := by
  unfold In32 at h
  unfold wrap32
  omega

theorem wrap32_in (z : ℤ) : In32 (wrap32 z) := by
  unfold In32 wrap32
  omega

/-- the products of `Bin(n, k)` fit in 32 bits when `n ≤ 29` -/
theorem choose_small {n c : ℕ} (hn : n ≤ 29) (h : 2 * c < n) : n.choose c * (n - c) < 2 ^ 31 := by
  have : ∀ n ≤ 29, ∀ c, 2 * c < n → n.choose c * (n - c) < 2 ^ 31 := by
    intro n hn c hc
    have h2 : c ≤ 14 := by omega
    interval_cases n <;> interval_cases c <;> first | omega | decide +kernel
  exact this n hn c h

theorem choose_prod_small {p t i j : ℕ} (h : p + t ≤ 30) (hi : j ≤ i) (hj : i ≤ p + t) :
    p.choose j * t.choose (i - j) < 2 ^ 31 := by
  have h1 : p.choose j * t.choose (i - j) ≤ (p + t).choose i := by
    rw [Nat.add_choose_eq]
    exact Finset.single_le_sum (f := fun ij : ℕ × ℕ => p.choose ij.1 * t.choose ij.2) (fun _ _ => Nat.zero_le _)
      (Finset.mem_antidiagonal.mpr (by show j + (i - j) = i; omega) : (j, i - j) ∈ Finset.antidiagonal i)
  have h2 : (p + t).choose i ≤ 2 ^ 30 :=
    le_trans (Nat.choose_le_two_pow _ _) (Nat.pow_le_pow_right (by norm_num) h)
  omega

/-- one step of `Bin` on exact values -/
theorem bin_step {n i : ℕ} (h : i ≤ n) :
    Int.tdiv (((n.choose i : ℕ) : ℤ) * ((n : ℤ) - i)) ((i : ℤ) + 1) = (n.choose (i + 1) : ℕ) := by
  have e := Nat.choose_succ_right_eq n i
  rw [show (n : ℤ) - i = ((n - i : ℕ) : ℤ) by omega, ← Nat.cast_mul, ← e]
  push_cast
  exact Int.mul_tdiv_cancel _ (by omega)

theorem bin_loop32 {n c : ℕ} (hc : c ≤ n) (h : ∀ i < c, n.choose i * (n - i) < 2 ^ 31) :
    forUp 0 ((c : ℤ) - 1) (fun i C => Int.tdiv (wrap32 (C * ((n : ℤ) - i))) (i + 1)) 1 = (n.choose c : ℕ) := by
  have := forUp_inv (f := fun i C => Int.tdiv (wrap32 (C * ((n : ℤ) - i))) (i + 1)) (lo := 0) (hi := (c : ℤ) - 1)
    (s := 1) (I := fun i C => C = (n.choose i.toNat : ℕ)) (by omega) (by simp)
    (by
      rintro i C h1 h2 rfl
      obtain ⟨i, rfl⟩ := Int.eq_ofNat_of_zero_le h1
      have h3 := h i (by omega)
      rw [Int.toNat_natCast, wrap32_eq, bin_step (by omega), show (((i : ℤ) + 1).toNat) = i + 1 by omega]
      rw [show (n : ℤ) - i = ((n - i : ℕ) : ℤ) by omega, ← Nat.cast_mul]
      unfold In32
      omega)
  rw [sub_add_cancel] at this
  rw [this]; simp

theorem bin_loopC {n c : ℕ} (hc : c ≤ n) (h : ∀ i < c, n.choose i * (n - i) < 2 ^ 31) :
    forUp 0 ((c : ℤ) - 1) (fun i (o : Option ℤ) => o.bind fun C =>
      if In32 (C * ((n : ℤ) - i)) then some (Int.tdiv (C * ((n : ℤ) - i)) (i + 1)) else none) (some 1) =
      some (n.choose c : ℕ) := by
  have := forUp_inv (f := fun i (o : Option ℤ) => o.bind fun C =>
      if In32 (C * ((n : ℤ) - i)) then some (Int.tdiv (C * ((n : ℤ) - i)) (i + 1)) else none) (lo := 0) (hi := (c : ℤ) - 1)
    (s := some 1) (I := fun i C => C = some ((n.choose i.toNat : ℕ) : ℤ)) (by omega) (by simp)
    (by
      rintro i C h1 h2 rfl
      obtain ⟨i, rfl⟩ := Int.eq_ofNat_of_zero_le h1
      have h3 := h i (by omega)
      rw [Int.toNat_natCast, Option.bind_some, if_pos, bin_step (by omega), show (((i : ℤ) + 1).toNat) = i + 1 by omega]
      rw [show (n : ℤ) - i = ((n - i : ℕ) : ℤ) by omega, ← Nat.cast_mul]
      unfold In32
      omega)
  rw [sub_add_cancel] at this
  rw [this]; simp

theorem elevBin32_eq {n k : ℕ} (hn : n ≤ 29) (h : k ≤ n) : elevBin32 n k = (n.choose k : ℕ) := by
  unfold elevBin32
  by_cases h2 : k ≤ n - k
  · rw [show min (k : ℤ) (n - k) = (k : ℕ) by omega, bin_loop32 h (fun i hi => choose_small hn (by omega))]
  · rw [show min (k : ℤ) (n - k) = ((n - k : ℕ) : ℤ) by omega,
      bin_loop32 (by omega) (fun i hi => choose_small hn (by omega)), Nat.choose_symm h]

theorem elevBinC_eq {n k : ℕ} (hn : n ≤ 29) (h : k ≤ n) : elevBinC n k = some (n.choose k : ℕ) := by
  unfold elevBinC
  by_cases h2 : k ≤ n - k
  · rw [show min (k : ℤ) (n - k) = (k : ℕ) by omega, bin_loopC h (fun i hi => choose_small hn (by omega))]
  · rw [show min (k : ℤ) (n - k) = ((n - k : ℕ) : ℤ) by omega,
      bin_loopC (by omega) (fun i hi => choose_small hn (by omega)), Nat.choose_symm h]

theorem elevBinC_none {n k : ℕ} (h1 : 15 ≤ k) (h2 : k + 15 ≤ n) : elevBinC n k = none := by
  unfold elevBinC
  have hbig : 2 ^ 31 ≤ n.choose 14 * (n - 14) := by
    calc 2 ^ 31 ≤ Nat.choose 30 14 * (30 - 14) := by decide +kernel
      _ ≤ _ := Nat.mul_le_mul (Nat.choose_le_choose 14 (by omega)) (by omega)
  have := forUp_inv (f := fun i (o : Option ℤ) => o.bind fun C =>
      if In32 (C * ((n : ℤ) - i)) then some (Int.tdiv (C * ((n : ℤ) - i)) (i + 1)) else none) (lo := 0)
    (hi := min (k : ℤ) (n - k) - 1)
    (s := some 1) (I := fun i C => C = none ∨ (i ≤ 14 ∧ C = some ((n.choose i.toNat : ℕ) : ℤ))) (by omega) (by simp)
    (by
      rintro i C h1 h2 (rfl | ⟨h3, rfl⟩)
      · left; rfl
      · obtain ⟨i, rfl⟩ := Int.eq_ofNat_of_zero_le h1
        rw [Int.toNat_natCast, Option.bind_some]
        by_cases hi : i = 14
        · subst hi
          left
          rw [if_neg]
          rw [show (n : ℤ) - (14 : ℕ) = ((n - 14 : ℕ) : ℤ) by omega, ← Nat.cast_mul]
          unfold In32
          omega
        · by_cases hin : In32 (((n.choose i : ℕ) : ℤ) * ((n : ℤ) - i))
          · right
            rw [if_pos hin, bin_step (by omega), show (((i : ℤ) + 1).toNat) = i + 1 by omega]
            exact ⟨by omega, rfl⟩
          · left; rw [if_neg hin])
  rw [sub_add_cancel] at this
  rcases this with h | ⟨h, -⟩
  · exact h
  · omega

/-- the table is right up to final degree 29 -/
theorem elevBez32_eq (jb : ℤ → ℤ → K) {p t : ℤ} (hp : 0 ≤ p) (ht : 0 ≤ t) (h : p + t ≤ 29) :
    elevBez32 jb p t = elevBez jb p t := by
  obtain ⟨p, rfl⟩ := Int.eq_ofNat_of_zero_le hp
  obtain ⟨t, rfl⟩ := Int.eq_ofNat_of_zero_le ht
  unfold elevBez32 elevBez
  dsimp only
  congr 1
  refine forUp_congr fun i s h1 h2 => forUp_congr fun j s' h3 h4 => ?_
  obtain ⟨i, rfl⟩ := Int.eq_ofNat_of_zero_le (by omega : 0 ≤ i)
  obtain ⟨j, rfl⟩ := Int.eq_ofNat_of_zero_le (by omega : 0 ≤ j)
  have e : (i : ℤ) - j = ((i - j : ℕ) : ℤ) := by omega
  have hs := choose_prod_small (p := p) (t := t) (i := i) (j := j) (by omega) (by omega) (by omega)
  rw [e, ← Nat.cast_add, elevBin32_eq (by omega) (by omega), elevBin32_eq (by omega) (by omega),
    elevBin32_eq (by omega) (by omega), elevBin_eq (by omega), elevBin_eq (by omega), elevBin_eq (by omega), wrap32_eq]
  · push_cast; rfl
  · rw [← Nat.cast_mul]; unfold In32; omega

/-- the wrong denominator -/
theorem elevBin32_30 : elevBin32 30 15 = -131213633 := by decide +kernel

/-- row 15 of the table for final degree 30 -/
theorem elevBez32_row (jb : ℤ → ℤ → K) {p t j : ℕ} (hp : 1 ≤ p) (ht : 1 ≤ t) (h : p + t = 30) (h1 : 15 ≤ j + t) (h2 : j ≤ p)
    (h3 : j ≤ 15) :
    elevBez32 jb p t 15 j = -((p.choose j * t.choose (15 - j) : ℕ) / 131213633 : K) := by
  set z0 : ℤ → ℤ → K := upd2 (upd2 jb 0 0 1) ((p : ℤ) + t) p 1 with hz0
  set v : ℤ → ℤ → K := fun i j => (wrap32 (elevBin32 p j * elevBin32 t (i - j)) : ℤ) / ((elevBin32 ((p : ℤ) + t) i : ℤ) : K) with hv
  have hph : (p : ℤ) + t = 30 := by omega
  have hs1 := forUp_inv (f := fun i bz =>
    forUp (max 0 (i - (t : ℤ))) (min (p : ℤ) i) (fun j bz => upd2 bz i j (v i j)) bz) (lo := 1)
      (hi := ((p : ℤ) + t) / 2) (s := z0)
    (I := fun m z => 15 < m → z 15 j = v 15 j) (by omega) (by intro h; omega)
    (by
      intro m z b1 b2 hI hm
      have hrow := fillRow z m (max 0 (m - (t : ℤ))) (min (p : ℤ) m) (fun _ j => v m j) (fun _ _ _ => rfl)
      rw [hrow, if_pos (by omega), show m = 15 by omega]) (by omega)
  have hs2 := forUp_inv (f := fun i bz =>
    forUp (max 0 (i - (t : ℤ))) (min (p : ℤ) i) (fun j bz => upd2 bz i j
      (bz ((p : ℤ) + t - i) (p - j))) bz) (lo := ((p : ℤ) + t) / 2 + 1)
      (hi := ((p : ℤ) + t) - 1)
      (s := forUp 1 (((p : ℤ) + t) / 2) (fun i bz =>
        forUp (max 0 (i - (t : ℤ))) (min (p : ℤ) i) (fun j bz => upd2 bz i j (v i j)) bz) z0)
    (I := fun m z => z 15 j = v 15 j) (by omega) hs1
    (by
      intro m z b1 b2 hI
      have hrow := fillRow z m (max 0 (m - (t : ℤ))) (min (p : ℤ) m)
        (fun z j => z ((p : ℤ) + t - m) (p - j)) (fun B hB j => hB _ _ (by omega))
      rw [hrow, if_neg (by omega)]; exact hI)
  refine Eq.trans hs2 ?_
  simp only [hv]
  have hsm := choose_prod_small (p := p) (t := t) (i := 15) (j := j) (by omega) (by omega) (by omega)
  rw [show (15 : ℤ) - j = ((15 - j : ℕ) : ℤ) by omega, elevBin32_eq (by omega) (by omega), elevBin32_eq (by omega) (by omega),
    hph, elevBin32_30, wrap32_eq]
  · push_cast
    rw [div_neg]
  · rw [← Nat.cast_mul]; unfold In32; omega

/-- the elevated Bezier points for any table -/
theorem elevPts_sum (bz : ℤ → ℤ → K) {p t : ℕ} (bp eb : ℤ → E) {lbz : ℤ} {i : ℕ} (hl : 0 ≤ lbz)
    (h1 : lbz ≤ i) (h2 : i ≤ p + t) :
    elevPts bz p t lbz bp eb i = ∑ l ∈ Ico (i - t) (min p i + 1), bz i l • bp l := by
  have main := forUp_inv (f := fun i (e : ℤ → E) =>
    forUp (max 0 (i - (t : ℤ))) (min (p : ℤ) i) (fun j e => upd e i (e i + bz i j • bp j)) (upd e i 0))
    (lo := lbz) (hi := (p : ℤ) + t) (s := eb)
    (I := fun m e => ∀ i : ℕ, lbz ≤ i → (i : ℤ) < m → e i = ∑ l ∈ Ico (i - t) (min p i + 1), bz i l • bp l)
    (by omega) (by intro i a b; omega)
    (by
      intro m e b1 b2 hI i i1 i2
      obtain ⟨m, rfl⟩ := Int.eq_ofNat_of_zero_le (by omega : 0 ≤ m)
      have hin := forUp_inv (f := fun j (e : ℤ → E) => upd e (m : ℤ) (e m + bz m j • bp j))
        (lo := max 0 ((m : ℤ) - t)) (hi := min (p : ℤ) m) (s := upd e (m : ℤ) 0)
        (I := fun j e' => (∀ x, x ≠ (m : ℤ) → e' x = e x) ∧ e' m = ∑ l ∈ Ico (m - t) j.toNat, bz m l • bp l)
        (by omega)
        (by
          refine ⟨fun x hx => upd_ne _ _ hx, ?_⟩
          rw [upd_same, Finset.Ico_eq_empty (by omega)]; simp)
        (by
          rintro j e' j1 j2 ⟨g1, g2⟩
          obtain ⟨j, rfl⟩ := Int.eq_ofNat_of_zero_le (by omega : 0 ≤ j)
          refine ⟨fun x hx => by rw [upd_ne _ _ hx, g1 x hx], ?_⟩
          rw [upd_same, g2, show ((j : ℤ) + 1).toNat = j + 1 by omega, Int.toNat_natCast,
            Finset.sum_Ico_succ_top (by omega)])
      by_cases ei : i = m
      · subst ei
        rw [hin.2]
        apply Finset.sum_congr _ (fun _ _ => rfl)
        ext x; rw [Finset.mem_Ico, Finset.mem_Ico]; omega
      · rw [hin.1 i (by omega)]; exact hI i i1 (by omega))
  exact main i h1 (by omega)

/-- what two runs with different tables share -/
def ElevAgree (s s' : ElevSt K E) : Prop :=
  s'.a = s.a ∧ s'.b = s.b ∧ s'.r = s.r ∧ s'.kind = s.kind ∧ s'.ua = s.ua ∧ s'.Uh = s.Uh

theorem elevStep_agree (eps : K) (bz bz' : ℤ → ℤ → K) (n p t : ℤ) (U : ℤ → K) (P : ℤ → E) {s s' : ElevSt K E}
    (h : ElevAgree s s') : ElevAgree (elevStep eps bz n p t U P s) (elevStep eps bz' n p t U P s') := by
  obtain ⟨h1, h2, h3, h4, h5, h6⟩ := h
  unfold elevStep ElevAgree
  dsimp only
  rw [h1, h2, h3, h4, h5, h6]
  split_ifs <;> exact ⟨rfl, rfl, rfl, rfl, rfl, rfl⟩

/-- the knots do not depend on the table -/
theorem elevLoop_agree (eps : K) (bz bz' : ℤ → ℤ → K) (n p t : ℤ) (U : ℤ → K) (P : ℤ → E) (fuel : ℕ) :
    ∀ {s s' : ElevSt K E}, ElevAgree s s' →
      ElevAgree (elevLoop eps bz n p t U P fuel s) (elevLoop eps bz' n p t U P fuel s') := by
  induction fuel with
  | zero => intro s s' h; exact h
  | succ k ih =>
    intro s s' h
    unfold elevLoop
    rw [h.2.1]
    split_ifs
    · exact ih (elevStep_agree eps bz bz' n p t U P h)
    · exact h

theorem degreeElevate32_knots (eps : K) (jk : ℤ → K) (je : ℤ → E) (jb : ℤ → ℤ → K) (n p : ℤ) (U : ℤ → K) (P : ℤ → E)
    (t : ℤ) : (degreeElevate32 eps jk je jb n p U P t).1 = (degreeElevate eps jk je jb n p U P t).1 := by
  unfold degreeElevate32 degreeElevate
  split_ifs
  · rfl
  · exact (elevLoop_agree eps _ _ n p t U P _ ⟨rfl, rfl, rfl, rfl, rfl, rfl⟩).2.2.2.2.2

theorem degreeElevate32_eq (eps : K) (jk : ℤ → K) (je : ℤ → E) (jb : ℤ → ℤ → K) (n : ℤ) {p t : ℤ} (U : ℤ → K) (P : ℤ → E)
    (hp : 0 ≤ p) (h : p + t ≤ 29) : degreeElevate32 eps jk je jb n p U P t = degreeElevate eps jk je jb n p U P t := by
  unfold degreeElevate32 degreeElevate
  split_ifs with ht
  · rfl
  · rw [elevBez32_eq jb hp (by omega) h]

/-- filling consecutive entries -/
theorem fillNext (f : ℤ → E) (Q : ℤ → E) (lo hi c : ℤ) (i : ℤ) (h1 : lo ≤ i) (h2 : i ≤ hi) :
    (forUp lo hi (fun j (Qc : (ℤ → E) × ℤ) => (upd Qc.1 Qc.2 (f j), Qc.2 + 1)) (Q, c)).1 (c + (i - lo)) = f i := by
  have := forUp_inv (f := fun j (Qc : (ℤ → E) × ℤ) => (upd Qc.1 Qc.2 (f j), Qc.2 + 1)) (lo := lo) (hi := hi) (s := (Q, c))
    (I := fun m s => s.2 = c + (m - lo) ∧ ∀ i, lo ≤ i → i < m → s.1 (c + (i - lo)) = f i) (by omega)
    ⟨by simp, by intro i a b; omega⟩
    (by
      rintro m s b1 b2 ⟨g1, g2⟩
      refine ⟨by dsimp only; omega, ?_⟩
      intro i i1 i2
      dsimp only
      by_cases e : i = m
      · subst e; rw [g1, upd_same]
      · rw [g1, upd_ne _ _ (by omega)]; exact g2 i i1 (by omega))
  exact this.2 i h1 (by omega)

/-- one span: the new control points are the Bezier points -/
theorem degreeElevate32_bezier {eps : K} (heps : 0 ≤ eps) (jk : ℤ → K) (je : ℤ → E) (jb : ℤ → ℤ → K) {p t : ℕ} {U : ℤ → K}
    (P : ℤ → E) (hp : 1 ≤ p) (ht : 1 ≤ t) (hr : ClampedR p p U) {i : ℕ} (h1 : 1 ≤ i) (h2 : i ≤ p + t) :
    (degreeElevate32 eps jk je jb p p U P t).2 i = ∑ l ∈ Ico (i - t) (min p i + 1), elevBez32 jb p t i l • P l := by
  unfold degreeElevate32
  rw [if_neg (by omega)]
  dsimp only
  obtain ⟨f, hf⟩ : ∃ f, ((p : ℤ) + p + 1).toNat = f + 2 := ⟨2 * p - 1, by omega⟩
  rw [hf]
  unfold elevLoop
  dsimp only
  rw [if_pos (by omega)]
  have hb : elevRun eps ((p : ℤ) + p + 1) U ((p : ℤ) + p + 1 - (p + 1)).toNat (p + 1) = p + p + 1 := by
    apply elevRun_spec heps (by omega) le_rfl
    · intro j j1 j2
      rw [hr j (by omega) (by omega), hr ((p : ℤ) + p + 1) (by omega) (by omega)]
    · omega
    · exact le_rfl
  have e0 : ¬ ((p : ℤ) - (p + p + 1 - (p + 1) + 1) > 0) := by omega
  have e1 : ¬ ((-1 : ℤ) > 0) := by omega
  have e2 : ¬ ((-1 : ℤ) > 1) := by omega
  have h := fillNext (elevPts (elevBez32 jb p t) p t 1 (fillRange je 0 p 0 P) je) (upd je 0 (P 0)) 1 ((p : ℤ) + t) 1 i
    (by omega) (by omega)
  rw [show (1 : ℤ) + (i - 1) = i by ring] at h
  unfold elevStep elevRem
  dsimp only
  rw [hb]
  simp only [if_neg (lt_irrefl ((p : ℤ) + p + 1)), if_neg e0, if_neg e1, if_neg e2]
  unfold elevLoop
  dsimp only
  rw [if_neg (lt_irrefl ((p : ℤ) + p + 1))]
  refine h.trans ?_
  rw [elevPts_sum _ _ _ (by omega) (by omega) h2]
  refine Finset.sum_congr rfl fun l hl => ?_
  rw [Finset.mem_Ico] at hl
  unfold fillRange
  rw [if_pos (by omega), sub_zero]

/-- the sum of the coefficients of row 15 -/
theorem elevBez32_row_sum (jb : ℤ → ℤ → K) {p t : ℕ} (hp : 1 ≤ p) (ht : 1 ≤ t) (h : p + t = 30) :
    ∑ l ∈ Ico (15 - t) (min p 15 + 1), elevBez32 jb p t 15 l = -(155117520 / 131213633 : K) := by
  have hv := Nat.add_choose_eq p t 15
  rw [Finset.Nat.sum_antidiagonal_eq_sum_range_succ (fun a b => p.choose a * t.choose b)] at hv
  rw [h, show Nat.choose 30 15 = 155117520 by decide +kernel] at hv
  have hs : ∑ l ∈ Ico (15 - t) (min p 15 + 1), p.choose l * t.choose (15 - l) = 155117520 := by
    rw [hv]
    apply Finset.sum_subset
    · intro l hl
      rw [Finset.mem_Ico] at hl
      rw [Finset.mem_range]; omega
    · intro l hl hn
      rw [Finset.mem_range] at hl
      rw [Finset.mem_Ico] at hn
      rcases Nat.lt_or_ge p l with h' | h'
      · rw [Nat.choose_eq_zero_of_lt h', zero_mul]
      · rw [Nat.choose_eq_zero_of_lt (by omega : t < 15 - l), mul_zero]
  have hc : ∀ l ∈ Ico (15 - t) (min p 15 + 1), elevBez32 jb p t 15 l =
      -((p.choose l * t.choose (15 - l) : ℕ) / 131213633 : K) := by
    intro l hl
    rw [Finset.mem_Ico] at hl
    exact elevBez32_row jb hp ht h (by omega) (by omega) (by omega)
  rw [Finset.sum_congr rfl hc, Finset.sum_neg_distrib, ← Finset.sum_div, ← Nat.cast_sum, hs]
  norm_num

end Igakit
