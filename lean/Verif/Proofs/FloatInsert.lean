import Verif.Proofs.FloatEval
import Verif.Proofs.Hull
import Verif.Props.Insert

/-! # Rounding errors of `InsertKnot` -/

set_option linter.unusedSectionVars false

namespace Igakit
open Spec

variable {K : Type} [Field K] [LinearOrder K] [IsStrictOrderedRing K]

namespace Fp

/-- one step of corner cutting -/
def cutF (rd : K → K) (u a b : K) (x y : Fp K) : Fp K :=
  let alpha := div rd (sub rd (some u) (some a)) (sub rd (some b) (some a))
  add rd (mul rd alpha x) (mul rd (sub rd (some 1) alpha) y)

section sim

variable {rd : K → K} {Rel : ℕ → Fp K → K → Prop} (hmono : ∀ m a x, Rel m a x → Rel (m + 1) a x)
  (hstep : ∀ m u a b xF x yF y, a ≤ u → u < b → Rel m xF x → Rel m yF y →
    Rel (m + 1) (cutF rd u a b xF yF) ((u - a) / (b - a) * x + (1 - (u - a) / (b - a)) * y))
include hmono hstep

theorem cutPass_rel {ι : Type} (c : ι) {U : ℤ → K} {uu : K} {k idx hi top : ℤ} (htop : hi + 1 ≤ top)
    (hU : ∀ i, 0 ≤ i → i ≤ hi → U (idx + i) ≤ uu ∧ uu < U (i + k + 1)) {m : ℕ} {RF : ℤ → ι → Fp K} {R : ℤ → ι → K}
    (h : ∀ i, 0 ≤ i → i ≤ top → Rel m (RF i c) (R i c)) :
    ∀ i, 0 ≤ i → i ≤ top → Rel (m + 1) (Fp.cutPass rd U uu k idx hi RF i c) (Igakit.cutPass U uu k idx hi R i c) := by
  by_cases hh : -1 ≤ hi
  · have key := forUp_rel (fun i (s : ℤ → ι → Fp K) (t : ℤ → ι → K) =>
        (∀ l, 0 ≤ l → l < i → Rel (m + 1) (s l c) (t l c)) ∧ (∀ l, i ≤ l → l ≤ top → Rel m (s l c) (t l c)))
      (lo := 0) (hi := hi) (s := RF) (t := R)
      (f := fun i (Rw : ℤ → ι → Fp K) =>
        let alpha := div rd (sub rd (some uu) (some (U (idx + i)))) (sub rd (some (U (i + k + 1))) (some (U (idx + i))))
        upd Rw i (fun c => add rd (mul rd alpha (Rw (i + 1) c)) (mul rd (sub rd (some 1) alpha) (Rw i c))))
      (g := fun i (Rw : ℤ → ι → K) =>
        let alpha := (uu - U (idx + i)) / (U (i + k + 1) - U (idx + i))
        upd Rw i (alpha • Rw (i + 1) + (1 - alpha) • Rw i)) (by omega)
      ⟨fun l a b => by omega, fun l a b => h l a b⟩ ?_
    · intro i a b
      by_cases hi' : i ≤ hi
      · exact key.1 i a (by omega)
      · exact hmono _ _ _ (key.2 i (by omega) b)
    · rintro i s t a b ⟨k1, k2⟩
      obtain ⟨u1, u2⟩ := hU i a b
      refine ⟨fun l l0 l1 => ?_, fun l l0 l1 => ?_⟩
      · dsimp only
        by_cases e : l = i
        · rw [upd_eq _ _ e, upd_eq _ _ e]
          exact hstep m uu (U (idx + i)) (U (i + k + 1)) _ _ _ _ u1 u2 (k2 (i + 1) (by omega) (by omega))
            (k2 i le_rfl (by omega))
        · rw [upd_ne _ _ e, upd_ne _ _ e]
          exact k1 l l0 (by omega)
      · dsimp only
        rw [upd_ne _ _ (by omega), upd_ne _ _ (by omega)]
        exact k2 l (by omega) l1
  · intro i a b
    unfold Fp.cutPass Igakit.cutPass
    rw [forUp_empty (by omega), forUp_empty (by omega)]
    exact hmono _ _ _ (h i a b)

theorem insertKnotQ_rel {ι : Type} (c : ι) (jeF : ℤ → ι → Fp K) (je : ℤ → ι → K) {n : ℤ} {p : ℕ} {U : ℤ → K} (hv : ValidKnots n p U)
    {P : ℤ → ι → K} (hP : ∀ i, 0 ≤ i → i ≤ n → Rel 0 (some (P i c)) (P i c)) {uu : K} {k s r : ℤ} (hs : 0 ≤ s) (hr : 1 ≤ r)
    (hrs : r + s ≤ p) (hk : (p : ℤ) ≤ k) (hkn : k ≤ n) (h1 : U k ≤ uu) (h2 : uu < U (k + 1)) :
    ∀ i, 0 ≤ i → i ≤ n + r → Rel r.toNat (Fp.insertKnotQ rd jeF n p U P uu k s r i c)
      (Igakit.insertKnotQ je n p U P uu k s r i c) := by
  have hp := hv.one_le
  have hup : ∀ m m' a x, m ≤ m' → Rel m a x → Rel m' a x := by
    intro m m' a x h hr
    induction m', h using Nat.le_induction with
    | base => exact hr
    | succ q _ ih => exact hmono _ _ _ ih
  -- the loop over the insertions
  have key := forUp_rel (fun j (s' : (ℤ → ι → Fp K) × (ℤ → ι → Fp K)) (t : (ℤ → ι → K) × (ℤ → ι → K)) => 1 ≤ j ∧
      (∀ i, 0 ≤ i → i ≤ p - s → Rel (j - 1).toNat (s'.1 i c) (t.1 i c)) ∧
      (∀ i, 0 ≤ i → i ≤ n + r → (i ≤ k - p + (j - 1) ∨ k + r - (j - 1) - s ≤ i) → Rel r.toNat (s'.2 i c) (t.2 i c)))
    (lo := 1) (hi := r)
    (f := fun j (RQ : (ℤ → ι → Fp K) × (ℤ → ι → Fp K)) =>
      let idx := k - p + j
      let Rw := Fp.cutPass rd U uu k idx (p - j - s) RQ.1
      let Qw := upd RQ.2 idx (Rw 0)
      let Qw := upd Qw (k + r - j - s) (Rw (p - j - s))
      (Rw, Qw))
    (g := fun j (RQ : (ℤ → ι → K) × (ℤ → ι → K)) =>
      let idx := k - p + j
      let Rw := Igakit.cutPass U uu k idx (p - j - s) RQ.1
      let Qw := upd RQ.2 idx (Rw 0)
      let Qw := upd Qw (k + r - j - s) (Rw (p - j - s))
      (Rw, Qw))
    (s := (fillRange jeF 0 (p - s) 0 (fun i c => some (P (k - p + i) c)),
      fillRange (fillRange jeF 0 (k - p) 0 (fun i c => some (P i c))) (k - s) n r (fun i c => some (P i c))))
    (t := (fillRange je 0 (p - s) 0 (fun i => P (k - p + i)),
      fillRange (fillRange je 0 (k - p) 0 (fun i => P i)) (k - s) n r (fun i => P i)))
    (by omega) ⟨le_rfl, fun i a b => ?_, fun i a b d => ?_⟩ ?_
  · -- the remaining points
    unfold Fp.insertKnotQ Igakit.insertKnotQ
    dsimp only
    obtain ⟨-, kR, kQ⟩ := key
    generalize forUp 1 r _ (fillRange jeF 0 (p - s) 0 _, _) = sF at *
    generalize forUp 1 r _ (fillRange je 0 (p - s) 0 _, _) = sE at *
    by_cases hle : k - s - 1 < k - p + r + 1
    · rw [forUp_empty hle, forUp_empty hle]
      intro i a b
      exact kQ i a b (by omega)
    have k2 := forUp_rel (fun i' (x : ℤ → ι → Fp K) (y : ℤ → ι → K) => ∀ i, 0 ≤ i → i ≤ n + r →
        (i < i' ∨ k - s ≤ i) → Rel r.toNat (x i c) (y i c)) (lo := k - p + r + 1) (hi := k - s - 1)
      (f := fun i Qw => upd Qw i (sF.1 (i - (k - p + r)))) (g := fun i Qw => upd Qw i (sE.1 (i - (k - p + r))))
      (s := sF.2) (t := sE.2) (by omega) (fun i a b d => kQ i a b (by omega))
      (fun i' x y a b ih i i0 i1 d => by
        by_cases e : i = i'
        · rw [upd_eq _ _ e, upd_eq _ _ e]
          have := kR (i' - (k - p + r)) (by omega) (by omega)
          rwa [show (r + 1 - 1).toNat = r.toNat by omega] at this
        · rw [upd_ne _ _ e, upd_ne _ _ e]
          exact ih i i0 i1 (by omega))
    intro i a b
    exact k2 i a b (by omega)
  · dsimp only
    rw [fillRange_in _ _ _ _ _ (by omega) (by omega), fillRange_in _ _ _ _ _ (by omega) (by omega)]
    exact hup 0 _ _ _ (by omega) (hP _ (by omega) (by omega))
  · dsimp only
    by_cases hc : k - s + r ≤ i
    · rw [fillRange_in _ _ _ _ _ (by omega) (by omega), fillRange_in _ _ _ _ _ (by omega) (by omega)]
      exact hup 0 _ _ _ (by omega) (hP _ (by omega) (by omega))
    · rw [fillRange_out _ _ _ _ _ (by omega), fillRange_in _ _ _ _ _ (by omega) (by omega),
        fillRange_out _ _ _ _ _ (by omega), fillRange_in _ _ _ _ _ (by omega) (by omega)]
      exact hup 0 _ _ _ (by omega) (hP _ (by omega) (by omega))
  · rintro j s' t a b ⟨-, kR, kQ⟩
    have hR := cutPass_rel hmono hstep c (U := U) (uu := uu) (k := k) (idx := k - p + j) (hi := p - j - s) (top := p - s)
      (by omega) (fun i i0 i1 => ⟨(hv.sorted (k - p + j + i) k (by omega) (by omega) (by omega)).trans h1,
        h2.trans_le (hv.sorted (k + 1) (i + k + 1) (by omega) (by omega) (by omega))⟩) kR
    have e1 : (j - 1).toNat + 1 = (j + 1 - 1).toNat := by omega
    rw [e1] at hR
    refine ⟨by omega, hR, fun i i0 i1 d => ?_⟩
    dsimp only
    by_cases e : i = k + r - j - s
    · rw [upd_eq _ _ e, upd_eq _ _ e]
      exact hup _ _ _ _ (by omega) (hR _ (by omega) (by omega))
    · rw [upd_ne _ _ e, upd_ne _ _ e]
      by_cases e' : i = k - p + j
      · rw [upd_eq _ _ e', upd_eq _ _ e']
        exact hup _ _ _ _ (by omega) (hR _ (by omega) (by omega))
      · rw [upd_ne _ _ e', upd_ne _ _ e']
        exact kQ i i0 i1 (by omega)

end sim

section err

variable {δ : K} {rd : K → K} (h0 : 0 ≤ δ) (h1 : δ < 1) (hr : RelErr δ rd)
include h0 h1

/-- a number of size at most `A`, after `m` roundings -/
def Err (δ A : K) (m : ℕ) (a : Fp K) (y : K) : Prop :=
  ∃ x, a = some x ∧ |x - y| ≤ (growth δ ^ m - 1) * A ∧ |y| ≤ A

theorem Err.mono {A : K} {m m' : ℕ} (h : m ≤ m') {a : Fp K} {y : K} (ha : Err δ A m a y) : Err δ A m' a y := by
  obtain ⟨x, e, h2, h3⟩ := ha
  exact ⟨x, e, h2.trans (mul_le_mul_of_nonneg_right (growth_sub h0 h1 h) ((abs_nonneg _).trans h3)), h3⟩

include hr

theorem Err.cut {A : K} {m : ℕ} {u a b : K} (hab : a ≤ u) (hub : u ≤ b) (hlt : a < b) {xF yF : Fp K} {x y : K}
    (hx : Err δ A m xF x) (hy : Err δ A m yF y) :
    Err δ A (m + 8) (cutF rd u a b xF yF) ((u - a) / (b - a) * x + (1 - (u - a) / (b - a)) * y) := by
  obtain ⟨x', rfl, ex, bx⟩ := hx
  obtain ⟨y', rfl, ey, yb⟩ := hy
  have hα := (Close.sub h0 h1 hr hab).div h0 h1 hr (Close.sub h0 h1 hr hlt.le) (by linarith)
  obtain ⟨al, eal, al0, α0, hn⟩ := hα
  have α1 : (u - a) / (b - a) ≤ 1 := by
    rw [div_le_one (by linarith)]
    linarith
  generalize (u - a) / (b - a) = α at *
  unfold cutF
  dsimp only
  rw [eal]
  have hρ := one_le_growth h0 h1
  have hl := le_growth h0 h1
  have hga := hn.abs hρ α0
  have hal := hn.1
  norm_num at hga hal
  set ρ := growth δ with hρd
  have hA : 0 ≤ A := (abs_nonneg _).trans bx
  have hm : 1 ≤ ρ ^ m := growth_pow h0 h1 m
  have h3 : 1 ≤ ρ ^ 3 := growth_pow h0 h1 3
  -- the two factors
  set be := rd (1 - al) with hbe
  have hη : |be - (1 - α)| ≤ ρ * (ρ ^ 3 - 1) * α + (ρ - 1) * (1 - α) := by
    have e1 : |1 - al| ≤ (1 - α) + (ρ ^ 3 - 1) * α := by
      calc |1 - al| = |(1 - α) - (al - α)| := by ring_nf
        _ ≤ |1 - α| + |al - α| := abs_sub _ _
        _ ≤ _ := by
          rw [abs_of_nonneg (by linarith : 0 ≤ 1 - α)]
          linarith
    have e2 : |be - (1 - al)| ≤ δ * ((1 - α) + (ρ ^ 3 - 1) * α) := (hr _).trans (mul_le_mul_of_nonneg_left e1 h0)
    have e3 : |be - (1 - α)| ≤ |be - (1 - al)| + |al - α| := by
      calc |be - (1 - α)| = |(be - (1 - al)) - (al - α)| := by ring_nf
        _ ≤ _ := abs_sub _ _
    have e4 : 0 ≤ (ρ ^ 3 - 1) * α := mul_nonneg (by linarith) α0
    have e5 : (1 + δ) * ((ρ ^ 3 - 1) * α) ≤ ρ * ((ρ ^ 3 - 1) * α) := mul_le_mul_of_nonneg_right hl e4
    have e6 : δ * (1 - α) ≤ (ρ - 1) * (1 - α) := mul_le_mul_of_nonneg_right (by linarith) (by linarith)
    nlinarith
  set η := |be - (1 - α)| with hηd
  have hη0 : 0 ≤ η := abs_nonneg _
  have hbeta : |be| ≤ (1 - α) + η := by
    calc |be| = |(1 - α) + (be - (1 - α))| := by ring_nf
      _ ≤ |1 - α| + η := abs_add_le _ _
      _ = _ := by rw [abs_of_nonneg (by linarith : 0 ≤ 1 - α)]
  -- first product
  have t1 : |al * x' - α * x| ≤ (ρ ^ (m + 3) - 1) * (α * A) := by
    calc |al * x' - α * x| = |al * (x' - x) + (al - α) * x| := by ring_nf
      _ ≤ |al * (x' - x)| + |(al - α) * x| := abs_add_le _ _
      _ = al * |x' - x| + |al - α| * |x| := by rw [abs_mul, abs_mul, abs_of_nonneg al0]
      _ ≤ ρ ^ 3 * α * ((ρ ^ m - 1) * A) + (ρ ^ 3 - 1) * α * A := by
        refine add_le_add (mul_le_mul hal ex (abs_nonneg _) (by positivity)) (mul_le_mul hga bx (abs_nonneg _) ?_)
        exact mul_nonneg (by linarith) α0
      _ = _ := by rw [pow_add]; ring
  have b1 : |α * x| ≤ α * A := by
    rw [abs_mul, abs_of_nonneg α0]
    exact mul_le_mul_of_nonneg_left bx α0
  have r1 := err_rd h0 h1 hr t1 b1
  -- second product
  have t2 : |be * y' - (1 - α) * y| ≤ (1 - α) * (ρ ^ m - 1) * A + η * ρ ^ m * A := by
    calc |be * y' - (1 - α) * y| = |be * (y' - y) + (be - (1 - α)) * y| := by ring_nf
      _ ≤ |be * (y' - y)| + |(be - (1 - α)) * y| := abs_add_le _ _
      _ = |be| * |y' - y| + η * |y| := by rw [abs_mul, abs_mul]
      _ ≤ ((1 - α) + η) * ((ρ ^ m - 1) * A) + η * A :=
        add_le_add (mul_le_mul hbeta ey (abs_nonneg _) (by linarith)) (mul_le_mul_of_nonneg_left yb hη0)
      _ = _ := by ring
  have r2 : |rd (be * y') - (1 - α) * y| ≤ ρ ^ (m + 1) * ((1 - α) + η) * A - (1 - α) * A := by
    have b2 : |be * y'| ≤ ρ ^ m * ((1 - α) + η) * A := by
      have hy' : |y'| ≤ ρ ^ m * A := by
        calc |y'| = |(y' - y) + y| := by ring_nf
          _ ≤ |y' - y| + |y| := abs_add_le _ _
          _ ≤ (ρ ^ m - 1) * A + A := add_le_add ey yb
          _ = _ := by ring
      rw [abs_mul]
      calc |be| * |y'| ≤ ((1 - α) + η) * (ρ ^ m * A) := mul_le_mul hbeta hy' (abs_nonneg _) (by linarith)
        _ = _ := by ring
    have b3 := (hr (be * y')).trans (mul_le_mul_of_nonneg_left b2 h0)
    have b4 : δ * (ρ ^ m * ((1 - α) + η) * A) ≤ (ρ - 1) * (ρ ^ m * ((1 - α) + η) * A) :=
      mul_le_mul_of_nonneg_right (by linarith) (by
        have : 0 ≤ (1 - α) + η := by linarith
        positivity)
    calc |rd (be * y') - (1 - α) * y| = |(rd (be * y') - be * y') + (be * y' - (1 - α) * y)| := by ring_nf
      _ ≤ |rd (be * y') - be * y'| + |be * y' - (1 - α) * y| := abs_add_le _ _
      _ ≤ (ρ - 1) * (ρ ^ m * ((1 - α) + η) * A) + ((1 - α) * (ρ ^ m - 1) * A + η * ρ ^ m * A) :=
        add_le_add (b3.trans b4) t2
      _ = _ := by rw [pow_succ]; ring
  -- the sum
  have hy1 : |α * x + (1 - α) * y| ≤ A := by
    calc |α * x + (1 - α) * y| ≤ |α * x| + |(1 - α) * y| := abs_add_le _ _
      _ ≤ α * A + (1 - α) * A := by
        refine add_le_add b1 ?_
        rw [abs_mul, abs_of_nonneg (by linarith : 0 ≤ 1 - α)]
        exact mul_le_mul_of_nonneg_left yb (by linarith)
      _ = A := by ring
  refine ⟨rd (rd (al * x') + rd (be * y')), rfl, ?_, hy1⟩
  refine err_rd h0 h1 hr (m := m + 7) ?_ hy1
  have hsum : |rd (al * x') + rd (be * y') - (α * x + (1 - α) * y)| ≤
      (ρ ^ (m + 3 + 1) - 1) * (α * A) + (ρ ^ (m + 1) * ((1 - α) + η) * A - (1 - α) * A) := by
    rw [add_sub_add_comm]
    exact (abs_add_le _ _).trans (add_le_add r1 r2)
  refine hsum.trans ?_
  have f1 : ρ ^ (m + 1) * ((1 - α) + η) * A ≤ ρ ^ (m + 1) * (ρ * (1 - α) + ρ * (ρ ^ 3 - 1) * α) * A := by
    refine mul_le_mul_of_nonneg_right (mul_le_mul_of_nonneg_left ?_ (by positivity)) hA
    linarith
  have f2 : (ρ ^ 2 + ρ ^ 3 - 1) * α + (1 - α) ≤ ρ ^ 5 := by
    have g1 : ρ ^ 2 + ρ ^ 3 - 1 ≤ ρ ^ 5 := by
      have : 0 ≤ (ρ ^ 3 - 1) * (ρ ^ 2 - 1) := mul_nonneg (by linarith) (by nlinarith)
      nlinarith
    have g2 : 1 ≤ ρ ^ 5 := growth_pow h0 h1 5
    have g3 : (ρ ^ 2 + ρ ^ 3 - 1) * α ≤ ρ ^ 5 * α := mul_le_mul_of_nonneg_right g1 α0
    have g4 : 1 * (1 - α) ≤ ρ ^ 5 * (1 - α) := mul_le_mul_of_nonneg_right g2 (by linarith)
    linarith
  calc (ρ ^ (m + 3 + 1) - 1) * (α * A) + (ρ ^ (m + 1) * ((1 - α) + η) * A - (1 - α) * A)
      ≤ (ρ ^ (m + 3 + 1) - 1) * (α * A) + (ρ ^ (m + 1) * (ρ * (1 - α) + ρ * (ρ ^ 3 - 1) * α) * A - (1 - α) * A) := by
        linarith
    _ = (ρ ^ (m + 2) * ((ρ ^ 2 + ρ ^ 3 - 1) * α + (1 - α)) - 1) * A := by ring
    _ ≤ (ρ ^ (m + 2) * ρ ^ 5 - 1) * A := by
      refine mul_le_mul_of_nonneg_right (sub_le_sub_right (mul_le_mul_of_nonneg_left f2 (by positivity)) _) hA
    _ = _ := by rw [← pow_add]

/-- numbers between positive bounds, up to `m` roundings -/
def Box (δ lo hi : K) (m : ℕ) (a : Fp K) : Prop := ∃ x, a = some x ∧ lo ≤ growth δ ^ m * x ∧ x ≤ growth δ ^ m * hi

omit hr in
theorem Box.mono {lo hi : K} (hlo : 0 < lo) (hlh : lo ≤ hi) {m m' : ℕ} (h : m ≤ m') {a : Fp K} (ha : Box δ lo hi m a) :
    Box δ lo hi m' a := by
  obtain ⟨x, e, b1, b2⟩ := ha
  have hp : 0 < growth δ ^ m := by linarith [growth_pow h0 h1 m]
  have hle := pow_le_pow_right₀ (one_le_growth h0 h1) h
  have hx : 0 < x := by
    by_contra hc
    have := mul_nonpos_of_nonneg_of_nonpos hp.le (not_lt.mp hc)
    linarith
  exact ⟨x, e, b1.trans (mul_le_mul_of_nonneg_right hle hx.le),
    b2.trans (mul_le_mul_of_nonneg_right hle (hlo.le.trans hlh))⟩

theorem Box.cut (hmono : Monotone rd) (hone : rd 1 = 1) {lo hi : K} (hlo : 0 < lo) {m : ℕ} {u a b : K}
    (hab : a ≤ u) (hub : u ≤ b) (hlt : a < b) {xF yF : Fp K} (hx : Box δ lo hi m xF) (hy : Box δ lo hi m yF) :
    Box δ lo hi (m + 3) (cutF rd u a b xF yF) := by
  obtain ⟨x, rfl, x1, x2⟩ := hx
  obtain ⟨y, rfl, y1, y2⟩ := hy
  have hρ := one_le_growth h0 h1
  have hp : 0 < growth δ ^ m := by linarith [growth_pow h0 h1 m]
  have hpos : ∀ z, lo ≤ growth δ ^ m * z → 0 < z := by
    intro z hz
    by_contra hc
    have := mul_nonpos_of_nonneg_of_nonpos hp.le (not_lt.mp hc)
    linarith
  have hx0 := hpos x x1
  have hy0 := hpos y y1
  -- the computed factor lies between zero and one
  have hd : 0 < rd (b - a) := by
    have := (rd_near h0 h1 hr (by linarith : 0 ≤ b - a)).1
    exact this.pos hρ (by linarith)
  have hn : 0 ≤ rd (u - a) := (rd_near h0 h1 hr (by linarith : 0 ≤ u - a)).2
  set al := rd (rd (u - a) / rd (b - a)) with hal
  have al0 : 0 ≤ al := (rd_near h0 h1 hr (div_nonneg hn hd.le)).2
  have al1 : al ≤ 1 := by
    rw [← hone]
    refine hmono ?_
    rw [div_le_one hd]
    exact hmono (by linarith)
  have e : cutF rd u a b (some x) (some y) =
      add rd (mul rd (some al) (some x)) (mul rd (sub rd (some 1) (some al)) (some y)) := by
    unfold cutF
    have : div rd (sub rd (some u) (some a)) (sub rd (some b) (some a)) = some al := if_neg hd.ne'
    rw [this]
  rw [e]
  have c1 := (Close.exact h0 h1 al0 0).mul h0 h1 hr (Close.exact h0 h1 hx0.le 0)
  have c2 := (Close.sub h0 h1 hr al1).mul h0 h1 hr (Close.exact h0 h1 hy0.le 0)
  obtain ⟨z, ez, z0, -, z1, z2⟩ := (c1.mono h0 h1 (by norm_num : 0 + 0 + 1 ≤ 1 + 0 + 1)).add h0 h1 hr c2
  norm_num at z1 z2
  refine ⟨z, ez, ?_, ?_⟩
  · have : lo ≤ growth δ ^ m * (al * x + (1 - al) * y) := by
      have := mul_le_mul_of_nonneg_left x1 al0
      have := mul_le_mul_of_nonneg_left y1 (by linarith : 0 ≤ 1 - al)
      nlinarith
    calc lo ≤ _ := this
      _ ≤ growth δ ^ m * (growth δ ^ 3 * z) := mul_le_mul_of_nonneg_left z2 hp.le
      _ = _ := by rw [pow_add]; ring
  · have : al * x + (1 - al) * y ≤ growth δ ^ m * hi := by
      have := mul_le_mul_of_nonneg_left x2 al0
      have := mul_le_mul_of_nonneg_left y2 (by linarith : 0 ≤ 1 - al)
      nlinarith
    calc z ≤ growth δ ^ 3 * (al * x + (1 - al) * y) := z1
      _ ≤ growth δ ^ 3 * (growth δ ^ m * hi) := mul_le_mul_of_nonneg_left this (by positivity)
      _ = _ := by rw [pow_add]; ring

end err

/-- the computed multiplicity -/
theorem findMult_eq {rd : K → K} {eps : K} (hz : rd 0 = 0) (hE : ∀ x, eps ≤ |x| → eps ≤ |rd x|) {i p : ℤ} {u : K} {U : ℤ → K}
    (hs : SepFrom eps u U (i - p) (i + p + 1)) : Fp.findMult rd eps i u p U = Igakit.findMult eps i u p U := by
  unfold Fp.findMult Igakit.findMult
  refine forUp_congr fun j m a b => ?_
  rcases hs (i + j) (by omega) (by omega) with h | h
  · rw [h, sub_self, hz]
  · rw [if_neg (not_lt.mpr h), if_neg (not_lt.mpr (hE _ h))]

end Fp
end Igakit
