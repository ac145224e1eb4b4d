import Verif.Spec.Float
import Verif.Props.Nurbs
import Mathlib.Tactic.Linarith
import Mathlib.Tactic.Positivity

/-! # Rounding errors of `BasisFuns`, `Evaluate` and `NURBS.__call__` -/

set_option linter.unusedSectionVars false

namespace Igakit

open Spec

/-- two loops side by side -/
theorem forUp_rel {σ τ : Type} {f : ℤ → σ → σ} {g : ℤ → τ → τ} (I : ℤ → σ → τ → Prop) {lo hi : ℤ} {s : σ} {t : τ}
    (hle : lo ≤ hi + 1) (h0 : I lo s t)
    (step : ∀ i s t, lo ≤ i → i ≤ hi → I i s t → I (i + 1) (f i s) (g i t)) :
    I (hi + 1) (forUp lo hi f s) (forUp lo hi g t) := by
  have key : ∀ n : ℕ, ∀ lo' s t, lo ≤ lo' → lo' + n = hi + 1 → I lo' s t →
      I (hi + 1) (iterUp f n lo' s) (iterUp g n lo' t) := by
    intro n
    induction n with
    | zero =>
      intro lo' s t _ e h
      rw [← e]
      simpa [iterUp] using h
    | succ n ih =>
      intro lo' s t h1 e h
      unfold iterUp
      exact ih (lo' + 1) _ _ (by omega) (by push_cast at e; omega) (step lo' s t h1 (by push_cast at e; omega) h)
  exact key _ lo s t le_rfl (by omega) h0

variable {K : Type} [Field K] [LinearOrder K] [IsStrictOrderedRing K]

namespace Fp

section growth
variable {δ : K}

theorem one_le_growth (h0 : 0 ≤ δ) (h1 : δ < 1) : 1 ≤ growth δ := by
  unfold growth
  rw [one_le_inv₀ (by linarith)]
  linarith

theorem growth_mul (h1 : δ < 1) : growth δ * (1 - δ) = 1 := inv_mul_cancel₀ (by linarith)

theorem le_growth (h0 : 0 ≤ δ) (h1 : δ < 1) : 1 + δ ≤ growth δ := by
  have h := growth_mul h1
  have hg := one_le_growth h0 h1
  nlinarith

end growth

/-- the two numbers differ by at most `c` roundings -/
def Near (ρ : K) (c : ℕ) (x y : K) : Prop := x ≤ ρ ^ c * y ∧ y ≤ ρ ^ c * x

section near
variable {ρ : K} (hρ : 1 ≤ ρ)
include hρ

theorem Near.mono {c c' : ℕ} {x y : K} (h : Near ρ c x y) (hc : c ≤ c') (hx : 0 ≤ x) (hy : 0 ≤ y) : Near ρ c' x y := by
  have := pow_le_pow_right₀ hρ hc
  exact ⟨h.1.trans (mul_le_mul_of_nonneg_right this hy), h.2.trans (mul_le_mul_of_nonneg_right this hx)⟩

theorem Near.add {c : ℕ} {x y x' y' : K} (h : Near ρ c x y) (h' : Near ρ c x' y') : Near ρ c (x + x') (y + y') :=
  ⟨by rw [mul_add]; exact add_le_add h.1 h'.1, by rw [mul_add]; exact add_le_add h.2 h'.2⟩

theorem Near.mul {c c' : ℕ} {x y x' y' : K} (h : Near ρ c x y) (h' : Near ρ c' x' y') (hx : 0 ≤ x) (hy : 0 ≤ y)
    (hx' : 0 ≤ x') (hy' : 0 ≤ y') : Near ρ (c + c') (x * x') (y * y') := by
  have hp : 0 ≤ ρ := by linarith
  constructor
  · calc x * x' ≤ ρ ^ c * y * (ρ ^ c' * y') := mul_le_mul h.1 h'.1 hx' (by positivity)
      _ = _ := by rw [pow_add]; ring
  · calc y * y' ≤ ρ ^ c * x * (ρ ^ c' * x') := mul_le_mul h.2 h'.2 hy' (by positivity)
      _ = _ := by rw [pow_add]; ring

theorem Near.inv {c : ℕ} {x y : K} (h : Near ρ c x y) (hx : 0 < x) (hy : 0 < y) : Near ρ c x⁻¹ y⁻¹ := by
  have hp : 0 < ρ ^ c := pow_pos (by linarith) _
  constructor
  · rw [← div_eq_mul_inv, inv_eq_one_div, div_le_div_iff₀ hx hy]
    linarith [h.2]
  · rw [← div_eq_mul_inv, inv_eq_one_div, div_le_div_iff₀ hy hx]
    linarith [h.1]

theorem Near.div {c c' : ℕ} {x y x' y' : K} (h : Near ρ c x y) (h' : Near ρ c' x' y') (hx : 0 ≤ x) (hy : 0 ≤ y)
    (hx' : 0 < x') (hy' : 0 < y') : Near ρ (c + c') (x / x') (y / y') := by
  rw [div_eq_mul_inv, div_eq_mul_inv]
  exact h.mul hρ (h'.inv hρ hx' hy') hx hy (inv_nonneg.2 hx'.le) (inv_nonneg.2 hy'.le)

theorem Near.trans {c c' : ℕ} {x y z : K} (h : Near ρ c x y) (h' : Near ρ c' y z) : Near ρ (c + c') x z := by
  have hp : (0 : K) ≤ ρ := by linarith
  constructor
  · calc x ≤ ρ ^ c * y := h.1
      _ ≤ ρ ^ c * (ρ ^ c' * z) := mul_le_mul_of_nonneg_left h'.1 (by positivity)
      _ = _ := by rw [pow_add]; ring
  · calc z ≤ ρ ^ c' * y := h'.2
      _ ≤ ρ ^ c' * (ρ ^ c * x) := mul_le_mul_of_nonneg_left h.2 (by positivity)
      _ = _ := by rw [pow_add]; ring

theorem Near.pos {c : ℕ} {x y : K} (h : Near ρ c x y) (hy : 0 < y) : 0 < x := by
  have hp : (0 : K) < ρ ^ c := pow_pos (by linarith) _
  have := h.2
  by_contra hx
  have : ρ ^ c * x ≤ 0 := mul_nonpos_of_nonneg_of_nonpos hp.le (not_lt.1 hx)
  linarith [h.2]

/-- as a relative error -/
theorem Near.abs {c : ℕ} {x y : K} (h : Near ρ c x y) (hy : 0 ≤ y) : |x - y| ≤ (ρ ^ c - 1) * y := by
  have hp : (1 : K) ≤ ρ ^ c := one_le_pow₀ hρ
  rw [abs_le]
  refine ⟨?_, by linarith [h.1]⟩
  have h2 := h.2
  nlinarith [h.1, mul_nonneg (by linarith : (0:K) ≤ ρ ^ c - 1) hy]

end near

section rounded
variable {δ : K} {rd : K → K} (h0 : 0 ≤ δ) (h1 : δ < 1) (hr : RelErr δ rd)
include h0 h1 hr

theorem rd_near {x : K} (hx : 0 ≤ x) : Near (growth δ) 1 (rd x) x ∧ 0 ≤ rd x := by
  have h := abs_le.1 (hr x)
  rw [abs_of_nonneg hx] at h
  have hg := one_le_growth h0 h1
  have hm := growth_mul h1
  have hl := le_growth h0 h1
  refine ⟨⟨?_, ?_⟩, by nlinarith⟩
  · rw [pow_one]
    nlinarith
  · rw [pow_one]
    have : (1 - δ) * x ≤ rd x := by linarith
    calc x = growth δ * ((1 - δ) * x) := by rw [← mul_assoc, hm, one_mul]
      _ ≤ _ := mul_le_mul_of_nonneg_left this (by linarith)

theorem rd_zero : rd 0 = 0 := by
  have := hr 0
  rw [abs_zero, mul_zero] at this
  have := abs_nonpos_iff.1 this
  linarith

end rounded

/-- a floating point number that differs from `y ≥ 0` by at most `c` roundings -/
def Close (ρ : K) (c : ℕ) (a : Fp K) (y : K) : Prop := ∃ x, a = some x ∧ 0 ≤ x ∧ 0 ≤ y ∧ Near ρ c x y

section close
variable {δ : K} {rd : K → K} (h0 : 0 ≤ δ) (h1 : δ < 1) (hr : RelErr δ rd)
include h0 h1

theorem Close.mono {c c' : ℕ} {a : Fp K} {y : K} (h : Close (growth δ) c a y) (hc : c ≤ c') : Close (growth δ) c' a y := by
  obtain ⟨x, e, hx, hy, hn⟩ := h
  exact ⟨x, e, hx, hy, hn.mono (one_le_growth h0 h1) hc hx hy⟩

theorem Close.exact {y : K} (hy : 0 ≤ y) (c : ℕ) : Close (growth δ) c (some y) y :=
  ⟨y, rfl, hy, hy, Near.mono (c := 0) (one_le_growth h0 h1) ⟨by simp, by simp⟩ (Nat.zero_le _) hy hy⟩

include hr

theorem rd_close {x y : K} {c : ℕ} (hx : 0 ≤ x) (hy : 0 ≤ y) (h : Near (growth δ) c x y) :
    Close (growth δ) (c + 1) (some (rd x)) y := by
  obtain ⟨n1, n2⟩ := rd_near h0 h1 hr hx
  refine ⟨_, rfl, n2, hy, ?_⟩
  rw [add_comm]
  exact n1.trans (one_le_growth h0 h1) h

theorem Close.add {c : ℕ} {a a' : Fp K} {y y' : K} (h : Close (growth δ) c a y) (h' : Close (growth δ) c a' y') :
    Close (growth δ) (c + 1) (Fp.add rd a a') (y + y') := by
  obtain ⟨x, rfl, hx, hy, hn⟩ := h
  obtain ⟨x', rfl, hx', hy', hn'⟩ := h'
  exact rd_close h0 h1 hr (add_nonneg hx hx') (add_nonneg hy hy') (hn.add (one_le_growth h0 h1) hn')

theorem Close.mul {c c' : ℕ} {a a' : Fp K} {y y' : K} (h : Close (growth δ) c a y) (h' : Close (growth δ) c' a' y') :
    Close (growth δ) (c + c' + 1) (Fp.mul rd a a') (y * y') := by
  obtain ⟨x, rfl, hx, hy, hn⟩ := h
  obtain ⟨x', rfl, hx', hy', hn'⟩ := h'
  exact rd_close h0 h1 hr (mul_nonneg hx hx') (mul_nonneg hy hy') (hn.mul (one_le_growth h0 h1) hn' hx hy hx' hy')

theorem Close.div {c c' : ℕ} {a a' : Fp K} {y y' : K} (h : Close (growth δ) c a y) (h' : Close (growth δ) c' a' y')
    (hp : 0 < y') : Close (growth δ) (c + c' + 1) (Fp.div rd a a') (y / y') := by
  obtain ⟨x, rfl, hx, hy, hn⟩ := h
  obtain ⟨x', rfl, hx', hy', hn'⟩ := h'
  have hpx := hn'.pos (one_le_growth h0 h1) hp
  have e : Fp.div rd (some x) (some x') = some (rd (x / x')) := if_neg hpx.ne'
  rw [e]
  exact rd_close h0 h1 hr (div_nonneg hx hx') (div_nonneg hy hy') (hn.div (one_le_growth h0 h1) hn' hx hy hpx hp)

theorem Close.sub {x y : K} (h : y ≤ x) : Close (growth δ) 1 (Fp.sub rd (some x) (some y)) (x - y) :=
  rd_close (c := 0) h0 h1 hr (sub_nonneg.2 h) (sub_nonneg.2 h) ⟨by simp, by simp⟩

/-! ## BasisFuns -/

/-- the inner loop -/
theorem basisInner_close {left right : ℤ → K} {leftF rightF : ℤ → Fp K} {j : ℤ} (hj : 1 ≤ j) {c : ℕ} {N : ℤ → K}
    {NF : ℤ → Fp K} (hL : ∀ i, 1 ≤ i → i ≤ j → Close (growth δ) 1 (leftF i) (left i))
    (hR : ∀ i, 1 ≤ i → i ≤ j → Close (growth δ) 1 (rightF i) (right i))
    (hpos : ∀ r, 0 ≤ r → r < j → 0 < right (r + 1) + left (j - r))
    (hN : ∀ r, 0 ≤ r → r < j → Close (growth δ) c (NF r) (N r)) :
    (∀ r, 0 ≤ r → r < j → Close (growth δ) (c + 6) ((Fp.basisInner rd leftF rightF j NF).1 r)
      ((Igakit.basisInner left right j N).1 r)) ∧
    Close (growth δ) (c + 5) (Fp.basisInner rd leftF rightF j NF).2 (Igakit.basisInner left right j N).2 := by
  have key := forUp_rel (fun i (s : (ℤ → Fp K) × Fp K) (t : (ℤ → K) × K) =>
      (∀ r, 0 ≤ r → r < i → Close (growth δ) (c + 6) (s.1 r) (t.1 r)) ∧
      (∀ r, i ≤ r → r < j → Close (growth δ) c (s.1 r) (t.1 r)) ∧ Close (growth δ) (c + 5) s.2 t.2)
    (lo := 0) (hi := j - 1) (s := (NF, some 0)) (t := (N, (0 : K)))
    (f := fun r (s : (ℤ → Fp K) × Fp K) =>
      let temp := Fp.div rd (s.1 r) (Fp.add rd (rightF (r + 1)) (leftF (j - r)))
      (upd s.1 r (Fp.add rd s.2 (Fp.mul rd (rightF (r + 1)) temp)), Fp.mul rd (leftF (j - r)) temp))
    (g := fun r (s : (ℤ → K) × K) =>
      let temp := s.1 r / (right (r + 1) + left (j - r))
      (upd s.1 r (s.2 + right (r + 1) * temp), left (j - r) * temp)) (by omega)
    ⟨fun r a b => by omega, fun r a b => hN r a b, Close.exact h0 h1 le_rfl _⟩ ?_
  · obtain ⟨k1, -, k3⟩ := key
    exact ⟨fun r a b => k1 r a (by omega), k3⟩
  · rintro i s t a b ⟨k1, k2, k3⟩
    have hd := (hR (i + 1) (by omega) (by omega)).add h0 h1 hr (hL (j - i) (by omega) (by omega))
    have ht := (k2 i le_rfl (by omega)).div h0 h1 hr hd (hpos i a (by omega))
    have hl := (hL (j - i) (by omega) (by omega)).mul h0 h1 hr ht
    have hrr := (hR (i + 1) (by omega) (by omega)).mul h0 h1 hr ht
    have e : 1 + (c + (1 + 1) + 1) + 1 = c + 5 := by ring
    rw [e] at hl hrr
    refine ⟨fun r r0 r1 => ?_, fun r r0 r1 => ?_, hl⟩
    · dsimp only
      by_cases hri : r = i
      · rw [upd_eq _ _ hri, upd_eq _ _ hri]
        exact k3.add h0 h1 hr hrr
      · rw [upd_ne _ _ hri, upd_ne _ _ hri]
        exact k1 r r0 (by omega)
    · dsimp only
      rw [upd_ne _ _ (by omega), upd_ne _ _ (by omega)]
      exact k2 r (by omega) r1

/-- every computed basis function differs from the exact one by at most `6 p` roundings -/
theorem basisFuns_close (jkF : ℤ → Fp K) (jk : ℤ → K) {k : ℤ} {u : K} {p : ℕ} {U : ℤ → K}
    (hs : SortedOn U (k + 1 - p) (k + p)) (hlt : U k < U (k + 1)) (hu1 : U k ≤ u) (hu2 : u ≤ U (k + 1)) :
    ∀ r : ℤ, 0 ≤ r → r ≤ p →
      Close (growth δ) (6 * p) (Fp.basisFuns rd jkF k u p U r) (Igakit.basisFuns jk k u p U r) := by
  have key := forUp_rel (fun j (s : Fp.BasisSt K) (t : Igakit.BasisSt K) =>
      1 ≤ j ∧ (∀ r, 0 ≤ r → r < j → Close (growth δ) (6 * (j - 1).toNat) (s.N r) (t.N r)) ∧
      (∀ i, 1 ≤ i → i < j → Close (growth δ) 1 (s.left i) (t.left i) ∧ t.left i = u - U (k + 1 - i)) ∧
      (∀ i, 1 ≤ i → i < j → Close (growth δ) 1 (s.right i) (t.right i) ∧ t.right i = U (k + i) - u))
    (lo := 1) (hi := (p : ℤ)) (s := { N := upd jkF 0 (some 1), left := jkF, right := jkF })
    (t := { N := upd jk 0 1, left := jk, right := jk })
    (f := Fp.basisOuter rd k u U) (g := Igakit.basisOuter k u U) (by omega)
    ⟨le_rfl, fun r a b => by
      obtain rfl : r = 0 := by omega
      dsimp only
      rw [upd_same, upd_same]
      exact Close.exact h0 h1 zero_le_one _, fun i a b => by omega, fun i a b => by omega⟩ ?_
  · intro r a b
    have := key.2.1 r a (by omega)
    have e : ((p : ℤ) + 1 - 1).toNat = p := by omega
    rw [e] at this
    exact this
  · rintro j s t a b ⟨-, k1, k2, k3⟩
    have hle : ∀ i, 1 ≤ i → i ≤ j → U (k + 1 - i) ≤ U k := fun i i1 i2 => hs _ _ (by omega) (by omega) (by omega)
    have hge : ∀ i, 1 ≤ i → i ≤ j → U (k + 1) ≤ U (k + i) := fun i i1 i2 => hs _ _ (by omega) (by omega) (by omega)
    have hL : ∀ i, 1 ≤ i → i < j + 1 →
        Close (growth δ) 1 (upd s.left j (Fp.sub rd (some u) (some (U (k + 1 - j)))) i) (upd t.left j (u - U (k + 1 - j)) i) ∧
        upd t.left j (u - U (k + 1 - j)) i = u - U (k + 1 - i) := fun i i1 i2 => by
      by_cases e : i = j
      · subst e
        rw [upd_same, upd_same]
        exact ⟨Close.sub h0 h1 hr ((hle i i1 le_rfl).trans hu1), rfl⟩
      · rw [upd_ne _ _ e, upd_ne _ _ e]
        exact k2 i i1 (by omega)
    have hR : ∀ i, 1 ≤ i → i < j + 1 →
        Close (growth δ) 1 (upd s.right j (Fp.sub rd (some (U (k + j))) (some u)) i) (upd t.right j (U (k + j) - u) i) ∧
        upd t.right j (U (k + j) - u) i = U (k + i) - u := fun i i1 i2 => by
      by_cases e : i = j
      · subst e
        rw [upd_same, upd_same]
        exact ⟨Close.sub h0 h1 hr (hu2.trans (hge i i1 le_rfl)), rfl⟩
      · rw [upd_ne _ _ e, upd_ne _ _ e]
        exact k3 i i1 (by omega)
    have hin := basisInner_close h0 h1 hr (leftF := upd s.left j (Fp.sub rd (some u) (some (U (k + 1 - j)))))
      (rightF := upd s.right j (Fp.sub rd (some (U (k + j))) (some u))) (left := upd t.left j (u - U (k + 1 - j)))
      (right := upd t.right j (U (k + j) - u)) a (fun i i1 i2 => (hL i i1 (by omega)).1) (fun i i1 i2 => (hR i i1 (by omega)).1)
      (fun r r0 r1 => by
        rw [(hR (r + 1) (by omega) (by omega)).2, (hL (j - r) (by omega) (by omega)).2]
        have := hge (r + 1) (by omega) (by omega)
        have := hle (j - r) (by omega) (by omega)
        linarith) (N := t.N) (NF := s.N) k1
    have e : 6 * (j + 1 - 1).toNat = 6 * (j - 1).toNat + 6 := by omega
    rw [e]
    refine ⟨by omega, fun r r0 r1 => ?_, hL, hR⟩
    unfold Fp.basisOuter Igakit.basisOuter
    dsimp only
    by_cases hrj : r = j
    · rw [upd_eq _ _ hrj, upd_eq _ _ hrj]
      exact hin.2.mono h0 h1 (by omega)
    · rw [upd_ne _ _ hrj, upd_ne _ _ hrj]
      exact hin.1 r r0 (by omega)

end close
end Fp
end Igakit
