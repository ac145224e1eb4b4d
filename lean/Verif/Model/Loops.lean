import Mathlib.Tactic.Ring
import Mathlib.Data.Int.Basic
import Mathlib.Logic.Function.Basic

/-!
# Loops and arrays

Shallow embedding of the Fortran constructs used by `/repo/igakit/igalib.f90`.

* An array is a total function on `ℤ`; declared bounds are not part of the value.
* `do i = lo, hi` is `forUp lo hi body`; `do i = hi, lo, -1` is `forDown hi lo body`
  (both run zero times when the range is empty, as in Fortran).
* `do while (c)` is `whileFuel`, which returns `none` while it is still running.
-/

namespace Igakit

/-- iterate `f` for `n` consecutive indices starting at `i` (ascending)
(rounds of the loops of igalib.f90:40, 62, 85) -/
def iterUp {σ : Type*} (f : ℤ → σ → σ) : ℕ → ℤ → σ → σ
  | 0, _, s => s
  | n + 1, i, s => iterUp f n (i + 1) (f i s)

/-- iterate `f` for `n` consecutive indices starting at `i` (descending)
(rounds of the loops of igalib.f90:475, 568) -/
def iterDown {σ : Type*} (f : ℤ → σ → σ) : ℕ → ℤ → σ → σ
  | 0, _, s => s
  | n + 1, i, s => iterDown f n (i - 1) (f i s)

/-- Fortran `do i = lo, hi` (as in igalib.f90:40, 62, 85) -/
def forUp {σ : Type*} (lo hi : ℤ) (f : ℤ → σ → σ) (s : σ) : σ :=
  iterUp f (hi + 1 - lo).toNat lo s

/-- Fortran `do i = hi, lo, -1` (as in igalib.f90:475, 568) -/
def forDown {σ : Type*} (hi lo : ℤ) (f : ℤ → σ → σ) (s : σ) : σ :=
  iterDown f (hi + 1 - lo).toNat hi s

/-- Fortran `do while (c) ... end do` run for at most `fuel` iterations; `none` = not finished
(as in igalib.f90:23, 476) -/
def whileFuel {σ : Type*} (c : σ → Bool) (b : σ → σ) : ℕ → σ → Option σ
  | 0, s => if c s then none else some s
  | n + 1, s => if c s then whileFuel c b n (b s) else some s

/-- Fortran array assignment `A(i) = v` (as in igalib.f90:68) -/
def upd {α : Type*} (A : ℤ → α) (i : ℤ) (v : α) : ℤ → α :=
  fun j => if j = i then v else A j

/-- Fortran `forall (i = lo:hi) A(i+sh) = g(i)` (as in igalib.f90:240-246, 469-472) -/
def fillRange {α : Type*} (A : ℤ → α) (lo hi sh : ℤ) (g : ℤ → α) : ℤ → α :=
  fun j => if lo ≤ j - sh ∧ j - sh ≤ hi then g (j - sh) else A j

@[simp] theorem upd_same {α : Type*} (A : ℤ → α) (i : ℤ) (v : α) : upd A i v i = v := by
  simp [upd]

theorem upd_ne {α : Type*} (A : ℤ → α) {i j : ℤ} (v : α) (h : j ≠ i) : upd A i v j = A j := by
  simp [upd, h]

theorem upd_eq {α : Type*} (A : ℤ → α) {i j : ℤ} (v : α) (h : j = i) : upd A i v j = v := by
  simp [upd, h]

theorem iterUp_inv {σ : Type*} {f : ℤ → σ → σ} (I : ℤ → σ → Prop) (n : ℕ) :
    ∀ (lo : ℤ) (s : σ), I lo s →
      (∀ i s, lo ≤ i → i < lo + n → I i s → I (i + 1) (f i s)) →
      I (lo + n) (iterUp f n lo s) := by
  induction n with
  | zero => intro lo s h _; simpa [iterUp] using h
  | succ n ih =>
    intro lo s h step
    have h1 := ih (lo + 1) (f lo s) (step lo s (le_refl _) (by omega) h)
      (fun i s a b => step i s (by omega) (by push_cast; omega))
    have e : lo + 1 + (n : ℤ) = lo + ((n + 1 : ℕ) : ℤ) := by push_cast; ring
    rw [e] at h1
    exact h1

/-- Invariant rule for ascending loops. -/
theorem forUp_inv {σ : Type*} {f : ℤ → σ → σ} (I : ℤ → σ → Prop) {lo hi : ℤ} {s : σ}
    (hle : lo ≤ hi + 1) (h0 : I lo s)
    (step : ∀ i s, lo ≤ i → i ≤ hi → I i s → I (i + 1) (f i s)) :
    I (hi + 1) (forUp lo hi f s) := by
  have h := iterUp_inv I (hi + 1 - lo).toNat lo s h0
    (fun i s a b => step i s a (by omega))
  have e : lo + ((hi + 1 - lo).toNat : ℤ) = hi + 1 := by omega
  rw [e] at h
  exact h

theorem forUp_empty {σ : Type*} {f : ℤ → σ → σ} {lo hi : ℤ} {s : σ} (h : hi < lo) :
    forUp lo hi f s = s := by
  unfold forUp
  have : (hi + 1 - lo).toNat = 0 := by omega
  rw [this]; rfl

theorem forUp_step {σ : Type*} {f : ℤ → σ → σ} {lo hi : ℤ} {s : σ} (h : lo ≤ hi) :
    forUp lo hi f s = forUp (lo + 1) hi f (f lo s) := by
  unfold forUp
  have : (hi + 1 - lo).toNat = (hi + 1 - (lo + 1)).toNat + 1 := by omega
  rw [this]; rfl

theorem iterUp_succ_last {σ : Type*} (f : ℤ → σ → σ) (n : ℕ) :
    ∀ (i : ℤ) (s : σ), iterUp f (n + 1) i s = f (i + n) (iterUp f n i s) := by
  induction n with
  | zero => intro i s; simp [iterUp]
  | succ n ih =>
    intro i s
    have h := ih (i + 1) (f i s)
    rw [iterUp, h]
    have e : i + 1 + (n : ℤ) = i + ((n + 1 : ℕ) : ℤ) := by push_cast; ring
    rw [e]; rfl

theorem forUp_last {σ : Type*} {f : ℤ → σ → σ} {lo hi : ℤ} {s : σ} (h : lo ≤ hi) :
    forUp lo hi f s = f hi (forUp lo (hi - 1) f s) := by
  unfold forUp
  have h1 : (hi + 1 - lo).toNat = (hi - 1 + 1 - lo).toNat + 1 := by omega
  rw [h1, iterUp_succ_last]
  have h2 : lo + ((hi - 1 + 1 - lo).toNat : ℤ) = hi := by omega
  rw [h2]

theorem iterDown_inv {σ : Type*} {f : ℤ → σ → σ} (I : ℤ → σ → Prop) (n : ℕ) :
    ∀ (hi : ℤ) (s : σ), I hi s →
      (∀ i s, hi - n < i → i ≤ hi → I i s → I (i - 1) (f i s)) →
      I (hi - n) (iterDown f n hi s) := by
  induction n with
  | zero => intro hi s h _; simpa [iterDown] using h
  | succ n ih =>
    intro hi s h step
    have h1 := ih (hi - 1) (f hi s) (step hi s (by push_cast; omega) (le_refl _) h)
      (fun i s a b => step i s (by push_cast; omega) (by omega))
    have e : hi - 1 - (n : ℤ) = hi - ((n + 1 : ℕ) : ℤ) := by push_cast; ring
    rw [e] at h1
    exact h1

/-- Invariant rule for descending loops. -/
theorem forDown_inv {σ : Type*} {f : ℤ → σ → σ} (I : ℤ → σ → Prop) {lo hi : ℤ} {s : σ}
    (hle : lo ≤ hi + 1) (h0 : I hi s)
    (step : ∀ i s, lo ≤ i → i ≤ hi → I i s → I (i - 1) (f i s)) :
    I (lo - 1) (forDown hi lo f s) := by
  have h := iterDown_inv I (hi + 1 - lo).toNat hi s h0
    (fun i s a b => step i s (by omega) b)
  have e : hi - ((hi + 1 - lo).toNat : ℤ) = lo - 1 := by omega
  rw [e] at h
  exact h

theorem forDown_empty {σ : Type*} {f : ℤ → σ → σ} {lo hi : ℤ} {s : σ} (h : hi < lo) :
    forDown hi lo f s = s := by
  unfold forDown
  have : (hi + 1 - lo).toNat = 0 := by omega
  rw [this]; rfl

theorem forDown_step {σ : Type*} {f : ℤ → σ → σ} {lo hi : ℤ} {s : σ} (h : lo ≤ hi) :
    forDown hi lo f s = forDown (hi - 1) lo f (f hi s) := by
  unfold forDown
  have : (hi + 1 - lo).toNat = (hi - 1 + 1 - lo).toNat + 1 := by omega
  rw [this]; rfl

/-- Total correctness rule for `do while`: a measure that strictly decreases on the invariant. -/
theorem whileFuel_total {σ : Type*} {c : σ → Bool} {b : σ → σ} (I : σ → Prop) (μ : σ → ℕ)
    (step : ∀ s, I s → c s = true → I (b s) ∧ μ (b s) < μ s) :
    ∀ (fuel : ℕ) (s : σ), I s → μ s ≤ fuel →
      ∃ s', whileFuel c b fuel s = some s' ∧ I s' ∧ c s' = false := by
  intro fuel
  induction fuel with
  | zero =>
    intro s hI hμ
    cases hc : c s with
    | false => exact ⟨s, by simp [whileFuel, hc], hI, hc⟩
    | true => have := (step s hI hc).2; omega
  | succ n ih =>
    intro s hI hμ
    cases hc : c s with
    | false => exact ⟨s, by simp [whileFuel, hc], hI, hc⟩
    | true =>
      obtain ⟨h1, h2⟩ := step s hI hc
      obtain ⟨s', h3, h4, h5⟩ := ih (b s) h1 (by omega)
      exact ⟨s', by simp [whileFuel, hc, h3], h4, h5⟩

/-- More fuel never changes the outcome of a finished loop. -/
theorem whileFuel_mono {σ : Type*} {c : σ → Bool} {b : σ → σ} :
    ∀ (f1 f2 : ℕ) (s s' : σ), f1 ≤ f2 → whileFuel c b f1 s = some s' →
      whileFuel c b f2 s = some s' := by
  intro f1
  induction f1 with
  | zero =>
    intro f2 s s' _ h
    cases hc : c s with
    | true => simp [whileFuel, hc] at h
    | false =>
      cases f2 with
      | zero => exact h
      | succ f2 => simpa [whileFuel, hc] using h
  | succ n ih =>
    intro f2 s s' hle h
    cases f2 with
    | zero => omega
    | succ f2 =>
      cases hc : c s with
      | false => simpa [whileFuel, hc] using h
      | true =>
        simp only [whileFuel, hc, if_true] at h ⊢
        exact ih f2 _ _ (by omega) h

end Igakit
