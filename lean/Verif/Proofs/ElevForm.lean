import Verif.Proofs.CurveForm
import Mathlib.Data.Multiset.Powerset
import Mathlib.Algebra.BigOperators.NatAntidiagonal
import Mathlib.Data.Nat.Choose.Basic
import Mathlib.Algebra.BigOperators.Module
import Mathlib.Tactic.LinearCombination

/-!
# Forms of higher degree with the same diagonal
-/

set_option linter.unusedSectionVars false

namespace Igakit
open Spec Finset

variable {K : Type*} [Field K] [LinearOrder K] [IsStrictOrderedRing K]
variable {E : Type*} [AddCommGroup E] [Module K E]

/-- sum of `g` over the sub-multisets with `q` elements -/
def psum (g : Multiset K → E) (q : ℕ) (m : Multiset K) : E := ((m.powersetCard q).map g).sum

theorem psum_cons (g : Multiset K → E) (q : ℕ) (x : K) (m : Multiset K) :
    psum g (q + 1) (x ::ₘ m) = psum g (q + 1) m + psum (fun s => g (x ::ₘ s)) q m := by
  simp [psum, Multiset.powersetCard_cons, Multiset.map_map, Function.comp_def]

theorem psum_zero (g : Multiset K → E) (m : Multiset K) : psum g 0 m = g 0 := by
  simp [psum]

theorem psum_replicate_add (x : K) (m : Multiset K) (A : ℕ) : ∀ (q : ℕ) (g : Multiset K → E),
    psum g q (Multiset.replicate A x + m) =
      ∑ ab ∈ antidiagonal q, A.choose ab.1 • psum (fun s => g (Multiset.replicate ab.1 x + s)) ab.2 m := by
  induction A with
  | zero =>
    intro q g
    cases q with
    | zero => simp [psum_zero]
    | succ q =>
      rw [Finset.Nat.antidiagonal_succ]
      simp [Nat.choose_zero_succ]
  | succ A ih =>
    intro q g
    cases q with
    | zero => simp [psum_zero]
    | succ q =>
      rw [Multiset.replicate_succ, Multiset.cons_add, psum_cons, ih, ih, Finset.Nat.antidiagonal_succ]
      simp only [Finset.sum_cons, Finset.sum_map, Function.Embedding.prodMap, Function.Embedding.coeFn_mk,
        Prod.map_apply, Nat.succ_eq_add_one, Function.Embedding.refl_apply, Nat.choose_zero_right]
      rw [add_assoc, ← Finset.sum_add_distrib]
      congr 1
      apply Finset.sum_congr rfl
      intro ab _
      have e1 : Prod.map Nat.succ (Function.Embedding.refl ℕ) ab = (ab.1 + 1, ab.2) := rfl
      rw [e1]
      dsimp only
      rw [Nat.choose_succ_succ, add_smul, add_comm]
      simp only [Multiset.replicate_succ, Multiset.cons_add, Nat.succ_eq_add_one]

theorem psum_replicate2 (x y : K) (A B q : ℕ) (g : Multiset K → E) :
    psum g q (Multiset.replicate A x + Multiset.replicate B y) =
      ∑ ab ∈ antidiagonal q, (A.choose ab.1 * B.choose ab.2) •
        g (Multiset.replicate ab.1 x + Multiset.replicate ab.2 y) := by
  rw [psum_replicate_add]
  apply Finset.sum_congr rfl
  intro ab _
  rw [← add_zero (Multiset.replicate B y), psum_replicate_add, mul_smul]
  congr 1
  generalize ab.2 = b
  cases b with
  | zero => simp [psum_zero]
  | succ b =>
    rw [Finset.Nat.antidiagonal_succ']
    simp only [Finset.sum_cons, Finset.sum_map]
    rw [Finset.sum_eq_zero]
    · simp [psum_zero]
    · intro x _
      simp [psum, Multiset.powersetCard_zero_right]

theorem psum_form (q : ℕ) : ∀ (g : Multiset K → E), IsForm q g → ∀ (m : Multiset K) (a s t : K),
    psum g q (((1 - a) * s + a * t) ::ₘ m) = (1 - a) • psum g q (s ::ₘ m) + a • psum g q (t ::ₘ m) := by
  intro g hg m a s t
  cases q with
  | zero => simp only [psum_zero]; rw [← add_smul]; simp
  | succ q =>
    rw [psum_cons, psum_cons, psum_cons]
    have e : psum (fun r => g (((1 - a) * s + a * t) ::ₘ r)) q m =
        (1 - a) • psum (fun r => g (s ::ₘ r)) q m + a • psum (fun r => g (t ::ₘ r)) q m := by
      unfold psum
      rw [Multiset.smul_sum, Multiset.smul_sum, Multiset.map_map, Multiset.map_map, ← Multiset.sum_map_add]
      congr 1
      apply Multiset.map_congr rfl
      intro r hr
      exact hg r (by rw [(Multiset.mem_powersetCard.mp hr).2]) a s t
    rw [e]
    module

/-- the form of degree `ph` with the diagonal of `f` -/
def elv (ph p : ℕ) (f : Multiset K → E) (m : Multiset K) : E := ((ph.choose p : ℕ) : K)⁻¹ • psum f p m

theorem elv_form {ph p : ℕ} {f : Multiset K → E} (hf : IsForm p f) : IsForm ph (elv ph p f) := by
  intro m _ a s t
  unfold elv
  rw [psum_form p f hf]
  module

theorem choose_cast_ne {n k : ℕ} (h : k ≤ n) : ((n.choose k : ℕ) : K) ≠ 0 := by
  exact_mod_cast (Nat.choose_pos h).ne'

theorem elv_diag {ph p : ℕ} (h : p ≤ ph) (f : Multiset K → E) (x : K) :
    elv ph p f (Multiset.replicate ph x) = f (Multiset.replicate p x) := by
  unfold elv
  have e : psum f p (Multiset.replicate ph x) = ((ph.choose p : ℕ) : K) • f (Multiset.replicate p x) := by
    have := psum_replicate2 x x ph 0 p f
    rw [Multiset.replicate_zero, add_zero] at this
    rw [this]
    cases p with
    | zero => simp
    | succ p =>
      rw [Finset.Nat.antidiagonal_succ']
      simp only [Finset.sum_cons, Finset.sum_map]
      rw [Finset.sum_eq_zero]
      · simp [Nat.cast_smul_eq_nsmul]
      · intro x _
        simp [Nat.choose_zero_succ]
  rw [e, smul_smul, inv_mul_cancel₀ (choose_cast_ne h), one_smul]

/-- elevated forms agree on multisets with `c + t` copies of `v` if the forms agree on those with `c` -/
theorem elv_agree {p t c : ℕ} {v : K} {f g : Multiset K → E}
    (h : ∀ m : Multiset K, m.card + c = p → f (m + Multiset.replicate c v) = g (m + Multiset.replicate c v))
    {m : Multiset K} (hm : m.card = p + t) (hc : Multiset.replicate (c + t) v ≤ m) :
    elv (p + t) p f m = elv (p + t) p g m := by
  unfold elv psum
  congr 2
  apply Multiset.map_congr rfl
  intro s hs
  obtain ⟨h1, h2⟩ := Multiset.mem_powersetCard.mp hs
  have h3 : Multiset.replicate c v ≤ s := by
    rw [← Multiset.le_count_iff_replicate_le] at hc ⊢
    obtain ⟨r, rfl⟩ := Multiset.le_iff_exists_add.mp h1
    rw [Multiset.count_add] at hc
    have := Multiset.count_le_card v r
    rw [Multiset.card_add] at hm
    omega
  obtain ⟨r, rfl⟩ := Multiset.le_iff_exists_add.mp h3
  rw [add_comm]
  apply h
  rw [Multiset.card_add, Multiset.card_replicate] at h2
  omega

theorem choose_identity (j c d e : ℕ) :
    (d + e).choose d * (j + c).choose j * (j + c + (d + e)).choose (j + c) =
      (j + d).choose j * (c + e).choose c * (j + d + (c + e)).choose (j + d) := by
  have key : ∀ a b : ℕ, (a + b).choose a * a.factorial * b.factorial = (a + b).factorial := by
    intro a b
    rw [Nat.choose_symm_add, Nat.add_choose_mul_factorial_mul_factorial]
  have h1 := key d e
  have h2 := key j c
  have h3 := key (j + c) (d + e)
  have h4 := key j d
  have h5 := key c e
  have h6 := key (j + d) (c + e)
  have e1 : j + d + (c + e) = j + c + (d + e) := by ring
  rw [e1] at h6 ⊢
  have hp : 0 < j.factorial * c.factorial * d.factorial * e.factorial := by positivity
  apply Nat.eq_of_mul_eq_mul_right hp
  calc _ = (j + c + (d + e)).choose (j + c) * ((j + c).choose j * j.factorial * c.factorial) *
        ((d + e).choose d * d.factorial * e.factorial) := by ring
    _ = (j + c + (d + e)).choose (j + d) * ((j + d).choose j * j.factorial * d.factorial) *
        ((c + e).choose c * c.factorial * e.factorial) := by rw [h1, h2, h3, h4, h5, h6]
    _ = _ := by ring

/-- Bezier points of the elevated form -/
theorem elv_bezier {p t i : ℕ} (hi : i ≤ p + t) (f : Multiset K → E) (x y : K) :
    elv (p + t) p f (Multiset.replicate (p + t - i) x + Multiset.replicate i y) =
      ∑ j ∈ Icc (i - t) (min p i), ((p.choose j : ℕ) * (t.choose (i - j) : ℕ) / ((p + t).choose i : ℕ) : K) •
        f (Multiset.replicate (p - j) x + Multiset.replicate j y) := by
  unfold elv
  rw [psum_replicate2, Finset.smul_sum, Finset.Nat.sum_antidiagonal_eq_sum_range_succ_mk,
    ← Finset.sum_range_reflect]
  symm
  apply Finset.sum_subset_zero_on_sdiff
  · intro j hj
    rw [Finset.mem_Icc] at hj
    rw [Finset.mem_range]
    omega
  · intro j hj
    rw [Finset.mem_sdiff, Finset.mem_range, Finset.mem_Icc] at hj
    have hj1 := hj.1
    have : p.succ - 1 - j = p - j := by omega
    rw [this]
    dsimp only
    by_cases h : i < j
    · have : p - (p - j) = j := by omega
      rw [this, Nat.choose_eq_zero_of_lt h]; simp
    · have h2 : j < i - t := by by_contra h3; exact hj.2 ⟨by omega, by omega⟩
      rw [Nat.choose_eq_zero_of_lt (by omega : p + t - i < p - j)]; simp
  · intro j hj
    rw [Finset.mem_Icc] at hj
    have e1 : p.succ - 1 - j = p - j := by omega
    have e2 : p - (p - j) = j := by omega
    rw [e1]
    dsimp only
    rw [e2, ← Nat.cast_smul_eq_nsmul K, smul_smul]
    congr 1
    obtain ⟨c, rfl⟩ : ∃ c, i = j + c := ⟨i - j, by omega⟩
    obtain ⟨d, rfl⟩ : ∃ d, p = j + d := ⟨p - j, by omega⟩
    obtain ⟨e, rfl⟩ : ∃ e, t = c + e := ⟨t - c, by omega⟩
    have h := choose_identity j c d e
    have e3 : j + d + (c + e) - (j + c) = d + e := by omega
    have e4 : j + d - j = d := by omega
    have e5 : j + c - j = c := by omega
    have e6 : j + c + (d + e) = j + d + (c + e) := by ring
    rw [e6] at h
    rw [e3, e4, e5]
    have n1 : (((j + d + (c + e)).choose (j + c) : ℕ) : K) ≠ 0 := choose_cast_ne (by omega)
    have n2 : (((j + d + (c + e)).choose (j + d) : ℕ) : K) ≠ 0 := choose_cast_ne (by omega)
    have h' : (((d + e).choose d * (j + c).choose j * (j + d + (c + e)).choose (j + c) : ℕ) : K) =
      (((j + d).choose j * (c + e).choose c * (j + d + (c + e)).choose (j + d) : ℕ) : K) := by rw [h]
    push_cast at h' ⊢
    field_simp
    linear_combination -h'

end Igakit
