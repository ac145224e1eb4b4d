import Verif.Model.Derivs
import Verif.Spec.Derivs
import Verif.Props.Ders
import Verif.Proofs.Nrb
import Mathlib.Analysis.Calculus.Deriv.Mul
import Mathlib.Analysis.Calculus.Deriv.Inv
import Mathlib.Analysis.Calculus.Deriv.Add
import Mathlib.Tactic.FinCases
import Mathlib.Algebra.BigOperators.Field

/-! # Quotient rule for the rational map -/

set_option linter.unusedSectionVars false

namespace Igakit
open Spec Polynomial

variable {d : ℕ}

theorem tpExp_count1 : (∀ a : Fin 1, tpExp ([] : List (Fin 1)) a = List.count a []) ∧
    (∀ i a : Fin 1, tpExp [i] a = List.count a [i]) ∧
    (∀ i j a : Fin 1, tpExp [i, j] a = List.count a [i, j]) ∧
    (∀ i j k a : Fin 1, tpExp [i, j, k] a = List.count a [i, j, k]) := by decide +kernel

theorem tpExp_count2 : (∀ a : Fin 2, tpExp ([] : List (Fin 2)) a = List.count a []) ∧
    (∀ i a : Fin 2, tpExp [i] a = List.count a [i]) ∧
    (∀ i j a : Fin 2, tpExp [i, j] a = List.count a [i, j]) ∧
    (∀ i j k a : Fin 2, tpExp [i, j, k] a = List.count a [i, j, k]) ∧
    (∀ i j k l a : Fin 2, tpExp [i, j, k, l] a = List.count a [i, j, k, l]) := by decide +kernel

theorem tpExp_count3 : (∀ a : Fin 3, tpExp ([] : List (Fin 3)) a = List.count a []) ∧
    (∀ i a : Fin 3, tpExp [i] a = List.count a [i]) ∧
    (∀ i j a : Fin 3, tpExp [i, j] a = List.count a [i, j]) ∧
    (∀ i j k a : Fin 3, tpExp [i, j, k] a = List.count a [i, j, k]) ∧
    (∀ i j k l a : Fin 3, tpExp [i, j, k, l] a = List.count a [i, j, k, l]) := by decide +kernel

/-- the tables of `TensorProd1/2/3` are right, except the last one of `TensorProd1` -/
theorem tpExp_count (hd : d = 1 ∨ d = 2 ∨ d = 3) (l : List (Fin d))
    (hl : l.length ≤ 3 ∨ (l.length = 4 ∧ d ≠ 1)) (a : Fin d) : tpExp l a = l.count a := by
  rcases hd with rfl | rfl | rfl
  · match l, hl with
    | [], _ => exact tpExp_count1.1 a
    | [i], _ => exact tpExp_count1.2.1 i a
    | [i, j], _ => exact tpExp_count1.2.2.1 i j a
    | [i, j, k], _ => exact tpExp_count1.2.2.2 i j k a
    | _ :: _ :: _ :: _ :: _, hl => exact absurd hl (by simp)
  · match l, hl with
    | [], _ => exact tpExp_count2.1 a
    | [i], _ => exact tpExp_count2.2.1 i a
    | [i, j], _ => exact tpExp_count2.2.2.1 i j a
    | [i, j, k], _ => exact tpExp_count2.2.2.2.1 i j k a
    | [i, j, k, l], _ => exact tpExp_count2.2.2.2.2 i j k l a
    | _ :: _ :: _ :: _ :: _ :: _, hl => exact absurd hl (by simp)
  · match l, hl with
    | [], _ => exact tpExp_count3.1 a
    | [i], _ => exact tpExp_count3.2.1 i a
    | [i, j], _ => exact tpExp_count3.2.2.1 i j a
    | [i, j, k], _ => exact tpExp_count3.2.2.2.1 i j k a
    | [i, j, k, l], _ => exact tpExp_count3.2.2.2.2 i j k l a
    | _ :: _ :: _ :: _ :: _ :: _, hl => exact absurd hl (by simp)

/-! ## partial derivatives -/

theorem pd_congr {S : Fin d → Set ℝ} {f g : (Fin d → ℝ) → ℝ} (h : ∀ y, (∀ a, y a ∈ S a) → f y = g y) :
    ∀ (l : List (Fin d)) (y : Fin d → ℝ), (∀ a, y a ∈ S a) → pd S l f y = pd S l g y := by
  intro l
  induction l with
  | nil => exact h
  | cons i l ih =>
    intro y hy
    have hu : ∀ t ∈ S i, ∀ a, Function.update y i t a ∈ S a := by
      intro t ht a
      by_cases e : a = i
      · subst e; simpa using ht
      · rw [Function.update_of_ne e]; exact hy a
    simp only [pd]
    exact derivWithin_congr (fun t ht => ih _ (hu t ht)) (ih _ (hu _ (hy i)))

/-- a family of functions closed under partial derivation -/
def DFam (A : List (Fin d) → (Fin d → ℝ) → ℝ) : Prop :=
  ∀ l y i, HasDerivAt (fun t => A l (Function.update y i t)) (A (i :: l) y) (y i)

theorem DFam.sum {ι : Type*} {L : Finset ι} {A : ι → List (Fin d) → (Fin d → ℝ) → ℝ}
    (h : ∀ x ∈ L, DFam (A x)) : DFam (fun l y => ∑ x ∈ L, A x l y) := fun l y i =>
  HasDerivAt.fun_sum (fun x hx => h x hx l y i)

theorem DFam.mul_const {A : List (Fin d) → (Fin d → ℝ) → ℝ} (h : DFam A) (c : ℝ) :
    DFam (fun l y => A l y * c) := fun l y i => (h l y i).mul_const c

theorem DFam.const_mul {A : List (Fin d) → (Fin d → ℝ) → ℝ} (h : DFam A) (c : ℝ) :
    DFam (fun l y => c * A l y) := fun l y i => (h l y i).const_mul c

/-- products of polynomials in one variable each -/
noncomputable def prodFam (Q : Fin d → ℝ[X]) (l : List (Fin d)) (y : Fin d → ℝ) : ℝ :=
  ∏ a, (Polynomial.derivative^[l.count a] (Q a)).eval (y a)

theorem prodFam_dfam (Q : Fin d → ℝ[X]) : DFam (prodFam Q) := by
  intro l y i
  have e1 : ∀ t, prodFam Q l (Function.update y i t) =
      (Polynomial.derivative^[l.count i] (Q i)).eval t *
        ∏ a ∈ Finset.univ.erase i, (Polynomial.derivative^[l.count a] (Q a)).eval (y a) := by
    intro t
    unfold prodFam
    rw [← Finset.mul_prod_erase Finset.univ _ (Finset.mem_univ i), Function.update_self]
    congr 1
    refine Finset.prod_congr rfl fun a ha => ?_
    rw [Function.update_of_ne (Finset.ne_of_mem_erase ha)]
  have e2 : prodFam Q (i :: l) y =
      (Polynomial.derivative (Polynomial.derivative^[l.count i] (Q i))).eval (y i) *
        ∏ a ∈ Finset.univ.erase i, (Polynomial.derivative^[l.count a] (Q a)).eval (y a) := by
    unfold prodFam
    rw [← Finset.mul_prod_erase Finset.univ _ (Finset.mem_univ i), List.count_cons_self,
      Function.iterate_succ_apply']
    congr 1
    refine Finset.prod_congr rfl fun a ha => ?_
    rw [List.count_cons_of_ne (Finset.ne_of_mem_erase ha).symm]
  simp only [e1, e2]
  exact (Polynomial.hasDerivAt _ _).mul_const _

/-! ## derivatives of a quotient -/

section quot
variable (A W : List (Fin d) → (Fin d → ℝ) → ℝ)

noncomputable def q0 (y : Fin d → ℝ) : ℝ := A [] y / W [] y
noncomputable def q1 (i : Fin d) (y : Fin d → ℝ) : ℝ := (A [i] y - q0 A W y * W [i] y) / W [] y
noncomputable def q2 (i j : Fin d) (y : Fin d → ℝ) : ℝ :=
  (A [i, j] y - q0 A W y * W [i, j] y - q1 A W i y * W [j] y - q1 A W j y * W [i] y) / W [] y
noncomputable def q3 (i j k : Fin d) (y : Fin d → ℝ) : ℝ :=
  (A [i, j, k] y - q0 A W y * W [i, j, k] y - q1 A W i y * W [j, k] y - q1 A W j y * W [i, k] y
    - q1 A W k y * W [i, j] y - q2 A W j k y * W [i] y - q2 A W i k y * W [j] y
    - q2 A W i j y * W [k] y) / W [] y
noncomputable def q4 (i j k l : Fin d) (y : Fin d → ℝ) : ℝ :=
  (A [i, j, k, l] y - q0 A W y * W [i, j, k, l] y - q1 A W l y * W [i, j, k] y
    - q1 A W k y * W [i, j, l] y - q2 A W k l y * W [i, j] y - q1 A W j y * W [i, k, l] y
    - q2 A W j l y * W [i, k] y - q2 A W j k y * W [i, l] y - q3 A W j k l y * W [i] y
    - q1 A W i y * W [j, k, l] y - q2 A W i l y * W [j, k] y - q2 A W i k y * W [j, l] y
    - q3 A W i k l y * W [j] y - q2 A W i j y * W [k, l] y - q3 A W i j l y * W [k] y
    - q3 A W i j k y * W [l] y) / W [] y

variable {A W}

theorem quot_hasDeriv {a w : ℝ → ℝ} {a' w' t : ℝ} (ha : HasDerivAt a a' t) (hw : HasDerivAt w w' t)
    (h : w t ≠ 0) : HasDerivAt (fun s => a s / w s) ((a' - a t / w t * w') / w t) t := by
  refine (ha.fun_div hw h).congr_deriv ?_
  field_simp

theorem q0_deriv (hA : DFam A) (hW : DFam W) {y : Fin d → ℝ} (h : W [] y ≠ 0) (i : Fin d) :
    HasDerivAt (fun t => q0 A W (Function.update y i t)) (q1 A W i y) (y i) := by
  have := quot_hasDeriv (hA [] y i) (hW [] y i) (by rwa [Function.update_eq_self])
  rw [Function.update_eq_self] at this
  exact this

theorem q1_deriv (hA : DFam A) (hW : DFam W) {y : Fin d → ℝ} (h : W [] y ≠ 0) (i j : Fin d) :
    HasDerivAt (fun t => q1 A W j (Function.update y i t)) (q2 A W i j y) (y i) := by
  have := quot_hasDeriv ((hA [j] y i).fun_sub ((q0_deriv hA hW h i).fun_mul (hW [j] y i))) (hW [] y i)
    (by rwa [Function.update_eq_self])
  simp only [Function.update_eq_self] at this
  refine HasDerivAt.congr_deriv this ?_
  rw [q2, show (A [j] y - q0 A W y * W [j] y) / W [] y = q1 A W j y from rfl]
  ring

theorem q2_deriv (hA : DFam A) (hW : DFam W) {y : Fin d → ℝ} (h : W [] y ≠ 0) (i j k : Fin d) :
    HasDerivAt (fun t => q2 A W j k (Function.update y i t)) (q3 A W i j k y) (y i) := by
  have := quot_hasDeriv ((((hA [j, k] y i).fun_sub ((q0_deriv hA hW h i).fun_mul (hW [j, k] y i))).fun_sub
    ((q1_deriv hA hW h i j).fun_mul (hW [k] y i))).fun_sub ((q1_deriv hA hW h i k).fun_mul (hW [j] y i)))
    (hW [] y i) (by rwa [Function.update_eq_self])
  simp only [Function.update_eq_self] at this
  refine HasDerivAt.congr_deriv this ?_
  rw [show (A [j, k] y - q0 A W y * W [j, k] y - q1 A W j y * W [k] y - q1 A W k y * W [j] y) / W [] y
    = q2 A W j k y from rfl, q3]
  ring

theorem q3_deriv (hA : DFam A) (hW : DFam W) {y : Fin d → ℝ} (h : W [] y ≠ 0) (i j k l : Fin d) :
    HasDerivAt (fun t => q3 A W j k l (Function.update y i t)) (q4 A W i j k l y) (y i) := by
  have := quot_hasDeriv
    ((((((((hA [j, k, l] y i).fun_sub
      ((q0_deriv hA hW h i).fun_mul (hW [j, k, l] y i))).fun_sub
      ((q1_deriv hA hW h i j).fun_mul (hW [k, l] y i))).fun_sub
      ((q1_deriv hA hW h i k).fun_mul (hW [j, l] y i))).fun_sub
      ((q1_deriv hA hW h i l).fun_mul (hW [j, k] y i))).fun_sub
      ((q2_deriv hA hW h i k l).fun_mul (hW [j] y i))).fun_sub
      ((q2_deriv hA hW h i j l).fun_mul (hW [k] y i))).fun_sub
      ((q2_deriv hA hW h i j k).fun_mul (hW [l] y i)))
    (hW [] y i) (by rwa [Function.update_eq_self])
  simp only [Function.update_eq_self] at this
  refine HasDerivAt.congr_deriv this ?_
  rw [show (A [j, k, l] y - q0 A W y * W [j, k, l] y - q1 A W j y * W [k, l] y - q1 A W k y * W [j, l] y
    - q1 A W l y * W [j, k] y - q2 A W k l y * W [j] y - q2 A W j l y * W [k] y
    - q2 A W j k y * W [l] y) / W [] y = q3 A W j k l y from rfl, q4]
  ring

variable {S : Fin d → Set ℝ}

theorem pd_step {f : (Fin d → ℝ) → ℝ} {l : List (Fin d)} {i : Fin d} {g g' : (Fin d → ℝ) → ℝ}
    (hS : ∀ a, UniqueDiffOn ℝ (S a)) (h : ∀ y, (∀ a, y a ∈ S a) → pd S l f y = g y)
    {y : Fin d → ℝ} (hy : ∀ a, y a ∈ S a)
    (hd : HasDerivAt (fun t => g (Function.update y i t)) (g' y) (y i)) :
    pd S (i :: l) f y = g' y := by
  have hu : ∀ t ∈ S i, ∀ a, Function.update y i t a ∈ S a := by
    intro t ht a
    by_cases e : a = i
    · subst e; simpa using ht
    · rw [Function.update_of_ne e]; exact hy a
  simp only [pd]
  rw [derivWithin_congr (f := fun t => g (Function.update y i t)) (fun t ht => h _ (hu t ht))
    (h _ (hu _ (hy i)))]
  exact hd.hasDerivWithinAt.derivWithin (hS i _ (hy i))

variable (hA : DFam A) (hW : DFam W) (hS : ∀ a, UniqueDiffOn ℝ (S a))
  (h0 : ∀ y, (∀ a, y a ∈ S a) → W [] y ≠ 0)
include hA hW hS h0

theorem pd_q1 (i : Fin d) (y : Fin d → ℝ) (hy : ∀ a, y a ∈ S a) :
    pd S [i] (q0 A W) y = q1 A W i y :=
  pd_step hS (fun _ _ => rfl) hy (q0_deriv hA hW (h0 y hy) i)

theorem pd_q2 (i j : Fin d) (y : Fin d → ℝ) (hy : ∀ a, y a ∈ S a) :
    pd S [i, j] (q0 A W) y = q2 A W i j y :=
  pd_step hS (pd_q1 hA hW hS h0 j) hy (q1_deriv hA hW (h0 y hy) i j)

theorem pd_q3 (i j k : Fin d) (y : Fin d → ℝ) (hy : ∀ a, y a ∈ S a) :
    pd S [i, j, k] (q0 A W) y = q3 A W i j k y :=
  pd_step hS (pd_q2 hA hW hS h0 j k) hy (q2_deriv hA hW (h0 y hy) i j k)

theorem pd_q4 (i j k l : Fin d) (y : Fin d → ℝ) (hy : ∀ a, y a ∈ S a) :
    pd S [i, j, k, l] (q0 A W) y = q4 A W i j k l y :=
  pd_step hS (pd_q3 hA hW hS h0 j k l) hy (q3_deriv hA hW (h0 y hy) i j k l)

end quot

/-! ## the routine computes these quotients -/

section rat
variable {ι : Type} (L : Finset ι) (w : ι → ℝ) (Nf : List (Fin d) → ι → ℝ) (F : ι → ℝ)

/-- the sums `A`, `W` are those of the functions `Nf` for lists up to length `m` -/
structure SumsUpTo (m : ℕ) (A W : List (Fin d) → (Fin d → ℝ) → ℝ) (y : Fin d → ℝ) : Prop where
  hw : ∀ l : List (Fin d), l.length ≤ m → W l y = ratW L w Nf l
  ha : ∀ l : List (Fin d), l.length ≤ m → A l y = ∑ a ∈ L, w a * Nf l a * F a

variable {L w Nf F} {A W : List (Fin d) → (Fin d → ℝ) → ℝ} {y : Fin d → ℝ}

theorem SumsUpTo.mono {m m' : ℕ} (h : SumsUpTo L w Nf F m A W y) (hm : m' ≤ m) :
    SumsUpTo L w Nf F m' A W y := ⟨fun l hl => h.hw l (by omega), fun l hl => h.ha l (by omega)⟩

theorem sum_rat0 (h : SumsUpTo L w Nf F 0 A W y) : ∑ a ∈ L, rat0 L w Nf a * F a = q0 A W y := by
  rw [q0, h.ha _ (by simp), h.hw _ (by simp), Finset.sum_div]
  exact Finset.sum_congr rfl fun a _ => by rw [rat0]; ring

theorem sum_rat1 (h : SumsUpTo L w Nf F 1 A W y) (i : Fin d) :
    ∑ a ∈ L, rat1 L w Nf i a * F a = q1 A W i y := by
  rw [q1, ← sum_rat0 (h.mono (by omega)), h.ha _ (by simp), h.hw _ (by simp), h.hw _ (by simp), Finset.sum_mul,
    ← Finset.sum_sub_distrib, Finset.sum_div]
  exact Finset.sum_congr rfl fun a _ => by rw [rat1]; ring

theorem sum_rat2 (h : SumsUpTo L w Nf F 2 A W y) (i j : Fin d) :
    ∑ a ∈ L, rat2 L w Nf i j a * F a = q2 A W i j y := by
  have h1 := sum_rat1 (h.mono (m' := 1) (by omega))
  rw [q2, ← sum_rat0 (h.mono (by omega)), ← h1, ← h1, h.ha _ (by simp)]
  rw [h.hw [i, j] (by simp), h.hw [i] (by simp), h.hw [j] (by simp), h.hw [] (by simp)]
  simp only [Finset.sum_mul]
  simp only [← Finset.sum_sub_distrib]
  rw [Finset.sum_div]
  exact Finset.sum_congr rfl fun a _ => by rw [rat2]; ring

theorem sum_rat3 (h : SumsUpTo L w Nf F 3 A W y) (i j k : Fin d) :
    ∑ a ∈ L, rat3 L w Nf i j k a * F a = q3 A W i j k y := by
  have h1 := sum_rat1 (h.mono (m' := 1) (by omega))
  have h2 := sum_rat2 (h.mono (m' := 2) (by omega))
  have w1 : ∀ i, W [i] y = ratW L w Nf [i] := fun i => h.hw _ (by simp)
  have w2 : ∀ i j, W [i, j] y = ratW L w Nf [i, j] := fun i j => h.hw _ (by simp)
  rw [q3, ← sum_rat0 (h.mono (by omega)), ← h1, ← h1, ← h1, ← h2, ← h2, ← h2, h.ha _ (by simp),
    h.hw [i, j, k] (by simp), h.hw [] (by simp)]
  simp only [w1, w2]
  simp only [Finset.sum_mul]
  simp only [← Finset.sum_sub_distrib]
  rw [Finset.sum_div]
  exact Finset.sum_congr rfl fun a _ => by rw [rat3]; ring

theorem sum_rat4 (h : SumsUpTo L w Nf F 4 A W y) (i j k l : Fin d) :
    ∑ a ∈ L, rat4 L w Nf i j k l a * F a = q4 A W i j k l y + q3 A W i j k y * W [l] y / W [] y := by
  have h0 := sum_rat0 (h.mono (m' := 0) (by omega))
  have h1 := sum_rat1 (h.mono (m' := 1) (by omega))
  have h2 := sum_rat2 (h.mono (m' := 2) (by omega))
  have h3 := sum_rat3 (h.mono (m' := 3) (by omega))
  have w1 : ∀ i, W [i] y = ratW L w Nf [i] := fun i => h.hw _ (by simp)
  have w2 : ∀ i j, W [i, j] y = ratW L w Nf [i, j] := fun i j => h.hw _ (by simp)
  have w3 : ∀ i j k, W [i, j, k] y = ratW L w Nf [i, j, k] := fun i j k => h.hw _ (by simp)
  rw [q4, ← h0, ← h1 i, ← h1 j, ← h1 k, ← h1 l, ← h2, ← h2, ← h2, ← h2, ← h2, ← h2, ← h3, ← h3, ← h3, ← h3,
    h.ha _ (by simp), h.hw [i, j, k, l] (by simp), h.hw [] (by simp)]
  simp only [w1, w2, w3]
  rw [← add_div, sub_add_cancel]
  simp only [Finset.sum_mul]
  simp only [← Finset.sum_sub_distrib]
  rw [Finset.sum_div]
  exact Finset.sum_congr rfl fun a _ => by rw [rat4]; ring

end rat

end Igakit
