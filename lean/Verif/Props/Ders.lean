import Verif.Proofs.DersAlg
import Verif.Proofs.CurveForm
import Verif.Spec.Ders
import Verif.Spec.Examples
import Mathlib.Analysis.Calculus.IteratedDeriv.Defs
import Mathlib.Analysis.Calculus.Deriv.Polynomial

/-!
# Property C26: derivatives of the basis functions
-/

set_option linter.unusedSectionVars false

namespace Igakit
open Spec Polynomial

variable {K : Type*} [Field K] [LinearOrder K] [IsStrictOrderedRing K]

/-- on a span of the domain a B-spline is its piece -/
theorem bsplineD_on_span {n : ℤ} {p : ℕ} {U : ℤ → K} (hs : SortedOn U 0 (n + p + 1)) {k : ℤ}
    (hk1 : (p : ℤ) ≤ k) (hk2 : k ≤ n) {i : ℤ} (hi1 : 0 ≤ i) (hi2 : i ≤ n) (x : K) (h1 : U k ≤ x)
    (h2 : x < U (k + 1)) : bsplineD n U p i x = (pieceP U k p i).eval x := by
  rw [eval_pieceP]
  exact SpanOf.basis ⟨hk1, hk2, Or.inl ⟨h1, h2⟩⟩ hs hi1 hi2

/-- the routine on a given nonempty span -/
theorem dersBasisFuns_polyDeriv (jk : ℤ → K) (j2 ja jd : ℤ → ℤ → K) {n : ℤ} {p : ℕ} {U : ℤ → K}
    (hs : SortedOn U 0 (n + p + 1)) {k : ℤ} (hk1 : (p : ℤ) ≤ k) (hk2 : k ≤ n) (hne : U k < U (k + 1))
    (u : K) (d l : ℕ) (hl : l ≤ d) (r : ℤ) (hr0 : 0 ≤ r) (hrp : r ≤ p) :
    PolyDeriv (bsplineD n U p (k - p + r)) (U k) (U (k + 1)) l u
      (dersBasisFuns jk j2 ja jd k u p d U r l) :=
  ⟨pieceP U k p (k - p + r), fun x a b => bsplineD_on_span hs hk1 hk2 (by omega) (by omega) x a b,
    dersBasisFuns_spec jk j2 ja jd k u p d U (Win.of_sorted hs hne (by omega) (by omega)) r hr0 hrp l hl⟩

/-- C26: row `l`, column `r` of `bsp.EvalBasisFunsDers(p, U, u, d)` is the `l`-th derivative at `u`
of the B-spline number `k-p+r` on the span `k` of `u`; the other B-splines vanish on that span.
The result does not depend on the contents of the uninitialised arrays; orders `d > p` are
rejected. -/
theorem C26_EvalBasisFunsDers (jk : ℤ → K) (j2 ja jd : ℤ → ℤ → K) {n : ℤ} {p : ℕ} {U : ℤ → K}
    (hv : ValidKnots n p U) {u : K} (h1 : U p ≤ u) (h2 : u ≤ U (n + 1)) (d : ℕ) :
    (d ≤ p → ∃ k D, BSp.FindSpan p (n + p + 1) U u = .ok k ∧
      BSp.EvalBasisFunsDers jk j2 ja jd p (n + p + 1) U u d = .ok D ∧
      InSpan U k u ∧
      (∀ l : ℕ, l ≤ d → ∀ r : ℤ, 0 ≤ r → r ≤ p →
        PolyDeriv (bsplineD n U p (k - p + r)) (U k) (U (k + 1)) l u (D l r)) ∧
      (∀ i, 0 ≤ i → i ≤ n → i < k - p ∨ k < i → ∀ x, U k ≤ x → x < U (k + 1) →
        bsplineD n U p i x = 0)) ∧
    (p < d → BSp.EvalBasisFunsDers jk j2 ja jd p (n + p + 1) U u d = .error .f2py) := by
  have hp := hv.one_le
  have hle := hv.le
  have e : n + (p : ℤ) + 1 - (p + 1) = n := by ring
  have hsp := SpanOf.of_findSpan hv h1 h2
  refine ⟨fun hd => ⟨findSpan n p u U, fun l r =>
    dersBasisFuns jk j2 ja jd (findSpan n p u U) u p d U r l, ?_, ?_, ⟨hsp.left, hsp.right, hsp.ne⟩, ?_, ?_⟩, fun hd => ?_⟩
  · unfold BSp.FindSpan; rw [if_pos (by omega), e]
  · unfold BSp.EvalBasisFunsDers; rw [if_pos (by omega), if_neg (by omega), e]
  · intro l hl r a b
    exact dersBasisFuns_polyDeriv jk j2 ja jd hv.sorted hsp.lo hsp.hi hsp.ne u d l hl r a b
  · intro i a b c x y1 y2
    rw [bsplineD_on_span hv.sorted hsp.lo hsp.hi a b x y1 y2]
    rcases c with c | c
    · rw [pieceP_zero_of_lt _ _ _ _ (by omega), eval_zero]
    · rw [pieceP_zero_of_gt _ _ _ _ c, eval_zero]
  · unfold BSp.EvalBasisFunsDers; rw [if_neg (by omega)]

/-- C26 with the span given by the caller: any nonempty span of the domain, any parameter (the
polynomial of the span is continued beyond it). -/
theorem C26_given_span (jk : ℤ → K) (j2 ja jd : ℤ → ℤ → K) {n : ℤ} {p : ℕ} {U : ℤ → K} (hp : 1 ≤ p)
    (hpn : (p : ℤ) ≤ n) (hs : SortedOn U 0 (n + p + 1)) {k : ℤ} (hk1 : (p : ℤ) ≤ k) (hk2 : k ≤ n)
    (hne : U k < U (k + 1)) (u : K) (d : ℕ) (hd : d ≤ p) :
    ∃ D, BSp.EvalBasisFunsDers jk j2 ja jd p (n + p + 1) U u d k = .ok D ∧
      ∀ l : ℕ, l ≤ d → ∀ r : ℤ, 0 ≤ r → r ≤ p →
        PolyDeriv (bsplineD n U p (k - p + r)) (U k) (U (k + 1)) l u (D l r) := by
  refine ⟨_, by unfold BSp.EvalBasisFunsDers; rw [if_pos (by omega)], ?_⟩
  intro l hl r a b
  rw [if_pos (by omega)]
  exact dersBasisFuns_polyDeriv jk j2 ja jd hs hk1 hk2 hne u d l hl r a b

/-- C26, orders above the degree (reached through `derivative(order)` with `order > p`): zero. -/
theorem C26_orders_above_degree (jk : ℤ → K) (j2 ja jd : ℤ → ℤ → K) {n : ℤ} {p : ℕ} {U : ℤ → K}
    (hs : SortedOn U 0 (n + p + 1)) {k : ℤ} (hk1 : (p : ℤ) ≤ k) (hk2 : k ≤ n) (hne : U k < U (k + 1))
    (u : K) (d l : ℕ) (hl : l ≤ d) (hpl : p < l) (r : ℤ) (hr0 : 0 ≤ r) (hrp : r ≤ p) :
    dersBasisFuns jk j2 ja jd k u p d U r l = 0 := by
  rw [dersBasisFuns_spec jk j2 ja jd k u p d U (Win.of_sorted hs hne (by omega) (by omega)) r hr0 hrp l hl,
    iterate_derivative_pieceP_zero _ _ _ _ _ hpl, eval_zero]

/-- a function that is a polynomial on a set has the derivatives of the polynomial there -/
theorem iteratedDerivWithin_poly {f : ℝ → ℝ} {s : Set ℝ} (hs : UniqueDiffOn ℝ s) {Q : ℝ[X]}
    (h : ∀ x ∈ s, f x = Q.eval x) : ∀ (l : ℕ), ∀ x ∈ s,
      iteratedDerivWithin l f s x = (derivative^[l] Q).eval x := by
  intro l
  induction l with
  | zero => intro x hx; simpa using h x hx
  | succ l ih =>
    intro x hx
    rw [iteratedDerivWithin_succ, Function.iterate_succ_apply']
    rw [derivWithin_congr (f := fun x => (derivative^[l] Q).eval x) (fun y hy => ih y hy) (ih x hx)]
    rw [Polynomial.derivWithin _ (hs x hx)]

/-- C26 over the real numbers, in terms of the analytic derivative: on the half open span for
parameters before the end of the domain, and on the half open span from the other side at the end. -/
theorem C26_real (jk : ℤ → ℝ) (j2 ja jd : ℤ → ℤ → ℝ) {n : ℤ} {p : ℕ} {U : ℤ → ℝ}
    (hv : ValidKnots n p U) {u : ℝ} (h1 : U p ≤ u) (h2 : u ≤ U (n + 1)) (d : ℕ) (hd : d ≤ p) :
    ∃ k D, BSp.FindSpan p (n + p + 1) U u = .ok k ∧
      BSp.EvalBasisFunsDers jk j2 ja jd p (n + p + 1) U u d = .ok D ∧
      ∀ l : ℕ, l ≤ d → ∀ r : ℤ, 0 ≤ r → r ≤ p →
        (u < U (n + 1) →
          D l r = iteratedDerivWithin l (bsplineD n U p (k - p + r)) (Set.Ico (U k) (U (k + 1))) u) ∧
        (U k < u → u < U (k + 1) → D l r = iteratedDeriv l (bsplineD n U p (k - p + r)) u) ∧
        (u = U (n + 1) →
          D l r = iteratedDerivWithin l (bsplineD n U p (k - p + r)) (Set.Ioc (U k) (U (k + 1))) u) := by
  have hp := hv.one_le
  have hle := hv.le
  have e : n + (p : ℤ) + 1 - (p + 1) = n := by ring
  have hsp := SpanOf.of_findSpan hv h1 h2
  have hlo := hsp.lo
  have hhi := hsp.hi
  refine ⟨findSpan n p u U, fun l r => dersBasisFuns jk j2 ja jd (findSpan n p u U) u p d U r l, ?_, ?_, ?_⟩
  · unfold BSp.FindSpan; rw [if_pos (by omega), e]
  · unfold BSp.EvalBasisFunsDers; rw [if_pos (by omega), if_neg (by omega), e]
  intro l hl r a b
  dsimp only
  rw [dersBasisFuns_spec jk j2 ja jd _ u p d U (hsp.win hv.sorted) r a b l hl]
  generalize findSpan n p u U = k at *
  have hpoly : ∀ x, U k ≤ x → x < U (k + 1) → bsplineD n U p (k - p + r) x =
      (pieceP U k p (k - p + r)).eval x :=
    fun x y1 y2 => bsplineD_on_span hv.sorted hsp.lo hsp.hi (by omega) (by omega) x y1 y2
  refine ⟨fun hu => ?_, fun hu1 hu2 => ?_, fun hu => ?_⟩
  · refine (iteratedDerivWithin_poly (uniqueDiffOn_Ico _ _) (fun x hx => hpoly x hx.1 hx.2) l u ?_).symm
    rcases hsp.mem with h | h
    · exact h
    · exact absurd h.2.2 hu.ne
  · rw [← iteratedDerivWithin_of_isOpen (s := Set.Ioo (U k) (U (k + 1))) isOpen_Ioo ⟨hu1, hu2⟩]
    exact (iteratedDerivWithin_poly (uniqueDiffOn_Ioo _ _) (fun x hx => hpoly x hx.1.le hx.2) l u
      ⟨hu1, hu2⟩).symm
  · have hk : U k < u ∧ u = U (k + 1) := by
      rcases hsp.mem with h | h
      · exact absurd (hv.sorted (k + 1) (n + 1) (by omega) (by omega) (by omega))
          (not_le.mpr (hu ▸ h.2))
      · exact ⟨h.1, h.2.1⟩
    refine (iteratedDerivWithin_poly (uniqueDiffOn_Ioc _ _) (fun x hx => ?_) l u
      ⟨hk.1, hk.2.le⟩).symm
    rcases hx.2.eq_or_lt with h | h
    · rw [eval_pieceP]
      exact SpanOf.basis ⟨hlo, hhi, Or.inr ⟨hx.1, h, by rw [h, ← hk.2, hu]⟩⟩ hv.sorted (by omega) (by omega)
    · exact hpoly x hx.1.le h

/-- values, first and second derivatives of the three quadratic B-splines on `[0,1)` of the sample
vector `0 0 0 1 2 2 3 3 3` at `1/2` -/
example : (BSp.EvalBasisFunsDers (fun _ => 7) (fun _ _ => 8) (fun _ _ => 9) (fun _ _ => 10) 2 8 Ex.U
      (1 / 2) 2).map (fun D => (List.range 3).map fun l : ℕ => (List.range 3).map fun r : ℕ => D l r) =
    .ok [[1 / 4, 5 / 8, 1 / 8], [-1, 1 / 2, 1 / 2], [2, -3, 1]] := by decide +kernel
example : ValidKnots 5 (2 : ℕ) Ex.U := Ex.U_valid

end Igakit
