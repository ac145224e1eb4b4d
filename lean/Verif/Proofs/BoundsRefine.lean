import Verif.Proofs.BoundsKnots

set_option linter.unusedSectionVars false

/-!
# Checked knot refinement
-/

namespace Igakit
open Spec

variable {K : Type} [Field K] [LinearOrder K]
variable {E : Type} [AddCommGroup E] [Module K E]

/-- the state of `RefineKnotVector` with the bounds of its arrays -/
def RefineSt.enc (n p r : ℤ) (s : RefineSt K E) : RefineStC K E :=
  ⟨s.i, s.k, ⟨0, n + r + 1 + p + 1, s.Ubar⟩, ⟨0, n + r + 1, s.Qw⟩⟩

/-- the indices of `RefineKnotVector` -/
structure RefIdx (n p j : ℤ) (s : RefineSt K E) : Prop where
  lo : p ≤ s.i
  hi : s.i ≤ n + p
  eq : s.k = s.i + j + 1

theorem refineWhileC_ok {n p r j a : ℤ} (hp : 0 ≤ p) (hj : 0 ≤ j) (hjr : j ≤ r) (ha : p ≤ a) (han : a ≤ n) {U : ℤ → K} (Pw : ℤ → E) {x : K}
    (hx : ∀ i, n + 1 ≤ i → i ≤ n + p → x ≤ U i) :
    ∀ (fuel : ℕ) (s : RefineSt K E), (s.i - a).toNat = fuel → RefIdx n p j s →
      whileC (fun s : RefineStC K E => do
          let y ← (Arr.mk 0 (n + p + 1) U).get s.i
          .ok (decide (x ≤ y) && decide (s.i > a)))
        (fun s => do
          let P ← (Arr.mk 0 n Pw).get (s.i - p - 1)
          let Qw ← s.Qw.set (s.k - p - 1) P
          let y ← (Arr.mk 0 (n + p + 1) U).get s.i
          let Ubar ← s.Ubar.set s.k y
          .ok { i := s.i - 1, k := s.k - 1, Ubar := Ubar, Qw := Qw }) fuel (s.enc n p r) =
        .ok ((refineWhile p U Pw x a fuel s).enc n p r) ∧
      RefIdx n p j (refineWhile p U Pw x a fuel s) ∧ (refineWhile p U Pw x a fuel s).i ≤ n := by
  intro fuel
  induction fuel with
  | zero =>
    intro s hf hI
    obtain ⟨c1, c2, c3⟩ := hI
    refine ⟨?_, ⟨c1, c2, c3⟩, ?_⟩
    · unfold whileC refineWhile
      dsimp only [RefineSt.enc]
      rw [Arr.get_ok (by omega) (by omega), ok_bind, ok_bind, if_neg]
      rw [Bool.and_eq_true]
      intro h
      have := of_decide_eq_true h.2
      omega
    · unfold refineWhile; omega
  | succ fuel ih =>
    intro s hf hI
    obtain ⟨c1, c2, c3⟩ := hI
    unfold whileC refineWhile
    by_cases hc : x ≤ U s.i ∧ s.i > a
    · rw [if_pos hc]
      dsimp only [RefineSt.enc]
      rw [Arr.get_ok (by omega) (by omega), ok_bind, ok_bind, if_pos (by simpa using hc), Arr.get_ok (by omega) (by omega),
        ok_bind, Arr.set_ok (by omega) (by omega), ok_bind, ok_bind, Arr.set_ok (by omega) (by omega), ok_bind, ok_bind]
      exact ih ⟨s.i - 1, s.k - 1, _, _⟩ (by dsimp only; omega) ⟨by dsimp only; omega, by dsimp only; omega, by dsimp only; omega⟩
    · rw [if_neg hc]
      refine ⟨?_, ⟨c1, c2, c3⟩, ?_⟩
      · dsimp only [RefineSt.enc]
        rw [Arr.get_ok (by omega) (by omega), ok_bind, ok_bind, if_neg (by simpa using hc)]
      · by_contra h
        exact hc ⟨hx s.i (by omega) c2, by omega⟩

theorem refineInnerC_ok {n p r j i k : ℤ} (hj : 0 ≤ j) (hjr : j ≤ r) (h1 : p ≤ i) (h2 : i ≤ n)
    (hk : k = i + j + 1) (eps : K) (U : ℤ → K) (x : K) (Ubar : ℤ → K) (Qw : ℤ → E) :
    refineInnerC eps p ⟨0, n + p + 1, U⟩ x i k ⟨0, n + r + 1 + p + 1, Ubar⟩ ⟨0, n + r + 1, Qw⟩ =
      .ok ⟨0, n + r + 1, refineInner eps p U x i k Ubar Qw⟩ := by
  unfold refineInnerC
  refine forUpC_eq (fun Q : ℤ → E => (⟨0, n + r + 1, Q⟩ : Arr E)) (fun l Q a b => ?_)
  rw [Arr.get_ok (by omega) (by omega), ok_bind]
  dsimp only
  by_cases hc : |Ubar (k + l) - x| < eps
  · rw [if_pos hc, if_pos hc, Arr.get_ok (by omega) (by omega), ok_bind, Arr.set_ok (by omega) (by omega)]
  · rw [if_neg hc, if_neg hc, Arr.get_ok (by omega) (by omega), ok_bind, Arr.get_ok (by omega) (by omega), ok_bind,
      Arr.get_ok (by omega) (by omega), ok_bind, Arr.set_ok (by omega) (by omega)]

theorem refineKnotVectorC_ok {n p r : ℤ} (hp : 0 ≤ p) (hpn : p ≤ n) (hr : -1 ≤ r) {U X : ℤ → K}
    (hX : ∀ j, 0 ≤ j → j ≤ r → ∀ i, n + 1 ≤ i → i ≤ n + p → X j ≤ U i)
    (eps : K) (jk : ℤ → K) (je : ℤ → E) (Pw : ℤ → E) :
    refineKnotVectorC eps n p ⟨0, n + p + 1, U⟩ ⟨0, n, Pw⟩ r ⟨0, r, X⟩ ⟨0, n + r + 1 + p + 1, jk⟩ ⟨0, n + r + 1, je⟩ =
      .ok (⟨0, n + r + 1 + p + 1, (refineKnotVector eps jk je n p U Pw r X).1⟩,
        ⟨0, n + r + 1, (refineKnotVector eps jk je n p U Pw r X).2⟩) := by
  unfold refineKnotVectorC refineKnotVector
  rw [Arr.arg_ok le_rfl, ok_bind, Arr.arg_ok le_rfl, ok_bind, Arr.arg_ok le_rfl, ok_bind, Arr.arg_ok le_rfl, ok_bind,
    Arr.arg_ok le_rfl, ok_bind]
  by_cases h : r < 0
  · obtain rfl : r = -1 := by omega
    rw [if_pos h, if_pos h, show n + -1 + 1 + p + 1 = n + p + 1 by ring, show n + -1 + 1 = n by ring, copyC_ok, ok_bind,
      copyC_ok, ok_bind]
  have ha := findSpan_range (U := U) (X 0) hp hpn
  have hb := findSpan_range (U := U) (X r) hp hpn
  rw [if_neg h, if_neg h, Arr.get_ok (by omega) (by omega), ok_bind, findSpanC_ok hp hpn le_rfl, ok_bind,
    Arr.get_ok (by omega) (by omega), ok_bind, findSpanC_ok hp hpn le_rfl, ok_bind]
  dsimp only
  generalize findSpan n p (X 0) U = a at ha ⊢
  generalize findSpan n p (X r) U = b at hb ⊢
  rw [fillC_ok Pw (fun i a b => Arr.get_ok (by omega) (by omega)) (by intro; omega) (by intro; omega), ok_bind,
    fillC_ok Pw (fun i a b => Arr.get_ok (by omega) (by omega)) (by intro; omega) (by intro; omega), ok_bind,
    fillC_ok U (fun i a b => Arr.get_ok (by omega) (by omega)) (by intro; omega) (by intro; omega), ok_bind,
    fillC_ok U (fun i a b => Arr.get_ok (by omega) (by omega)) (by intro; omega) (by intro; omega), ok_bind]
  have key := forDownC_inv (RefineSt.enc n p r) (lo := 0) (hi := r)
    (fC := refineOuterC eps p ⟨0, n + p + 1, U⟩ ⟨0, n, Pw⟩ ⟨0, r, X⟩ a) (f := refineOuter eps p U Pw X a)
    (RefIdx n p)
    (s := ⟨b + 1 + p - 1, b + 1 + p + r,
      fillRange (fillRange jk 0 a 0 (fun j => U j)) (b + 1 + p) (n + p + 1) (r + 1) (fun j => U j),
      fillRange (fillRange je 0 (a - p) 0 (fun j => Pw j)) (b + 1 - 1) n (r + 1) (fun j => Pw j)⟩)
    ⟨by dsimp only; omega, by dsimp only; omega, by dsimp only; omega⟩
    (by
      intro j s c d hI
      obtain ⟨e1, e2, e3⟩ := refineWhileC_ok (r := r) hp c d ha.1 ha.2 Pw (hX j c d) _ s rfl hI
      unfold refineOuterC refineOuter
      dsimp only
      rw [Arr.get_ok c d, ok_bind]
      unfold refineWhileC
      dsimp only [RefineSt.enc] at e1 ⊢
      rw [e1, ok_bind]
      generalize refineWhile p U Pw (X j) a (s.i - a).toNat s = t at e2 e3 ⊢
      obtain ⟨f1, f2, f3⟩ := e2
      dsimp only
      rw [Arr.get_ok (by omega) (by omega), ok_bind, Arr.set_ok (by omega) (by omega), ok_bind,
        refineInnerC_ok c d f1 e3 f3, ok_bind, Arr.set_ok (by omega) (by omega), ok_bind]
      exact ⟨rfl, f1, by dsimp only; omega, by dsimp only; omega⟩)
  dsimp only [RefineSt.enc] at key
  rw [key, ok_bind]

end Igakit
