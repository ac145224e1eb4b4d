import Verif.Proofs.Float

/-! # Signs of the computed basis functions, gradual underflow included -/

set_option linter.unusedSectionVars false

namespace Igakit
open Spec

variable {K : Type} [Field K] [LinearOrder K] [IsStrictOrderedRing K]

namespace Fp

variable {F : K → Prop} {rd : K → K} (hr : Rounds F rd)

/-- a nonnegative finite floating point number -/
def Good (F : K → Prop) (a : Fp K) : Prop := ∃ x, a = some x ∧ F x ∧ 0 ≤ x

include hr

theorem Rounds_nonneg {x : K} (h : 0 ≤ x) : 0 ≤ rd x := by
  have := hr.mono h
  rwa [hr.exact 0 hr.zero] at this

theorem Good.add {a b : Fp K} (ha : Good F a) (hb : Good F b) : Good F (Fp.add rd a b) := by
  obtain ⟨x, rfl, -, hx⟩ := ha
  obtain ⟨y, rfl, -, hy⟩ := hb
  exact ⟨_, rfl, hr.mem _, Rounds_nonneg hr (add_nonneg hx hy)⟩

theorem Good.mul {a b : Fp K} (ha : Good F a) (hb : Good F b) : Good F (Fp.mul rd a b) := by
  obtain ⟨x, rfl, -, hx⟩ := ha
  obtain ⟨y, rfl, -, hy⟩ := hb
  exact ⟨_, rfl, hr.mem _, Rounds_nonneg hr (mul_nonneg hx hy)⟩

theorem Good.sub {x y : K} (h : y ≤ x) : Good F (Fp.sub rd (some x) (some y)) :=
  ⟨_, rfl, hr.mem _, Rounds_nonneg hr (sub_nonneg.mpr h)⟩

/-- the denominator: a sum of two numbers, not both zero -/
theorem Good.div {a b c : Fp K} (ha : Good F a) (hb : Good F b) (hc : Good F c)
    (hpos : b ≠ some 0 ∨ c ≠ some 0) : Good F (Fp.div rd a (Fp.add rd b c)) := by
  obtain ⟨x, rfl, -, hx⟩ := ha
  obtain ⟨y, rfl, Fy, hy⟩ := hb
  obtain ⟨z, rfl, Fz, hz⟩ := hc
  have hd : 0 < rd (y + z) := by
    rcases hpos with h | h
    · have : 0 < y := lt_of_le_of_ne hy (fun e => h (by rw [e]))
      calc 0 < y := this
        _ = rd y := (hr.exact y Fy).symm
        _ ≤ rd (y + z) := hr.mono (by linarith)
    · have : 0 < z := lt_of_le_of_ne hz (fun e => h (by rw [e]))
      calc 0 < z := this
        _ = rd z := (hr.exact z Fz).symm
        _ ≤ rd (y + z) := hr.mono (by linarith)
  exact ⟨rd (x / rd (y + z)), if_neg hd.ne', hr.mem _, Rounds_nonneg hr (div_nonneg hx hd.le)⟩

theorem basisInner_good {left right : ℤ → Fp K} {j : ℤ} (hj : 1 ≤ j) {N : ℤ → Fp K}
    (hL : ∀ i, 1 ≤ i → i ≤ j → Good F (left i)) (hR : ∀ i, 1 ≤ i → i ≤ j → Good F (right i))
    (hpos : ∀ r, 0 ≤ r → r < j → right (r + 1) ≠ some 0 ∨ left (j - r) ≠ some 0)
    (hN : ∀ r, 0 ≤ r → r < j → Good F (N r)) :
    (∀ r, 0 ≤ r → r < j → Good F ((Fp.basisInner rd left right j N).1 r)) ∧
    Good F (Fp.basisInner rd left right j N).2 := by
  have key := forUp_inv (fun i (s : (ℤ → Fp K) × Fp K) => (∀ r, 0 ≤ r → r < j → Good F (s.1 r)) ∧ Good F s.2)
    (lo := 0) (hi := j - 1) (s := (N, some 0)) (f := fun r (s : (ℤ → Fp K) × Fp K) =>
      let temp := Fp.div rd (s.1 r) (Fp.add rd (right (r + 1)) (left (j - r)))
      (upd s.1 r (Fp.add rd s.2 (Fp.mul rd (right (r + 1)) temp)), Fp.mul rd (left (j - r)) temp)) (by omega)
    ⟨hN, 0, rfl, hr.zero, le_rfl⟩ ?_
  · exact key
  · rintro i s a b ⟨k1, k2⟩
    have gR := hR (i + 1) (by omega) (by omega)
    have gL := hL (j - i) (by omega) (by omega)
    have ht := (k1 i a (by omega)).div hr gR gL (hpos i a (by omega))
    refine ⟨fun r r0 r1 => ?_, gL.mul hr ht⟩
    dsimp only
    by_cases hri : r = i
    · rw [upd_eq _ _ hri]
      exact k2.add hr (gR.mul hr ht)
    · rw [upd_ne _ _ hri]
      exact k1 r r0 r1

theorem basisFuns_good (jk : ℤ → Fp K) {k : ℤ} {u : K} {p : ℕ} {U : ℤ → K}
    (hs : SortedOn U (k + 1 - p) (k + p)) (hF : ∀ i, k + 1 - p ≤ i → i ≤ k + p → F (U i)) (hu : F u)
    (hlt : U k < U (k + 1)) (hu1 : U k ≤ u) (hu2 : u ≤ U (k + 1)) :
    ∀ r : ℤ, 0 ≤ r → r ≤ p → Good F (Fp.basisFuns rd jk k u p U r) := by
  have key := forUp_inv (fun j (s : Fp.BasisSt K) =>
      (∀ r, 0 ≤ r → r < j → Good F (s.N r)) ∧
      (∀ i, 1 ≤ i → i < j → Good F (s.left i) ∧ (U k < u → s.left i ≠ some 0)) ∧
      (∀ i, 1 ≤ i → i < j → Good F (s.right i) ∧ (u < U (k + 1) → s.right i ≠ some 0)))
    (lo := 1) (hi := (p : ℤ)) (s := { N := upd jk 0 (some 1), left := jk, right := jk })
    (f := Fp.basisOuter rd k u U) (by omega)
    ⟨fun r a b => by
      obtain rfl : r = 0 := by omega
      dsimp only
      rw [upd_same]
      exact ⟨1, rfl, hr.one, zero_le_one⟩, fun i a b => by omega, fun i a b => by omega⟩ ?_
  · intro r a b
    exact key.1 r a (by omega)
  · rintro j s a b ⟨k1, k2, k3⟩
    have hle : ∀ i, 1 ≤ i → i ≤ j → U (k + 1 - i) ≤ U k := fun i i1 i2 => hs _ _ (by omega) (by omega) (by omega)
    have hge : ∀ i, 1 ≤ i → i ≤ j → U (k + 1) ≤ U (k + i) := fun i i1 i2 => hs _ _ (by omega) (by omega) (by omega)
    have hL : ∀ i, 1 ≤ i → i < j + 1 →
        Good F (upd s.left j (Fp.sub rd (some u) (some (U (k + 1 - j)))) i) ∧
        (U k < u → upd s.left j (Fp.sub rd (some u) (some (U (k + 1 - j)))) i ≠ some 0) := fun i i1 i2 => by
      by_cases e : i = j
      · subst e
        rw [upd_same]
        refine ⟨Good.sub hr ((hle i i1 le_rfl).trans hu1), fun h e => ?_⟩
        have h2 := hr.apart _ _ (hF (k + 1 - i) (by omega) (by omega)) hu (lt_of_le_of_lt (hle i i1 le_rfl) h)
        injection e with e
        exact h2.ne' e
      · rw [upd_ne _ _ e]
        exact k2 i i1 (by omega)
    have hR : ∀ i, 1 ≤ i → i < j + 1 →
        Good F (upd s.right j (Fp.sub rd (some (U (k + j))) (some u)) i) ∧
        (u < U (k + 1) → upd s.right j (Fp.sub rd (some (U (k + j))) (some u)) i ≠ some 0) := fun i i1 i2 => by
      by_cases e : i = j
      · subst e
        rw [upd_same]
        refine ⟨Good.sub hr (hu2.trans (hge i i1 le_rfl)), fun h e => ?_⟩
        have h2 := hr.apart _ _ hu (hF (k + i) (by omega) (by omega)) (lt_of_lt_of_le h (hge i i1 le_rfl))
        injection e with e
        exact h2.ne' e
      · rw [upd_ne _ _ e]
        exact k3 i i1 (by omega)
    have hin := basisInner_good hr (left := upd s.left j (Fp.sub rd (some u) (some (U (k + 1 - j)))))
      (right := upd s.right j (Fp.sub rd (some (U (k + j))) (some u))) a (fun i i1 i2 => (hL i i1 (by omega)).1)
      (fun i i1 i2 => (hR i i1 (by omega)).1)
      (fun r r0 r1 => by
        rcases hu1.lt_or_eq with h | h
        · exact .inr ((hL (j - r) (by omega) (by omega)).2 h)
        · exact .inl ((hR (r + 1) (by omega) (by omega)).2 (h ▸ hlt))) (N := s.N) k1
    refine ⟨fun r r0 r1 => ?_, hL, hR⟩
    unfold Fp.basisOuter
    dsimp only
    by_cases hrj : r = j
    · rw [upd_eq _ _ hrj]
      exact hin.2
    · rw [upd_ne _ _ hrj]
      exact hin.1 r r0 (by omega)

end Fp
end Igakit
