import Verif.Model.SpanMult
import Verif.Props.Basis

/-!
# Properties C01, C02 for `bsp.FindSpanMult`
-/

namespace Igakit
open Spec

variable {K : Type} [Field K] [LinearOrder K] [IsStrictOrderedRing K]

/-- C01, C02: `bsp.FindSpanMult` returns the span of the parameter, for every array, together with the number of knots equal
to it (for a parameter of the domain that occurs at most `p+1` times); the calls rejected are those rejected by
`bsp.FindSpan`. -/
theorem C02_FindSpanMult {eps : K} (heps : 0 < eps) (p m : ℤ) (U : ℤ → K) (u : K) :
    (1 ≤ p ∧ 2 * p + 1 ≤ m → ∃ k s, BSp.FindSpanMult eps p m U u = .ok (k, s) ∧ IsSpan (m - p - 1) p U u k ∧
      (ValidKnots (m - p - 1) p U → U p ≤ u → u ≤ U (m - p) → SepFrom eps u U 0 m → (mult U 0 m u : ℤ) ≤ p + 1 →
        s = mult U 0 m u)) ∧
    (¬ (1 ≤ p ∧ 2 * p + 1 ≤ m) → BSp.FindSpanMult eps p m U u = .error .f2py) := by
  refine ⟨fun h => ?_, fun h => by unfold BSp.FindSpanMult; rw [if_neg h]⟩
  obtain ⟨k, hk, hs⟩ := (C01_FindSpan p m U u).1 h
  have hk' : findSpan (m - (p + 1)) p u U = k := by
    unfold BSp.FindSpan at hk
    rw [if_pos h] at hk
    exact Except.ok.inj hk
  refine ⟨k, findMult eps k u p U, by unfold BSp.FindSpanMult findSpanMult; rw [if_pos h, hk'], hs, fun hv h1 h2 hsep hm => ?_⟩
  obtain ⟨p, rfl⟩ : ∃ q : ℕ, p = q := ⟨p.toNat, by omega⟩
  have e : m - (p : ℤ) - 1 + p + 1 = m := by ring
  have := C02_FindMult heps hv h1 (by rw [show m - (p : ℤ) - 1 + 1 = m - p by ring]; exact h2) (by rwa [e])
    (by rw [e]; omega)
  rw [e] at this
  unfold BSp.FindMult at this
  rw [if_pos h, if_neg (by norm_num), hk'] at this
  exact Except.ok.inj this

/-- the double knot 2 of 0 0 0 1 2 2 3 3 3 -/
example : BSp.FindSpanMult (1 / 1000) 2 8 Ex.U 2 = .ok (5, 2) ∧ BSp.FindSpanMult (1 / 1000) 2 8 Ex.U (1 / 2) = .ok (2, 0) ∧
    BSp.FindSpanMult (1 / 1000) 2 4 Ex.U 2 = .error .f2py := by decide +kernel
example := (C02_FindSpanMult (eps := 1 / 1000) (by norm_num) 2 8 Ex.U 2).1 (by norm_num)

end Igakit
