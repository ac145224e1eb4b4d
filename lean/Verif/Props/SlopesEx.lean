import Verif.Props.Slopes
import Verif.Props.AveragesEx

/-!
# C87: concrete cases
-/

namespace Igakit
open Spec

/-- knots on the first axis, then a call that raises -/
def Ex.adds (jn jn' : Scratch ℚ) : List (Call ℚ) :=
  [(jn, .refine 0 (.fresh [3 / 4, 1 / 2])), (jn', .insert 7 (1 / 2) none)]

theorem Ex.adds_tame (jn jn' : Scratch ℚ) : TameAll Ex.env Ex.S (Ex.adds jn jn') := by
  refine ⟨?_, ?_, trivial⟩
  · intro a ha
    obtain rfl : (0 : Fin 2) = a := by injection ha
    constructor
    · intro x hx
      simp only [List.mem_cons, List.not_mem_nil, or_false] at hx
      rcases hx with rfl | rfl <;> exact ⟨by decide +kernel, by decide +kernel, Ex.U_sep _ (by decide +kernel)⟩
    · intro x hx y hy
      simp only [List.mem_cons, List.not_mem_nil, or_false] at hx hy
      rcases hx with rfl | rfl <;> rcases hy with rfl | rfl <;> decide +kernel
  · intro a ha
    exact absurd ha (by intro h; cases h)

theorem Ex.adds_adds (jn jn' : Scratch ℚ) : ∀ c ∈ Ex.adds jn jn', c.2.AddsKnots := by
  intro c hc
  simp only [Ex.adds, List.mem_cons, List.not_mem_nil, or_false] at hc
  rcases hc with rfl | rfl <;> trivial

/-- the weights of `Ex.S` increase along the second axis -/
theorem Ex.S_slopes : Ex.S.Slopes 1 {v | 0 < v 3} := by
  intro idx h1 h2
  have h0 := (h1 1).1
  have h2 : idx 1 + 1 < 3 := h2
  have hpos : 0 < Ex.S.U 1 (idx 1 + Ex.S.degree 1 + 1) - Ex.S.U 1 (idx 1 + 1) := by
    obtain h | h : idx 1 = 0 ∨ idx 1 = 1 := by omega
    · rw [h]; decide +kernel
    · rw [h]; decide +kernel
  refine ⟨(Ex.S.U 1 (idx 1 + Ex.S.degree 1 + 1) - Ex.S.U 1 (idx 1 + 1))⁻¹ • (Ex.S.P (Function.update idx 1 (idx 1 + 1)) - Ex.S.P idx), ?_, ?_⟩
  · show 0 < (Ex.S.U 1 (idx 1 + Ex.S.degree 1 + 1) - Ex.S.U 1 (idx 1 + 1))⁻¹ * ((1 + (Function.update idx 1 (idx 1 + 1) 1 : ℚ)) - (1 + (idx 1 : ℚ)))
    rw [Function.update_self]
    push_cast
    refine mul_pos (inv_pos.mpr hpos) (by linarith)
  · rw [smul_smul, mul_inv_cancel₀ hpos.ne', one_smul, add_sub_cancel]

/-- C87: so do the weights of the refined surface, and those of the clamped one -/
example (jn jn' : Scratch ℚ) : (history Ex.env Ex.S (Ex.adds jn jn')).Slopes 1 {v | 0 < v 3} :=
  C87_slopes (env := Ex.env) (by norm_num [Ex.env]) Ex.S_valid Ex.S_inner _ (Ex.adds_tame jn jn') (Ex.adds_adds jn jn') 1
    (fun x hx y hy a b ha hb hab => by
      have hx : 0 < x 3 := hx
      have hy : 0 < y 3 := hy
      show 0 < a * x 3 + b * y 3
      rcases ha.eq_or_lt with rfl | h
      · rw [zero_add] at hab; subst hab; simpa using hy
      · have := mul_pos h hx
        have := mul_nonneg hb hy.le
        linarith) Ex.S_slopes

example (jn : Scratch ℚ) (a : Fin 2) {S : Set (ℕ → ℚ)} (hS : Convex ℚ S) (h : Ex.S.Slopes a S) :
    (history Ex.env Ex.S [(jn, .clamp 1 none)]).Slopes a S :=
  C87_slopes (env := Ex.env) (by norm_num [Ex.env]) Ex.S_valid Ex.S_inner _ (Ex.clamp_tame jn)
    (by simp [Geo.AddsKnots]) a hS h

example := C87_converges Ex.S_valid Ex.S_inner 0

theorem Ex.S_pos : ∀ idx, Ex.S.InNet idx → 0 < Ex.S.P idx 3 := by
  intro idx h
  have h0 := (h 1).1
  show (0 : ℚ) < 1 + (idx 1 : ℚ)
  have : (0 : ℚ) ≤ idx 1 := by exact_mod_cast h0
  linarith

example (c : ℕ) (jn jn' : Scratch ℚ) : ∃ C : ℚ, 0 ≤ C ∧ ∀ h, (history Ex.env Ex.S (Ex.adds jn jn')).Mesh h →
    ∀ x idx, Ex.S.InDom x → (history Ex.env Ex.S (Ex.adds jn jn')).Acts idx x →
      |(history Ex.env Ex.S (Ex.adds jn jn')).P idx c / (history Ex.env Ex.S (Ex.adds jn jn')).P idx 3 -
        Ex.S.eval x c / Ex.S.eval x 3| ≤ C * h := by
  obtain ⟨C, h0, h1⟩ := C87_points Ex.S_valid Ex.S_inner Ex.S_pos c
  exact ⟨C, h0, fun h => h1 Ex.env _ h (by norm_num [Ex.env]) (Ex.adds_tame jn jn') (Ex.adds_adds jn jn')⟩

/-- the knots of `Ex.S` are at most 2 apart -/
example {c : ℕ} {M : Fin 2 → ℚ} (hM : ∀ a, Ex.S.Slopes a {v | |v c| ≤ M a}) {x : Fin 2 → ℚ} (hx : Ex.S.InDom x) {idx : Fin 2 → ℤ}
    (hi : Ex.S.Acts idx x) := C87_distance Ex.S_valid hM (h := 2) (by
      intro a j h0 h1
      fin_cases a
      · replace h1 : j + 1 < 9 := h1
        have h2 : j < 8 := by omega
        interval_cases j <;> decide +kernel
      · replace h1 : j + 1 < 6 := h1
        have h2 : j < 5 := by omega
        interval_cases j <;> decide +kernel) hx hi

example := C87_acts Ex.S_valid Ex.S_inner

end Igakit
