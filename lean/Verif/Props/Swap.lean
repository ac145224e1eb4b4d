import Verif.Props.CompatMore
import Verif.Props.Coons

/-!
# Property C102: ruled and coons with their arguments exchanged

The theorems carry the suffix `_partial` as C35 and C37 do: missing are objects that `compat` does not treat correctly (not clamped,
knots closer than the tolerance without being equal, elevation outside the limits of C16).
-/

set_option linter.unusedSectionVars false

namespace Igakit
open Spec

variable {K : Type} [Field K] [LinearOrder K] [IsStrictOrderedRing K] {d m : ℕ}

theorem Compatible.perm {eps : K} {N : Fin m → Nrb K d} {a : Fin d} {c e : K} (h : Compatible eps N a c e)
    (σ : Equiv.Perm (Fin m)) : Compatible eps (fun i => N (σ i)) a c e := by
  obtain ⟨q1, q2, q3, q4, q5⟩ := h
  refine ⟨fun i => q1 _, fun i => q2 _, fun i => q3 _, fun i j => q4 _ _, fun i j hk hl => q5 _ _ (fun k => ?_) hl⟩
  have := hk (σ.symm k)
  simpa using this

/-- the parameters with the last one reflected in `[0, 1]` -/
def flipLast (x : Fin (d + 2) → K) : Fin (d + 2) → K := fun a => if a = Fin.last (d + 1) then 1 - x a else x a

/-- C102: `ruled(n2, n1)` is `ruled(n1, n2)` run through in the opposite direction, in homogeneous coordinates -/
theorem C102_ruled_partial {eps : K} (heps : 0 < eps) (M1 M2 M1' M2' : Fin 2 → Fin (d + 1) → Mem K d) (hd : d + 1 ≤ 2)
    {N1 N2 : Nrb K (d + 1)} (hv1 : N1.Valid) (hv2 : N2.Valid)
    (hcomp : ∀ a, Compatible eps ![N1, N2] a (min (N1.lo a) (N2.lo a)) (max (N1.hi a) (N2.hi a))) :
    ∃ R R', Cad.ruled eps M1 M2 N1 N2 = .ok R ∧ Cad.ruled eps M1' M2' N2 N1 = .ok R' ∧
      R'.lo = R.lo ∧ R'.hi = R.hi ∧ R'.degree = R.degree ∧
      ∀ x, R.InDom x → R'.InDom (flipLast x) ∧ ∀ k < 4, R'.eval (flipLast x) k = R.eval x k := by
  obtain ⟨R, h1, _, h3, h4, h5, h6, h7⟩ := C35_ruled_partial heps M1 M2 hd hv1 hv2 (fun _ => rfl) (fun _ => rfl) hcomp
  have hcomp' : ∀ a, Compatible eps ![N2, N1] a (min (N1.lo a) (N2.lo a)) (max (N1.hi a) (N2.hi a)) := by
    intro a
    have := (hcomp a).perm (Equiv.swap 0 1)
    rwa [show (fun i => ![N1, N2] (Equiv.swap 0 1 i)) = ![N2, N1] by funext i; fin_cases i <;> rfl] at this
  obtain ⟨R', k1, _, k3, k4, k5, k6, k7⟩ := C35_ruled_partial heps M1' M2' hd hv2 hv1 (fun a => min_comm (N1.lo a) (N2.lo a))
    (fun a => max_comm (N1.hi a) (N2.hi a)) hcomp'
  have hlo : R'.lo = R.lo := by
    funext a
    refine Fin.lastCases ?_ (fun a => ?_) a
    · rw [h3, k3]
    · rw [(h6 a).1, (k6 a).1]
  have hhi : R'.hi = R.hi := by
    funext a
    refine Fin.lastCases ?_ (fun a => ?_) a
    · rw [h4, k4]
    · rw [(h6 a).2.1, (k6 a).2.1]
  have hdeg : R'.degree = R.degree := by
    funext a
    refine Fin.lastCases ?_ (fun a => ?_) a
    · rw [h5, k5]
    · rw [(h6 a).2.2, (k6 a).2.2, max_comm]
  refine ⟨R, R', h1, k1, hlo, hhi, hdeg, fun x hx => ?_⟩
  have hdom : R'.InDom (flipLast x) := by
    intro a
    rw [hlo, hhi]
    unfold flipLast
    split_ifs with ha
    · subst ha
      have := hx (Fin.last (d + 1))
      rw [h3, h4] at this ⊢
      exact ⟨by linarith [this.2], by linarith [this.1]⟩
    · exact hx a
  refine ⟨hdom, fun k hk => ?_⟩
  have e1 : flipLast x (Fin.last (d + 1)) = 1 - x (Fin.last (d + 1)) := if_pos rfl
  have e2 : ∀ a : Fin (d + 1), flipLast x a.castSucc = x a.castSucc := fun a => if_neg (Fin.castSucc_lt_last a).ne
  rw [k7 _ hdom k hk, h7 x hx k hk, e1]
  simp only [e2]
  ring

/-- a bilinear combination of four numbers of size at most `G` -/
theorem bilinear_le {s t G a b c e : K} (s0 : 0 ≤ s) (s1 : s ≤ 1) (t0 : 0 ≤ t) (t1 : t ≤ 1) (ha : |a| ≤ G) (hb : |b| ≤ G)
    (hc : |c| ≤ G) (he : |e| ≤ G) : |(1 - s) * (1 - t) * a + (1 - s) * t * b + s * (1 - t) * c + s * t * e| ≤ G := by
  have key : ∀ {w y : K}, 0 ≤ w → |y| ≤ G → |w * y| ≤ w * G := by
    intro w y hw hy
    rw [abs_mul, abs_of_nonneg hw]
    exact mul_le_mul_of_nonneg_left hy hw
  have u0 : 0 ≤ 1 - s := sub_nonneg.2 s1
  have v0 : 0 ≤ 1 - t := sub_nonneg.2 t1
  have q1 := key (mul_nonneg u0 v0) ha
  have q2 := key (mul_nonneg u0 t0) hb
  have q3 := key (mul_nonneg s0 v0) hc
  have q4 := key (mul_nonneg s0 t0) he
  have r1 := abs_add_le ((1 - s) * (1 - t) * a + (1 - s) * t * b + s * (1 - t) * c) (s * t * e)
  have r2 := abs_add_le ((1 - s) * (1 - t) * a + (1 - s) * t * b) (s * (1 - t) * c)
  have r3 := abs_add_le ((1 - s) * (1 - t) * a) ((1 - s) * t * b)
  have r4 : (1 - s) * (1 - t) * G + (1 - s) * t * G + s * (1 - t) * G + s * t * G = G := by ring
  linarith

/-- C102: exchanging the two pairs of curves of `coons` exchanges the two parameters of the patch, up to the error `G` in the corners,
and exactly if the corners match.  Weights are arbitrary. -/
theorem C102_coons_partial {eps : K} (heps : 0 < eps) (M M' : Cad.CoonsMem K) {C0 C1 : Fin 2 → Nrb K 1}
    (hC : CoonsCurves eps C0 C1) {G : K} (hG : G ≤ 1 / 10 ^ 15) (hgap : ∀ i j : Fin 2, ∀ k < 3, cornerGap C0 C1 i j k ≤ G) :
    ∃ R R', Cad.coons eps M (C0 0) (C0 1) (C1 0) (C1 1) = .ok R ∧ Cad.coons eps M' (C1 0) (C1 1) (C0 0) (C0 1) = .ok R' ∧
      (∀ a, R'.lo a = R.lo (Equiv.swap 0 1 a) ∧ R'.hi a = R.hi (Equiv.swap 0 1 a)) ∧
      ∀ x, R.InDom x → R'.InDom (fun a => x (Equiv.swap 0 1 a)) ∧
        ∀ k < 4, |R'.eval (fun a => x (Equiv.swap 0 1 a)) k - R.eval x k| ≤ G := by
  obtain ⟨R, h1, hv, _, l0, u0, l1, u1, hR⟩ := coons_formula heps M hC.valid0 hC.valid1 rfl rfl rfl rfl hC.pair0 hC.pair1
    (fun i j k hk => (hgap i j k hk).trans hG)
  obtain ⟨R', h1', hv', _, l0', u0', l1', u1', hR'⟩ := coons_formula heps M' hC.valid1 hC.valid0 rfl rfl rfl rfl hC.pair1 hC.pair0
    (fun i j k hk => by rw [abs_sub_comm]; exact (hgap j i k hk).trans hG)
  have a0 : R'.lo 0 = R.lo 1 := l0'.trans l1.symm
  have a1 : R'.lo 1 = R.lo 0 := l1'.trans l0.symm
  have b0 : R'.hi 0 = R.hi 1 := u0'.trans u1.symm
  have b1 : R'.hi 1 = R.hi 0 := u1'.trans u0.symm
  have hG0 : 0 ≤ G := (abs_nonneg _).trans (hgap 0 0 0 (by norm_num))
  refine ⟨R, R', h1, h1', fun a => ?_, fun x hx => ?_⟩
  · fin_cases a
    · exact ⟨a0, b0⟩
    · exact ⟨a1, b1⟩
  have hdom : R'.InDom (fun a => x (Equiv.swap 0 1 a)) := by
    intro a
    fin_cases a
    · show R'.lo 0 ≤ x 1 ∧ x 1 ≤ R'.hi 0
      rw [a0, b0]
      exact hx 1
    · show R'.lo 1 ≤ x 0 ∧ x 0 ≤ R'.hi 1
      rw [a1, b1]
      exact hx 0
  refine ⟨hdom, fun k hk => ?_⟩
  have e := hR x hx _ _ rfl rfl k hk
  have e' := hR' _ hdom _ _ rfl rfl k hk
  have x0 : x (Equiv.swap (0 : Fin 2) 1 0) = x 1 := rfl
  have x1 : x (Equiv.swap (0 : Fin 2) 1 1) = x 0 := rfl
  rw [x0, x1, a0, a1, b0, b1] at e'
  have unit : ∀ a, 0 ≤ affMap (R.lo a) (R.hi a) 0 1 (x a) ∧ affMap (R.lo a) (R.hi a) 0 1 (x a) ≤ 1 := by
    intro a
    have hlt := Nrb.lo_lt_hi hv a
    constructor
    · have := (affMap_le hlt (zero_lt_one (α := K))).2 (hx a).1
      rwa [affMap_left hlt] at this
    · have := (affMap_le hlt (zero_lt_one (α := K))).2 (hx a).2
      rwa [affMap_right hlt] at this
  obtain ⟨s0, s1⟩ := unit 0
  obtain ⟨t0, t1⟩ := unit 1
  have gap : ∀ i j : Fin 2, |(C1 j).endCoord i k - (C0 i).endCoord j k| ≤ G := by
    intro i j
    unfold Nrb.endCoord
    split_ifs with h3
    · simpa using hG0
    · exact hgap i j k (by omega)
  have key := bilinear_le s0 s1 t0 t1 (gap 0 0) (gap 0 1) (gap 1 0) (gap 1 1)
  rw [e, e']
  refine le_of_eq_of_le ?_ key
  congr 1
  ring

/-- C102: with matching corners the exchange is exact -/
theorem C102_coons_exact_partial {eps : K} (heps : 0 < eps) (M M' : Cad.CoonsMem K) {C0 C1 : Fin 2 → Nrb K 1}
    (hC : CoonsCurves eps C0 C1) (hgap : ∀ i j : Fin 2, ∀ k < 3, cornerGap C0 C1 i j k = 0) :
    ∃ R R', Cad.coons eps M (C0 0) (C0 1) (C1 0) (C1 1) = .ok R ∧ Cad.coons eps M' (C1 0) (C1 1) (C0 0) (C0 1) = .ok R' ∧
      ∀ x, R.InDom x → R'.InDom (fun a => x (Equiv.swap 0 1 a)) ∧
        ∀ k < 4, R'.eval (fun a => x (Equiv.swap 0 1 a)) k = R.eval x k := by
  obtain ⟨R, R', h1, h2, _, h3⟩ := C102_coons_partial heps M M' hC (G := 0) (by positivity) (fun i j k hk => (hgap i j k hk).le)
  exact ⟨R, R', h1, h2, fun x hx => ⟨(h3 x hx).1, fun k hk =>
    sub_eq_zero.1 (abs_eq_zero.1 (le_antisymm ((h3 x hx).2 k hk) (abs_nonneg _)))⟩⟩

namespace Ex

/-- curves of degrees 2 and 1 on different domains -/
example := C102_ruled_partial (eps := 1 / 1000) (by norm_num) memA memB memB memA (d := 0) (by norm_num) K1_valid K2_valid
  (fun a => by
    fin_cases a
    have e1 : min (K1.lo 0) (K2.lo 0) = 0 := by decide +kernel
    have e2 : max (K1.hi 0) (K2.hi 0) = 3 := by decide +kernel
    show Compatible _ _ 0 (min (K1.lo 0) (K2.lo 0)) (max (K1.hi 0) (K2.hi 0))
    rw [e1, e2]
    exact K_compatible)

/-- four curves of degrees 2 and 1 with weights 2 at the corners -/
example (M M' : Cad.CoonsMem ℚ) := C102_coons_exact_partial (by norm_num) M M' bd_curves2 bd_gap2

end Ex
end Igakit
