import Verif.Model.Abscissae
import Verif.Props.Axis
import Verif.Props.Spans
import Verif.Props.Gauss
import Verif.Props.Nurbs

/-! # C56: Lagrange and Lobatto abscissae -/

set_option linter.unusedSectionVars false

namespace Igakit
open Spec

variable {K : Type} [Field K] [LinearOrder K] [IsStrictOrderedRing K] {d : ℕ}

/-- `l` has, on every element (interval between neighbouring entries of `b`), the `p+1` points with the relative
positions `x 0, ..., x p`; neighbouring elements share their common end -/
def PerElement (p : ℕ) (x : ℕ → K) (b l : List K) : Prop :=
  l.length = (b.length - 1) * p + 1 ∧
  ∀ e, (he : e + 1 < b.length) → ∀ k ≤ p, l[e * p + k]? = some (b[e] + (b[e + 1] - b[e]) * x k)

theorem fill_perElement {p : ℕ} (hp : 1 ≤ p) {x : ℕ → K} (h0 : x 0 = 0) (h1 : x p = 1) {b : List K} :
    PerElement p x b (Nrb.fillElems p x b) := by
  refine ⟨by simp [Nrb.fillElems], fun e he k hk => ?_⟩
  have hle : e * p + k < (b.length - 1) * p + 1 := by
    have : (e + 1) * p ≤ (b.length - 1) * p := Nat.mul_le_mul_right _ (by omega)
    rw [Nat.add_mul, one_mul] at this
    omega
  unfold Nrb.fillElems
  rw [List.getElem?_map, List.getElem?_range hle, Option.map_some]
  congr 1
  have g0 : b.getD e 0 = b[e] := by
    rw [List.getD_eq_getElem?_getD, List.getElem?_eq_getElem (by omega), Option.getD_some]
  have g1 : b.getD (e + 1) 0 = b[e + 1] := by
    rw [List.getD_eq_getElem?_getD, List.getElem?_eq_getElem he, Option.getD_some]
  by_cases hkp : k = p
  · subst hkp
    have e1 : (e * k + k) % k = 0 := by simp
    have e2 : (e * k + k) / k = e + 1 := by
      rw [← Nat.succ_mul, Nat.mul_div_cancel _ (by omega)]
    rw [if_pos e1, e2, g1, h1]
    ring
  · have hlt : k < p := by omega
    have e1 : (e * p + k) % p = k := by
      rw [Nat.mul_comm, Nat.mul_add_mod, Nat.mod_eq_of_lt hlt]
    have e2 : (e * p + k) / p = e := by
      rw [Nat.mul_comm, Nat.mul_add_div (by omega), Nat.div_eq_of_lt hlt, add_zero]
    rw [e1, e2, g0, g1]
    by_cases hk0 : k = 0
    · rw [if_pos hk0, hk0, h0]; ring
    · rw [if_neg hk0]

theorem perElement_lt {p : ℕ} (hp : 1 ≤ p) {x : ℕ → K} (hx : ∀ k < p, x k < x (k + 1)) {b l : List K}
    (hb : b.Pairwise (· < ·)) (h : PerElement p x b l) : l.Pairwise (· < ·) := by
  rw [← List.isChain_iff_pairwise, List.isChain_iff_getElem]
  intro j hj
  have hl := h.1
  have hj' : j < (b.length - 1) * p := by omega
  have he : j / p + 1 < b.length := by
    have := (Nat.div_lt_iff_lt_mul (by omega)).2 hj'
    generalize j / p = q at *
    omega
  have hlt : j % p < p := Nat.mod_lt _ (by omega)
  have ej : j / p * p + j % p = j := by rw [Nat.mul_comm]; exact Nat.div_add_mod j p
  have a1 := h.2 (j / p) he (j % p) hlt.le
  have a2 := h.2 (j / p) he (j % p + 1) (by omega)
  rw [ej] at a1
  rw [← add_assoc, ej] at a2
  rw [List.getElem?_eq_getElem (by omega)] at a1
  rw [List.getElem?_eq_getElem (by omega)] at a2
  rw [Option.some.inj a1, Option.some.inj a2]
  have hpos : b[j / p] < b[j / p + 1] := List.pairwise_iff_getElem.1 hb _ _ _ _ (by omega)
  have := mul_lt_mul_of_pos_left (hx _ hlt) (sub_pos.2 hpos)
  linarith

theorem breaks_named {N : Nrb K d} {axis : ℤ} {a : Fin d} (ha : AxisName d axis a) :
    N.breaks ((a : ℕ) : ℤ) = N.breaks axis := by
  unfold Nrb.breaks; rw [normAxis_named ha, normAxis_self a]

/-- C56: on every element the `p+1` equally spaced points, in increasing order, each once. -/
theorem C56_lagrange {N : Nrb K d} (hv : N.Valid) {axis : ℤ} {a : Fin d} (ha : AxisName d axis a) :
    ∃ b l, N.breaks axis = .ok b ∧ N.lagrange axis = .ok l ∧ l.Pairwise (· < ·) ∧
      PerElement (N.degree a).toNat (fun k => (k : K) / ((N.degree a : ℤ) : K)) b l := by
  obtain ⟨p, hp, hk, e⟩ := deg_nat hv a
  have h1 := hk.one_le
  obtain ⟨b, hb, hbs, _⟩ := C32_breaks N (normAxis_named ha)
  have hpK : (0 : K) < p := by exact_mod_cast (by omega : 0 < p)
  have hx : ∀ k < p, (k : K) / (((p : ℕ) : ℤ) : K) < ((k + 1 : ℕ) : K) / (((p : ℕ) : ℤ) : K) := by
    intro k _
    push_cast
    exact div_lt_div_of_pos_right (lt_add_one _) hpK
  rw [hp, Int.toNat_natCast]
  refine ⟨b, ?_⟩
  by_cases h2 : p < 2
  · have hp1 : p = 1 := by omega
    refine ⟨b, hb, ?_, hbs, ?_, ?_⟩
    · unfold Nrb.lagrange
      rw [normAxis_named ha, res_ok_bind]
      dsimp only
      rw [breaks_named ha, hb, res_ok_bind, if_pos (by omega)]
      rfl
    · subst hp1
      have : b ≠ [] := by
        intro h0
        obtain ⟨l', e1, _, e3⟩ := C32_breaks N (normAxis_named ha)
        rw [hb] at e1
        cases e1
        have := (e3 (N.U a (N.degree a))).2 ⟨N.degree a, le_rfl, by have := hk.le; omega, rfl⟩
        rw [h0] at this
        cases this
      have := List.length_pos_of_ne_nil this
      omega
    · subst hp1
      intro e he k hk
      have : k = 0 ∨ k = 1 := by omega
      rcases this with rfl | rfl
      · rw [List.getElem?_eq_getElem (by omega)]
        simp
      · rw [List.getElem?_eq_getElem (by omega)]
        simp
  · have hfun : (fun k : ℕ => ((-1 + (k : K) * (2 / ((N.degree a : ℤ) : K))) + 1) / 2) =
        fun k : ℕ => (k : K) / (((p : ℕ) : ℤ) : K) := by
      funext k
      rw [hp]
      push_cast
      field_simp
      ring
    have hper := fill_perElement (K := K) (p := p) (by omega) (x := fun k : ℕ => (k : K) / (((p : ℕ) : ℤ) : K))
      (by simp) (by push_cast; exact div_self hpK.ne') (b := b)
    refine ⟨_, hb, ?_, perElement_lt (by omega) hx hbs hper, hper⟩
    unfold Nrb.lagrange
    rw [normAxis_named ha, res_ok_bind]
    dsimp only
    rw [breaks_named ha, hb, res_ok_bind, if_neg (by omega), hfun, hp]
    rfl

/-- C56: on every element the nodes of the Gauss-Lobatto rule with `p+1` points, mapped to the element. -/
theorem C56_lobatto {N : Nrb K d} (hv : N.Valid) {axis : ℤ} {a : Fin d} (ha : AxisName d axis a)
    (h9 : N.degree a ≤ 9) :
    ∃ b l X W, N.breaks axis = .ok b ∧ N.lobatto axis = .ok l ∧ GaussLobattoRule (N.degree a + 1) = .ok (X, W) ∧
      l.Pairwise (· < ·) ∧ PerElement (N.degree a).toNat (fun k => (((X.getD k 0 : ℚ) : K) + 1) / 2) b l := by
  obtain ⟨p, hp, hk, e⟩ := deg_nat hv a
  have h1 := hk.one_le
  obtain ⟨b, hb, hbs, _⟩ := C32_breaks N (normAxis_named ha)
  rw [hp] at h9
  obtain ⟨X, W, hXW, hXl, _, hXs, _, _, hX0, hX1, _⟩ := C30_GaussLobatto ((p : ℤ) + 1) (by omega) (by omega)
  have hXl : X.length = p + 1 := by exact_mod_cast hXl
  have hx : ∀ k < p, (((X.getD k 0 : ℚ) : K) + 1) / 2 < (((X.getD (k + 1) 0 : ℚ) : K) + 1) / 2 := by
    intro k hkp
    have : X.getD k 0 < X.getD (k + 1) 0 := by
      rw [List.getD_eq_getElem?_getD, List.getD_eq_getElem?_getD, List.getElem?_eq_getElem (by omega),
        List.getElem?_eq_getElem (by omega)]
      exact List.pairwise_iff_getElem.1 hXs _ _ _ _ (by omega)
    have : ((X.getD k 0 : ℚ) : K) < ((X.getD (k + 1) 0 : ℚ) : K) := by exact_mod_cast this
    linarith
  have hx0 : (((X.getD 0 0 : ℚ) : K) + 1) / 2 = 0 := by
    rw [List.getD_eq_getElem?_getD, ← List.head?_eq_getElem?, hX0]
    norm_num
  have hx1 : (((X.getD p 0 : ℚ) : K) + 1) / 2 = 1 := by
    rw [List.getLast?_eq_getElem?, hXl] at hX1
    rw [List.getD_eq_getElem?_getD, show p = p + 1 - 1 by omega, hX1]
    norm_num
  rw [hp, Int.toNat_natCast]
  refine ⟨b, ?_⟩
  by_cases h2 : p < 2
  · have hp1 : p = 1 := by omega
    refine ⟨b, X, W, hb, ?_, hXW, hbs, ?_, ?_⟩
    · unfold Nrb.lobatto
      rw [normAxis_named ha, res_ok_bind]
      dsimp only
      rw [breaks_named ha, hb, res_ok_bind, if_pos (by omega)]
      rfl
    · subst hp1
      have : b ≠ [] := by
        intro h0
        obtain ⟨l', e1, _, e3⟩ := C32_breaks N (normAxis_named ha)
        rw [hb] at e1
        cases e1
        have := (e3 (N.U a (N.degree a))).2 ⟨N.degree a, le_rfl, by have := hk.le; omega, rfl⟩
        rw [h0] at this
        cases this
      have := List.length_pos_of_ne_nil this
      omega
    · subst hp1
      intro e he k hk
      have : k = 0 ∨ k = 1 := by omega
      rcases this with rfl | rfl
      · rw [List.getElem?_eq_getElem (by omega)]
        dsimp only
        rw [hx0]
        simp
      · rw [List.getElem?_eq_getElem (by omega)]
        dsimp only
        rw [hx1]
        simp
  · have hper := fill_perElement (K := K) (p := p) (by omega) (x := fun k : ℕ => (((X.getD k 0 : ℚ) : K) + 1) / 2)
      hx0 hx1 (b := b)
    refine ⟨_, X, W, hb, ?_, hXW, perElement_lt (by omega) hx hbs hper, hper⟩
    unfold Nrb.lobatto
    rw [normAxis_named ha, res_ok_bind]
    dsimp only
    rw [breaks_named ha, hb, res_ok_bind, if_neg (by omega), hp, hXW]
    rfl

/-- C56: there is no table for degrees above nine: `lobatto` raises. -/
theorem C56_lobatto_rejects {N : Nrb K d} {axis : ℤ} {a : Fin d} (ha : AxisName d axis a)
    (h9 : 9 < N.degree a) : N.lobatto axis = .error .f2py := by
  unfold Nrb.lobatto
  obtain ⟨b, hb, _⟩ := C32_breaks N (normAxis_named ha)
  rw [normAxis_named ha, res_ok_bind]
  dsimp only
  rw [breaks_named ha, hb, res_ok_bind, if_neg (by omega), (C30_rejects (N.degree a + 1)).2 (Or.inr (by omega))]
  rfl

/-- C56: with one point more than the degree on every element and shared ends, the abscissae start and end with the
domain and contain all breaks -/
theorem C56_ends {p : ℕ} {x : ℕ → K} {b l : List K} (h : PerElement p x b l) (h0 : x 0 = 0) (h1 : x p = 1)
    (hb : 2 ≤ b.length) :
    l.head? = b.head? ∧ l.getLast? = b.getLast? ∧ ∀ y ∈ b, y ∈ l := by
  have hl := h.1
  refine ⟨?_, ?_, fun y hy => ?_⟩
  · have := h.2 0 (by omega) 0 (by omega)
    rw [h0] at this
    rw [List.head?_eq_getElem?, List.head?_eq_getElem?, List.getElem?_eq_getElem (l := b) (by omega)]
    simpa using this
  · have := h.2 (b.length - 2) (by omega) p le_rfl
    rw [h1] at this
    rw [List.getLast?_eq_getElem?, List.getLast?_eq_getElem?, List.getElem?_eq_getElem (l := b) (by omega), hl]
    have e : (b.length - 2) * p + p = (b.length - 1) * p + 1 - 1 := by
      rw [← Nat.succ_mul, show (b.length - 2).succ = b.length - 1 by omega]
      omega
    rw [← e, this]
    congr 1
    have e2 : b.length - 2 + 1 = b.length - 1 := by omega
    simp only [e2]
    ring
  · obtain ⟨e, he, rfl⟩ := List.getElem_of_mem hy
    by_cases hlast : e + 1 < b.length
    · have := h.2 e hlast 0 (by omega)
      rw [h0] at this
      have hm := List.mem_of_getElem? this
      simpa using hm
    · have := h.2 (b.length - 2) (by omega) p le_rfl
      rw [h1] at this
      have hm := List.mem_of_getElem? this
      have e2 : b.length - 2 + 1 = e := by omega
      simp only [e2] at hm
      simpa using hm

/-! ## examples -/

example : (Ex.S.lagrange 0).toOption = some [0, 1 / 2, 1, 3 / 2, 2, 5 / 2, 3] := by
  unfold Nrb.lagrange Nrb.breaks
  rw [normAxis_named (a := (0 : Fin 2)) (axis := 0) (Or.inl rfl), res_ok_bind]
  dsimp only
  rw [show normAxis 2 (((0 : Fin 2) : ℕ) : ℤ) = .ok 0 from rfl, res_ok_bind]
  have : Nrb.npUnique (Nrb.slab (Ex.S.U 0) (Ex.S.degree 0) (Ex.S.len 0 - Ex.S.degree 0 - 1)) = [0, 1, 2, 3] := by
    have : Nrb.slab (Ex.S.U 0) (Ex.S.degree 0) (Ex.S.len 0 - Ex.S.degree 0 - 1) = [0, 1, 2, 2, 3] := by decide +kernel
    rw [this]
    simp [Nrb.npUnique, List.mergeSort, List.MergeSort.Internal.splitInTwo, List.merge]
    norm_num
  rw [this]
  decide +kernel

example := C56_lagrange Ex.S_valid (axis := -2) (a := 0) (Or.inr rfl)
example := C56_lobatto Ex.S_valid (axis := 1) (a := 1) (Or.inl rfl) (by decide)

end Igakit
