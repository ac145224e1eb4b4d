import Verif.Proofs.Cad
import Verif.Props.Nurbs

/-! # C34 lines and multilinear patches, C35 extrusion and sweep -/

set_option linter.unusedSectionVars false

namespace Igakit
open Spec Transform

variable {K : Type} [Field K] [LinearOrder K] [IsStrictOrderedRing K] {d : ℕ}

/-! ## C34 -/

/-- specification: multilinear interpolation of the `2^d` values at the corners of the unit cube -/
def Spec.multilin (v : (Fin d → Fin 2) → K) (x : Fin d → K) : K :=
  ∑ e, (∏ a, if e a = 0 then 1 - x a else x a) * v e

/-- entry of a corner in an array of shape `(2,...,2,s)` -/
def Nd.corner (C : Nd K) (e : Fin d → Fin 2) (c : ℕ) : K :=
  C.get (List.ofFn (fun a => ((e a : ℕ) : ℤ)) ++ [(c : ℤ)])

/-- the object is a patch on the unit cube of degree one in each direction -/
structure Nrb.UnitPatch (N : Nrb K d) : Prop where
  valid : N.Valid
  nc : N.nc = 4
  degree : ∀ a, N.degree a = 1
  lo : ∀ a, N.lo a = 0
  hi : ∀ a, N.hi a = 1
  shape : ∀ a, N.shape a = 2
  first : ∀ a, N.U a 0 = 0
  last : ∀ a, N.U a 3 = 1

theorem multilin_one (x : Fin d → K) : multilin (fun _ => (1 : K)) x = 1 := by
  unfold multilin
  simp only [mul_one]
  have := Finset.prod_univ_sum (fun _ : Fin d => (Finset.univ : Finset (Fin 2)))
    (fun a j => if j = 0 then 1 - x a else x a)
  rw [Fintype.piFinset_univ] at this
  rw [← this]
  apply Finset.prod_eq_one
  intro a _
  rw [Fin.sum_univ_two]
  simp

theorem ctor_unit {C : Nd K} {s : ℤ} (h1 : 1 ≤ d) (h3 : d ≤ 3)
    (hC : C.shape = List.replicate d 2 ++ [s]) (hs : 2 ≤ s ∧ s ≤ 4) :
    ∃ N : Nrb K d, Nrb.ctor (fun _ => unitKnots) (.arr C) none none = .ok N ∧ N.UnitPatch ∧
      ∀ x, N.InDom x → ∀ c, N.eval x c = multilin (fun e =>
        homog C none s (List.ofFn (fun a => ((e a : ℕ) : ℤ))) c) x := by
  have hr : List.replicate d (2 : ℤ) = List.ofFn (fun _ : Fin d => (2 : ℤ)) := (List.ofFn_const d 2).symm
  rw [hr] at hC
  refine ⟨_, ctor_points (W := none) (len := fun _ => 4) h1 h3 (fun _ => rfl) (fun _ => le_rfl) hC hs
    (fun w h => by cases h) (fun _ => by norm_num) (Or.inl ⟨rfl, rfl⟩), ⟨?_, rfl, ?_, ?_, ?_, ?_, ?_, ?_⟩, ?_⟩
  · intro a; exact uk_valid
  · intro a; rfl
  · intro a; rfl
  · intro a; rfl
  · intro a; rfl
  · intro a; rfl
  · intro a; rfl
  · intro x hx c
    have hx' : ∀ a, 0 ≤ x a ∧ x a ≤ 1 := hx
    unfold Nrb.eval
    have := congrFun (tensor_uk (fun idx c => homog C none s (List.ofFn idx) c) hx') c
    refine Eq.trans this ?_
    rw [Finset.sum_apply]
    rfl

/-- C34: `cad.line` is the segment from `p0` to `p1`, traversed at constant speed, with weight one
(missing coordinates are zero). -/
theorem C34_line (p0 p1 : ArrArg K) (h0 : p0.toList.length ≤ 3) (h1 : p1.toList.length ≤ 3) :
    ∃ N, Cad.line p0 p1 = .ok N ∧ N.UnitPatch ∧ ∀ u, 0 ≤ u → u ≤ 1 →
      N.eval ![u] 3 = 1 ∧
      ∀ c : Fin 3, N.point ![u] c = (1 - u) * p0.toList.getD c 0 + u * p1.toList.getD c 0 := by
  unfold Cad.line
  dsimp only
  rw [if_neg (by omega)]
  obtain ⟨C, hC1, hC2⟩ : ∃ C : Nd K, C.shape = [2, 3] ∧ C.get = (fun i : List ℤ =>
      if i.getD 0 0 = 0 then p0.toList.getD (i.getD 1 0).toNat 0 else p1.toList.getD (i.getD 1 0).toNat 0) :=
    ⟨⟨_, _⟩, rfl, rfl⟩
  rw [← hC1, ← hC2]
  obtain ⟨N, hN, hp, he⟩ := ctor_unit (d := 1) (s := 3) (C := C) le_rfl (by norm_num) hC1 (by norm_num)
  refine ⟨N, hN, hp, fun u hu0 hu1 => ?_⟩
  have hx : N.InDom ![u] := fun a => by rw [hp.lo, hp.hi]; fin_cases a; exact ⟨hu0, hu1⟩
  have key : ∀ c, N.eval ![u] c = (1 - u) * homog C none 3 [0] c + u * homog C none 3 [1] c := by
    intro c
    rw [he _ hx c]
    unfold multilin
    rw [← Fintype.sum_equiv (Equiv.funUnique (Fin 1) (Fin 2)).symm
      (fun j => (if j = 0 then 1 - u else u) * homog C none 3 [((j : ℕ) : ℤ)] c) _ (fun j => by simp),
      Fin.sum_univ_two]
    simp
  have k3 : N.eval ![u] 3 = 1 := by
    rw [key]
    simp [homog]
  refine ⟨k3, fun c => ?_⟩
  unfold Nrb.point Nrb.proj
  rw [k3, div_one, key]
  fin_cases c <;> simp [homog, hC2]

/-- C34: more than three coordinates are rejected -/
theorem C34_line_rejects (p0 p1 : ArrArg K) (h : 3 < p0.toList.length ∨ 3 < p1.toList.length) :
    Cad.line p0 p1 = .error .value := if_pos h

/-- C34: `linear`, `bilinear` and `trilinear` interpolate their `2^d` corner points with weight one. -/
theorem C34_multilinear (h1 : 1 ≤ d) (h3 : d ≤ 3) {C : Nd K} {s : ℤ}
    (hC : C.shape = List.replicate d 2 ++ [s]) (hs : s = 2 ∨ s = 3) :
    ∃ N : Nrb K d, Cad.multilinear d (some C) = .ok N ∧ N.UnitPatch ∧ ∀ x, N.InDom x →
      N.eval x 3 = 1 ∧
      ∀ c : Fin 3, N.point x c = multilin (fun e => if ((c : ℕ) : ℤ) < s then C.corner e c else 0) x := by
  obtain ⟨N, hN, hp, he⟩ := ctor_unit h1 h3 hC (by omega)
  refine ⟨N, ?_, hp, fun x hx => ?_⟩
  · unfold Cad.multilinear
    dsimp only
    rw [pyAssert_ok (by rw [hC, List.dropLast_concat])]
    exact hN
  · have k3 : N.eval x 3 = 1 := by
      rw [he x hx, ← multilin_one x]
      congr 1
      funext e
      unfold homog
      rw [if_neg (by omega), if_neg (by omega), if_pos rfl]
    refine ⟨k3, fun c => ?_⟩
    unfold Nrb.point Nrb.proj
    rw [k3, div_one, he x hx]
    congr 1
    funext e
    unfold homog Nd.corner
    have := c.2
    rw [if_neg (by omega : ¬ s = 4), if_neg (by omega : ¬ (c : ℕ) = 3)]

/-- C34: with four components the corners are homogeneous coordinates, and these are interpolated. -/
theorem C34_multilinear_rational (h1 : 1 ≤ d) (h3 : d ≤ 3) {C : Nd K}
    (hC : C.shape = List.replicate d 2 ++ [4]) :
    ∃ N : Nrb K d, Cad.multilinear d (some C) = .ok N ∧ N.UnitPatch ∧ ∀ x, N.InDom x →
      ∀ c, N.proj x c = multilin (fun e => C.corner e c) x / multilin (fun e => C.corner e 3) x := by
  obtain ⟨N, hN, hp, he⟩ := ctor_unit h1 h3 hC (by norm_num)
  refine ⟨N, ?_, hp, fun x hx c => ?_⟩
  · unfold Cad.multilinear
    dsimp only
    rw [pyAssert_ok (by rw [hC, List.dropLast_concat])]
    exact hN
  · unfold Nrb.proj
    rw [he x hx, he x hx]
    rfl

/-- C34: the default patches are the unit segment, square and cube centred at the origin. -/
theorem C34_default (h1 : 1 ≤ d) (h3 : d ≤ 3) :
    ∃ N : Nrb K d, Cad.multilinear d none = .ok N ∧ N.UnitPatch ∧ ∀ x, N.InDom x →
      N.eval x 3 = 1 ∧
      ∀ c : Fin 3, N.point x c = if h : (c : ℕ) < d then x ⟨c, h⟩ - 1 / 2 else 0 := by
  obtain ⟨N, hN, hp, he⟩ := C34_multilinear (K := K) h1 h3
    (C := Cad.cornerPoints d) (s := max (d : ℤ) 2) rfl (by omega)
  refine ⟨N, ?_, hp, fun x hx => ⟨(he x hx).1, fun c => ?_⟩⟩
  · rw [← hN]
    unfold Cad.multilinear
    dsimp only
    rw [pyAssert_ok (by unfold Cad.cornerPoints; dsimp only; rw [List.dropLast_concat])]
    rfl
  · rw [(he x hx).2 c]
    have hcorner : ∀ e : Fin d → Fin 2, (Cad.cornerPoints (K := K) d).corner e c =
        if h : (c : ℕ) < d then (if e ⟨c, h⟩ = 0 then -(1 / 2) else 1 / 2) else 0 := by
      intro e
      unfold Nd.corner Cad.cornerPoints
      dsimp only
      have hg : ((List.ofFn (fun a => ((e a : ℕ) : ℤ)) ++ [((c : ℕ) : ℤ)]).getD d 0).toNat = c := by
        rw [List.getD_eq_getElem?_getD, List.getElem?_append_right (by simp)]
        simp
      rw [hg]
      split_ifs with h h0 h0' h0'
      · rfl
      · exfalso
        apply h0'
        have hl : (c : ℕ) < (List.ofFn (fun a => ((e a : ℕ) : ℤ))).length := by rw [List.length_ofFn]; omega
        rw [List.getD_eq_getElem?_getD, List.getElem?_append_left hl, List.getElem?_eq_getElem hl,
          List.getElem_ofFn] at h0
        ext
        simpa using h0
      · exfalso
        apply h0
        have hl : (c : ℕ) < (List.ofFn (fun a => ((e a : ℕ) : ℤ))).length := by rw [List.length_ofFn]; omega
        rw [List.getD_eq_getElem?_getD, List.getElem?_append_left hl, List.getElem?_eq_getElem hl,
          List.getElem_ofFn]
        simp [h0']
      · rfl
      · rfl
    have hmul : ∀ (b : Fin d), multilin (fun e => if e b = 0 then -(1 / 2 : K) else 1 / 2) x = x b - 1 / 2 := by
      intro b
      have hsplit : ∀ e : Fin d → Fin 2, (∏ a, if e a = 0 then 1 - x a else x a) *
          (if e b = 0 then -(1 / 2 : K) else 1 / 2) =
          ∏ a, (if e a = 0 then 1 - x a else x a) * (if a = b then (if e a = 0 then -(1 / 2) else 1 / 2) else 1) := by
        intro e
        rw [Finset.prod_mul_distrib, Finset.prod_ite_eq' Finset.univ b]
        simp
      unfold multilin
      simp only [hsplit]
      have := Finset.prod_univ_sum (fun _ : Fin d => (Finset.univ : Finset (Fin 2)))
        (fun a j => (if j = 0 then 1 - x a else x a) * (if a = b then (if j = 0 then -(1 / 2) else 1 / 2) else 1))
      rw [Fintype.piFinset_univ] at this
      rw [← this, Finset.prod_eq_single b]
      · rw [Fin.sum_univ_two]; simp; ring
      · intro a _ hab
        rw [Fin.sum_univ_two]; simp [hab]
      · intro h; exact absurd (Finset.mem_univ b) h
    by_cases hcd : (c : ℕ) < d
    · rw [dif_pos hcd, ← hmul ⟨c, hcd⟩]
      congr 1
      funext e
      rw [if_pos (by omega), hcorner e, dif_pos hcd]
    · rw [dif_neg hcd]
      unfold multilin
      apply Finset.sum_eq_zero
      intro e _
      dsimp only
      rw [hcorner e, dif_neg hcd]
      simp

/-- C34: points of any other shape are rejected -/
theorem C34_rejects {C : Nd K} (hC : C.shape.dropLast ≠ List.replicate d 2) :
    Cad.multilinear d (some C) = .error .assertion := by
  unfold Cad.multilinear
  dsimp only
  rw [pyAssert_err hC]
  rfl

/-! ## C35 -/

/-- the parameters of a stacked object -/
theorem stack_inDom {N : Nrb K d} {m l : ℤ} {V : ℤ → K} {F : (Fin d → ℤ) → ℤ → ℕ → K} {x : Fin (d + 1) → K}
    (h : (N.stack m l V F).InDom x) :
    N.InDom (Fin.init x) ∧ V (l - m - 1) ≤ x (Fin.last d) ∧ x (Fin.last d) ≤ V m := by
  refine ⟨fun a => ?_, ?_⟩
  · have := h a.castSucc
    rwa [Nrb.stack_lo_cast, Nrb.stack_hi_cast] at this
  · have := h (Fin.last d)
    rwa [Nrb.stack_lo_last, Nrb.stack_hi_last] at this

/-- `R` has the axes of `N` and one more axis -/
structure Nrb.Extends (N : Nrb K d) (R : Nrb K (d + 1)) : Prop where
  valid : R.Valid
  nc : R.nc = 4
  degree : ∀ a, R.degree a.castSucc = N.degree a
  len : ∀ a, R.len a.castSucc = N.len a
  knots : ∀ a j, R.U a.castSucc j = N.U a j
  dom : ∀ x, R.InDom x → N.InDom (Fin.init x)

theorem Nrb.Extends.inDom {N : Nrb K d} {R : Nrb K (d + 1)} (h : N.Extends R) {x : Fin (d + 1) → K}
    (hx : N.InDom (Fin.init x)) (h0 : R.lo (Fin.last d) ≤ x (Fin.last d))
    (h1 : x (Fin.last d) ≤ R.hi (Fin.last d)) : R.InDom x := by
  intro a
  refine Fin.lastCases ⟨h0, h1⟩ (fun b => ?_) a
  have := hx b
  unfold Nrb.lo Nrb.hi at this ⊢
  rwa [h.degree, h.len, h.knots, h.knots]

theorem stack_extends {N : Nrb K d} (hv : N.Valid) {m l : ℤ} {V : ℤ → K} (F : (Fin d → ℤ) → ℤ → ℕ → K)
    (h : ValidKnots (m - 1) (l - m - 1) V) : N.Extends (N.stack m l V F) :=
  ⟨Nrb.stack_valid _ _ _ _ _ hv h, rfl, Nrb.stack_degree_cast _ _ _ _ _, Nrb.stack_len_cast _ _ _ _ _,
    fun a j => by rw [Nrb.stack_U_cast], fun _ hx => (stack_inDom hx).1⟩

/-- C35: `extrude(nrb, displ, axis)(u,v) = nrb(u) + v*displ`, with the weight of `nrb` at `u`, for
rational curves and surfaces. -/
theorem C35_extrude (h1 : d ≤ 2) {N : Nrb K d} (hv : N.Valid) {displ : ArrArg K} {axis : Option ℤ}
    {t : Fin 3 → K} (ht : IsDispl displ axis t) :
    ∃ R : Nrb K (d + 1), Cad.extrude N displ axis = .ok R ∧ N.Extends R ∧
      R.lo (Fin.last d) = 0 ∧ R.hi (Fin.last d) = 1 ∧
      ∀ x, R.InDom x → N.eval (Fin.init x) 3 ≠ 0 →
        R.eval x 3 = N.eval (Fin.init x) 3 ∧
        R.point x = N.point (Fin.init x) + x (Fin.last d) • t := by
  have hT : Transform.translate 1 displ axis = .ok (transMat t) := by
    unfold Transform.translate
    rw [transVec_ok ht, res_ok_bind, compose, mul_one]
    rfl
  refine ⟨_, ?_, stack_extends (m := 2) (l := 4) (V := uk) hv (fun idx j c =>
    if j = 0 then N.P idx c else (N.transform (transMat t)).P idx c) (by exact uk_valid), ?_, ?_, ?_⟩
  · unfold Cad.extrude
    rw [pyAssert_ok h1, res_ok_bind, hT, res_ok_bind]
    exact ctor_netWith N h1 (valid_len hv) (fun a => (hv a).one_le) rfl (fun _ => rfl) (by norm_num)
      (by norm_num) _
  · rw [Nrb.stack_lo_last]; rfl
  · rw [Nrb.stack_hi_last]; rfl
  · intro x hx hw
    obtain ⟨_, hx0, hx1⟩ := stack_inDom hx
    have he := stack_uk_eval N N.P (N.transform (transMat t)).P (x := x) hx0 hx1
    obtain ⟨a1, a2, _⟩ := C21_transform_affine N (transMat_affine t) hw
    have e1 : tensor N.n (fun a => (N.degree a).toNat) N.U N.P (Fin.init x) = N.eval (Fin.init x) := rfl
    have e2 : tensor N.n (fun a => (N.degree a).toNat) N.U (N.transform (transMat t)).P (Fin.init x) =
      (N.transform (transMat t)).eval (Fin.init x) := rfl
    rw [e1, e2] at he
    have h3 := congrFun he 3
    simp only [Pi.add_apply, Pi.smul_apply, smul_eq_mul] at h3
    rw [a2] at h3
    have h3' : (N.stack 2 4 uk fun idx j c => if j = 0 then N.P idx c else
        (N.transform (transMat t)).P idx c).eval x 3 = N.eval (Fin.init x) 3 := by rw [h3]; ring
    refine ⟨h3', ?_⟩
    rw [affPart_transMat] at a1
    funext c
    have hc := congrFun he c
    simp only [Pi.add_apply, Pi.smul_apply, smul_eq_mul] at hc
    have hb := congrFun a1 c
    simp only [Nrb.point, Nrb.proj, Pi.add_apply, a2] at hb ⊢
    rw [h3', hc, Pi.smul_apply, smul_eq_mul]
    rw [div_eq_iff hw] at hb ⊢
    rw [hb]
    field_simp
    ring

/-- all weights of the object are nonzero -/
def Nrb.WeightsNe (N : Nrb K d) : Prop := ∀ idx, (∀ a, 0 ≤ idx a ∧ idx a ≤ N.n a) → N.P idx 3 ≠ 0

/-- C35: `sweep(section, trajectory)(u,v) = section(u) + trajectory(v)`, and the weights multiply, for
rational sections and trajectories. -/
theorem C35_sweep (h1 : 1 ≤ d) (h2 : d ≤ 2) {S : Nrb K d} {T : Nrb K 1} (hS : S.Valid) (hT : T.Valid)
    (hwS : S.WeightsNe) (hwT : T.WeightsNe) :
    ∃ R : Nrb K (d + 1), Cad.sweep S T = .ok R ∧ S.Extends R ∧
      R.lo (Fin.last d) = T.lo 0 ∧ R.hi (Fin.last d) = T.hi 0 ∧ R.degree (Fin.last d) = T.degree 0 ∧
      R.len (Fin.last d) = T.len 0 ∧ R.U (Fin.last d) = T.U 0 ∧
      ∀ x, R.InDom x →
        R.eval x 3 = S.eval (Fin.init x) 3 * T.eval ![x (Fin.last d)] 3 ∧
        (S.eval (Fin.init x) 3 ≠ 0 → T.eval ![x (Fin.last d)] 3 ≠ 0 →
          R.point x = S.point (Fin.init x) + T.point ![x (Fin.last d)]) := by
  have hn : T.shape 0 - 1 = T.n 0 := rfl
  have hdg : T.len 0 - T.shape 0 - 1 = T.degree 0 := by unfold Nrb.degree; ring
  refine ⟨_, ?_, stack_extends (m := T.shape 0) (l := T.len 0) (V := T.U 0) hS (fun idx j c =>
    if c < 3 then (S.P idx c / S.weights idx + T.P ![j] c / T.weights ![j]) * (S.weights idx * T.weights ![j])
    else if c = 3 then S.weights idx * T.weights ![j] else 0) ?_, ?_, ?_, ?_, ?_, ?_, ?_⟩
  · unfold Cad.sweep
    rw [pyAssert_ok ⟨h1, h2⟩, res_ok_bind]
    refine ctor_netPair S h2 (valid_len hS) (fun a => (hS a).one_le) (l := T.len 0) (V := T.U 0) rfl (fun _ => rfl)
      (valid_len hT 0) ?_ _ (fun idx j => S.weights idx * T.weights ![j]) rfl (fun _ => rfl)
    rw [hdg]; exact (hT 0).one_le
  · rw [hn, hdg]; exact hT 0
  · rw [Nrb.stack_lo_last, hdg]; rfl
  · rw [Nrb.stack_hi_last, Nrb.hi_eq]; congr 1; unfold Nrb.n; ring
  · rw [Nrb.stack_degree_last, hdg]
  · rw [Nrb.stack_len_last]
  · rw [Nrb.stack_U_last]
  · intro x hx
    have hj : ∀ j, 0 ≤ j → j ≤ T.shape 0 - 1 → T.weights ![j] ≠ 0 := by
      intro j a b
      apply hwT
      intro a'
      fin_cases a'
      exact ⟨a, b⟩
    have k3 := stack_bilin (N := S) (m := T.shape 0) (l := T.len 0) (V := T.U 0) (F := fun idx j c =>
      if c < 3 then (S.P idx c / S.weights idx + T.P ![j] c / T.weights ![j]) * (S.weights idx * T.weights ![j])
      else if c = 3 then S.weights idx * T.weights ![j] else 0) (c := 3)
      (A := fun idx => S.P idx 3) (A' := fun _ => 0) (B := fun j => T.P ![j] 3) (B' := fun _ => 0)
      (fun idx j _ _ _ => by simp [Nrb.weights]) x
    rw [hn, hdg, tensor_comp, curve_comp] at k3
    have z : tensor S.n (fun a => (S.degree a).toNat) S.U (fun _ => (0 : K)) (Fin.init x) = 0 := by
      unfold tensor; simp
    rw [z, zero_mul, add_zero] at k3
    refine ⟨k3, fun hs ht => ?_⟩
    funext c
    have hc3 := c.2
    have kc := stack_bilin (N := S) (m := T.shape 0) (l := T.len 0) (V := T.U 0) (F := fun idx j c =>
      if c < 3 then (S.P idx c / S.weights idx + T.P ![j] c / T.weights ![j]) * (S.weights idx * T.weights ![j])
      else if c = 3 then S.weights idx * T.weights ![j] else 0) (c := c)
      (A := fun idx => S.P idx c) (A' := fun idx => S.P idx 3) (B := fun j => T.P ![j] 3)
      (B' := fun j => T.P ![j] c)
      (fun idx j hi h0 h1 => by
        rw [if_pos hc3]
        have w1 : S.P idx 3 ≠ 0 := hwS idx hi
        have w2 : T.P ![j] 3 ≠ 0 := hj j h0 h1
        unfold Nrb.weights
        field_simp) x
    rw [hn, hdg, tensor_comp, tensor_comp, curve_comp, curve_comp] at kc
    simp only [Nrb.point, Nrb.proj, Pi.add_apply]
    rw [k3, kc]
    field_simp

/-! ## Concrete cases -/

namespace Ex

/-- a rational curve of degree two -/
def T1 : Nrb ℚ 1 where
  shape := ![6]
  nc := 4
  len := ![9]
  U := ![Ex.U]
  P := fun idx c => if c = 3 then 2 + idx 0 else (c + 1) * idx 0 * idx 0 - 2

theorem T1_valid : T1.Valid := by
  intro a
  fin_cases a
  exact Ex.U_valid

theorem T1_weights : T1.WeightsNe := by
  intro idx h
  have h0 := (h 0).1
  have : (0 : ℚ) ≤ idx 0 := by exact_mod_cast h0
  show (2 + (idx 0 : ℚ)) ≠ 0
  positivity

theorem S_weights : S.WeightsNe := by
  intro idx h
  have h0 := (h 1).1
  have : (0 : ℚ) ≤ idx 1 := by exact_mod_cast h0
  show (1 + (idx 1 : ℚ)) ≠ 0
  positivity

example : ∃ R, Cad.sweep S T1 = .ok R ∧ S.Extends R :=
  let ⟨R, h, h', _⟩ := C35_sweep (by norm_num) (by norm_num) S_valid T1_valid S_weights T1_weights
  ⟨R, h, h'⟩

example : ∃ R, Cad.extrude S (.vec [1, 2, 3]) none = .ok R ∧ S.Extends R :=
  let ⟨R, h, h', _⟩ := C35_extrude (by norm_num) S_valid (IsDispl.vec [1, 2, 3] (by norm_num))
  ⟨R, h, h'⟩

example : ∃ N, Cad.line (K := ℚ) (.vec [1, 2]) (.scalar 5) = .ok N ∧ N.point ![1 / 2] 1 = 1 := by
  obtain ⟨N, h, _, h'⟩ := C34_line (K := ℚ) (.vec [1, 2]) (.scalar 5) (by simp [ArrArg.toList])
    (by simp [ArrArg.toList])
  refine ⟨N, h, ?_⟩
  rw [(h' (1 / 2) (by norm_num) (by norm_num)).2 1]
  simp [ArrArg.toList]
  norm_num

/-- a bilinear patch with one raised corner -/
def cornerSq : Nd ℚ := { shape := [2, 2, 3], get := fun i => if i = [1, 1, 2] then 4 else if i.getD 2 0 = 2 then 0 else (i.getD (i.getD 2 0).toNat 0 : ℤ) }

example : ∃ N, Cad.multilinear 2 (some cornerSq) = .ok N ∧ N.UnitPatch :=
  let ⟨N, h, h', _⟩ := C34_multilinear (d := 2) (C := cornerSq) (s := 3) (by norm_num) (by norm_num) rfl (Or.inr rfl)
  ⟨N, h, h'⟩

example : Spec.multilin (fun e : Fin 2 → Fin 2 => cornerSq.corner e 2) ![1 / 2, 1 / 2] = 1 := by decide +kernel

end Ex
end Igakit
