import Verif.Model.Cad
import Verif.Proofs.Nrb
import Verif.Proofs.NrbEval
import Verif.Proofs.CurveForm
import Verif.Props.Ctor
import Verif.Props.Transform
import Verif.Spec.Examples

/-! # Objects built by cad.py: the constructor, unit knots, and stacking along a last axis -/

set_option linter.unusedSectionVars false

namespace Igakit
open Spec

variable {K : Type} [Field K] [LinearOrder K] {d : ℕ}

/-- homogeneous component `c` of control point `idx` from control points with `s` components -/
def homog (C : Nd K) (W : Option (Nd K)) (s : ℤ) (idx : List ℤ) (c : ℕ) : K :=
  if s = 4 then C.get (idx ++ [(c : ℤ)])
  else match W with
    | some w => if (c : ℤ) < s then C.get (idx ++ [(c : ℤ)]) * w.get idx else if c = 3 then w.get idx else 0
    | none => if (c : ℤ) < s then C.get (idx ++ [(c : ℤ)]) else if c = 3 then 1 else 0

/-- the constructor without fields, explicitly -/
theorem ctor_points {knots : Fin d → Nd K} {C : Nd K} {W : Option (Nd K)} {sh len : Fin d → ℤ} {s : ℤ}
    {control : CtrlArg K} {weights : Option (Nd K)}
    (h1 : 1 ≤ d) (h3 : d ≤ 3) (hk : ∀ a, (knots a).shape = [len a]) (hlen : ∀ a, 4 ≤ len a)
    (hC : C.shape = List.ofFn sh ++ [s]) (hs : 2 ≤ s ∧ s ≤ 4)
    (hW : ∀ w, W = some w → s < 4 ∧ w.shape = List.ofFn sh) (hdeg : ∀ a, 1 ≤ len a - sh a - 1)
    (hp : PassedAs C W control weights) :
    Nrb.ctor knots control none weights = .ok
      { shape := sh, nc := 4, len := len, U := fun a j => (knots a).get [j],
        P := fun idx c => homog C W s (List.ofFn idx) c } := by
  have hl : (fun a => (knots a).shape.headD 0) = len := by funext a; rw [hk a]; rfl
  have hsh : (fun a : Fin d => (List.ofFn sh).getD a 0) = sh := by funext a; simp
  have hargs : Nrb.ctorArgs control weights = .ok (some C, W) := by
    rcases hp with ⟨rfl, rfl⟩ | ⟨rfl, rfl⟩ <;> rfl
  have hctl : Nrb.ctorControl C W = .ok { shape := List.ofFn sh, nc := 4, get := homog C W s } := by
    unfold Nrb.ctorControl
    rw [hC, pyAssert_ok (by simp; omega), res_ok_bind]
    simp only [List.getLastD_concat, List.dropLast_concat]
    rw [pyAssert_ok hs.1, res_ok_bind, pyAssert_ok hs.2, res_ok_bind]
    by_cases h4 : s < 4
    · rw [if_pos h4]
      cases W with
      | some w =>
        simp only
        rw [pyAssert_ok (hW w rfl).2, res_ok_bind, res_pure]
        congr 2
        funext idx c
        simp only [homog]
        rw [if_neg (by omega : ¬ s = 4)]
      | none =>
        simp only [res_pure]
        congr 2
        funext idx c
        simp only [homog]
        rw [if_neg (by omega : ¬ s = 4)]
    · have e4 : s = 4 := by omega
      subst e4
      have hWn : W = none := by
        cases W with
        | none => rfl
        | some w => exact absurd (hW w rfl).1 h4
      subst hWn
      rw [if_neg h4, pyAssert_ok (by rfl), res_ok_bind, res_pure]
      rfl
  unfold Nrb.ctor
  rw [pyAssert_ok h1, res_ok_bind, pyAssert_ok h3, res_ok_bind, pyAssert_ok (fun a => by
    rw [hk a]; exact ⟨rfl, hlen a⟩), res_ok_bind, hargs, res_ok_bind]
  simp only [Nrb.ctorNet]
  rw [hctl, res_ok_bind]
  simp only [Nrb.ctorFields, res_pure, res_ok_bind]
  rw [pyAssert_ok (by simp), res_ok_bind, pyAssert_ok, res_ok_bind, hl, hsh]
  intro a
  have e1 : (knots a).shape.headD 0 = len a := congrFun hl a
  have e2 : (List.ofFn sh).getD a 0 = sh a := congrFun hsh a
  rw [e1, e2]
  have := hdeg a
  omega

/-! ## unit knots -/

/-- the knots `0 0 1 1` -/
def uk : ℤ → K := fun j => (unitKnots (K := K)).get [j]

theorem uk_zero : (uk 0 : K) = 0 := rfl
theorem uk_one : (uk 1 : K) = 0 := rfl
theorem uk_two : (uk 2 : K) = 1 := rfl
theorem uk_three : (uk 3 : K) = 1 := rfl

variable [IsStrictOrderedRing K]

theorem uk_valid : ValidKnots 1 1 (uk : ℤ → K) := by
  refine ⟨by norm_num, by norm_num, ?_, ?_, ?_⟩
  · apply Ex.sortedOn_of_steps
    intro i h1 h2
    have : i = 0 ∨ i = 1 ∨ i = 2 := by omega
    rcases this with rfl | rfl | rfl
    · exact le_of_eq rfl
    · exact zero_le_one
    · exact le_of_eq rfl
  · exact zero_lt_one
  · exact zero_lt_one

theorem uk_basis0 {u : K} (h0 : 0 ≤ u) (h1 : u ≤ 1) : bsplineD 1 (uk : ℤ → K) 1 0 u = 1 - u := by
  unfold bsplineD
  rcases h1.lt_or_eq with h | h
  · rw [show (1 : ℤ) + 1 = 2 from rfl, uk_two, if_pos h]
    simp [bspline, coxDB, uk_zero, uk_one, uk_two, h0, h]
  · subst h
    rw [show (1 : ℤ) + 1 = 2 from rfl, uk_two, if_neg (lt_irrefl _)]
    simp [bsplineL, coxDB, uk_zero, uk_one, uk_two]

theorem uk_basis1 {u : K} (h0 : 0 ≤ u) (h1 : u ≤ 1) : bsplineD 1 (uk : ℤ → K) 1 1 u = u := by
  unfold bsplineD
  rcases h1.lt_or_eq with h | h
  · rw [show (1 : ℤ) + 1 = 2 from rfl, uk_two, if_pos h]
    simp [bspline, coxDB, uk_three, uk_one, uk_two, h0, h]
  · subst h
    rw [show (1 : ℤ) + 1 = 2 from rfl, uk_two, if_neg (lt_irrefl _)]
    simp [bsplineL, coxDB, uk_three, uk_one, uk_two]

theorem curve_uk {E : Type*} [AddCommGroup E] [Module K E] (P : ℤ → E) {u : K} (h0 : 0 ≤ u) (h1 : u ≤ 1) :
    curve 1 1 (uk : ℤ → K) P u = (1 - u) • P 0 + u • P 1 := by
  unfold curve
  rw [show Finset.Icc (0 : ℤ) 1 = {0, 1} from rfl, Finset.sum_pair (by norm_num), uk_basis0 h0 h1,
    uk_basis1 h0 h1]

/-- multilinear interpolation of values at the corners of the unit cube -/
theorem tensor_uk {E : Type*} [AddCommGroup E] [Module K E] (P : (Fin d → ℤ) → E) {x : Fin d → K}
    (hx : ∀ a, 0 ≤ x a ∧ x a ≤ 1) :
    tensor (fun _ => 1) (fun _ => 1) (fun _ => (uk : ℤ → K)) P x =
      ∑ e : Fin d → Fin 2, (∏ a, if e a = 0 then 1 - x a else x a) • P (fun a => ((e a : ℕ) : ℤ)) := by
  unfold tensor
  refine Finset.sum_bij' (fun idx _ => fun a => if idx a = 0 then 0 else 1)
    (fun e _ => fun a => ((e a : ℕ) : ℤ)) (fun _ _ => Finset.mem_univ _) ?_ ?_ ?_ ?_
  · intro e _
    rw [Fintype.mem_piFinset]
    intro a
    rw [Finset.mem_Icc]
    have := (e a).2
    show 0 ≤ ((e a : ℕ) : ℤ) ∧ ((e a : ℕ) : ℤ) ≤ 1
    omega
  · intro idx h
    funext a
    have : 0 ≤ idx a ∧ idx a ≤ 1 := Finset.mem_Icc.mp (Fintype.mem_piFinset.mp h a)
    dsimp only
    split_ifs with h0
    · exact h0.symm
    · show ((1 : ℕ) : ℤ) = _
      omega
  · intro e _
    funext a
    dsimp only
    split_ifs with h0
    · ext; have : ((e a : ℕ) : ℤ) = 0 := h0; show 0 = _; omega
    · ext; have := (e a).2; show 1 = _; have : ¬ ((e a : ℕ) : ℤ) = 0 := h0; omega
  · intro idx h
    have hi : ∀ a, idx a = 0 ∨ idx a = 1 := fun a => by
      have : 0 ≤ idx a ∧ idx a ≤ 1 := Finset.mem_Icc.mp (Fintype.mem_piFinset.mp h a)
      omega
    congr 1
    · apply Finset.prod_congr rfl
      intro a _
      rcases hi a with e | e
      · rw [e, uk_basis0 (hx a).1 (hx a).2]; simp [e]
      · rw [e, uk_basis1 (hx a).1 (hx a).2]; simp [e]
    · congr 1
      funext a
      rcases hi a with e | e
      · simp [e]
      · simp [e]

/-! ## stacking -/

theorem ofFn_getD_snoc (idx : Fin (d + 1) → ℤ) (l : List ℤ) (a : Fin d) :
    (List.ofFn idx ++ l).getD a 0 = Fin.init idx a := by
  have h : (a : ℕ) < (List.ofFn idx).length := by rw [List.length_ofFn]; omega
  rw [List.getD_eq_getElem?_getD, List.getElem?_append_left h, List.getElem?_eq_getElem h]
  rw [List.getElem_ofFn]
  rfl

theorem ofFn_getD_last (idx : Fin (d + 1) → ℤ) (l : List ℤ) :
    (List.ofFn idx ++ l).getD d 0 = idx (Fin.last d) := by
  have h : d < (List.ofFn idx).length := by simp
  rw [List.getD_eq_getElem?_getD, List.getElem?_append_left h, List.getElem?_eq_getElem h, List.getElem_ofFn]
  rfl

theorem ofFn_getD_comp (idx : Fin (d + 1) → ℤ) (c : ℕ) :
    ((List.ofFn idx ++ [(c : ℤ)]).getD (d + 1) 0).toNat = c := by
  rw [List.getD_eq_getElem?_getD, List.getElem?_append_right (by simp)]
  simp

/-- the object with last axis `(m, l, V)` and net `F` -/
def Nrb.stack (N : Nrb K d) (m l : ℤ) (V : ℤ → K) (F : (Fin d → ℤ) → ℤ → ℕ → K) : Nrb K (d + 1) where
  shape := Fin.snoc (α := fun _ => ℤ) N.shape m
  nc := 4
  len := Fin.snoc (α := fun _ => ℤ) N.len l
  U := Fin.snoc (α := fun _ => ℤ → K) N.U V
  P := fun idx c => F (Fin.init idx) (idx (Fin.last d)) c

namespace Nrb
variable (N : Nrb K d) (m l : ℤ) (V : ℤ → K) (F : (Fin d → ℤ) → ℤ → ℕ → K)

@[simp] theorem stack_n_cast (a : Fin d) : (N.stack m l V F).n a.castSucc = N.n a := by
  simp [n, stack]
@[simp] theorem stack_degree_cast (a : Fin d) : (N.stack m l V F).degree a.castSucc = N.degree a := by
  simp [degree, stack]
@[simp] theorem stack_U_cast (a : Fin d) : (N.stack m l V F).U a.castSucc = N.U a := by
  simp [stack]
@[simp] theorem stack_n_last : (N.stack m l V F).n (Fin.last d) = m - 1 := by
  simp [n, stack]
@[simp] theorem stack_degree_last : (N.stack m l V F).degree (Fin.last d) = l - m - 1 := by
  simp [degree, stack]
@[simp] theorem stack_U_last : (N.stack m l V F).U (Fin.last d) = V := by
  simp [stack]
@[simp] theorem stack_len_cast (a : Fin d) : (N.stack m l V F).len a.castSucc = N.len a := by
  simp [stack]
@[simp] theorem stack_len_last : (N.stack m l V F).len (Fin.last d) = l := by
  simp [stack]
theorem stack_lo_cast (a : Fin d) : (N.stack m l V F).lo a.castSucc = N.lo a := by
  rw [lo_eq, stack_degree_cast, stack_U_cast]; rfl
theorem stack_hi_cast (a : Fin d) : (N.stack m l V F).hi a.castSucc = N.hi a := by
  rw [hi_eq, stack_n_cast, stack_U_cast, hi_eq]
theorem stack_lo_last : (N.stack m l V F).lo (Fin.last d) = V (l - m - 1) := by
  rw [lo_eq, stack_degree_last, stack_U_last]
theorem stack_hi_last : (N.stack m l V F).hi (Fin.last d) = V m := by
  rw [hi_eq, stack_n_last, stack_U_last]; congr 1; ring

theorem stack_valid (hv : N.Valid) (h : ValidKnots (m - 1) (l - m - 1) V) : (N.stack m l V F).Valid := by
  intro a
  refine Fin.lastCases ?_ (fun b => ?_) a
  · rw [stack_n_last, stack_degree_last, stack_U_last]; exact h
  · rw [stack_n_cast, stack_degree_cast, stack_U_cast]; exact hv b

theorem stack_eval (x : Fin (d + 1) → K) :
    (N.stack m l V F).eval x = tensor N.n (fun a => (N.degree a).toNat) N.U
      (curve (m - 1) (l - m - 1).toNat V (fun j idx => F idx j) (x (Fin.last d))) (Fin.init x) := by
  rw [eval_split _ (Fin.last d), stack_n_last, stack_degree_last, stack_U_last]
  have h1 : (Fin.last d).removeNth (N.stack m l V F).n = N.n := by
    funext b; simp [Fin.removeNth]
  have h2 : ((Fin.last d).removeNth fun b => ((N.stack m l V F).degree b).toNat) =
      (fun b => (N.degree b).toNat) := by
    funext b; simp [Fin.removeNth]
  have h3 : (Fin.last d).removeNth (N.stack m l V F).U = N.U := by
    funext b; simp [Fin.removeNth]
  have h4 : (Fin.last d).removeNth x = Fin.init x := by
    funext b; simp [Fin.removeNth, Fin.init]
  have h5 : (N.stack m l V F).row (Fin.last d) = fun j idx => F idx j := by
    funext j idx
    simp [row, stack, Fin.insertNth_last']
  rw [h1, h2, h3, h4, h5]

end Nrb

/-- the constructor on a net made with `netWith` -/
theorem ctor_netWith (N : Nrb K d) (hd : d ≤ 2) (hl : ∀ a, 4 ≤ N.len a) (hdeg : ∀ a, 1 ≤ N.degree a)
    {m l : ℤ} {k : Nd K} {V : ℤ → K} (hk : k.shape = [l]) (hV : ∀ j, k.get [j] = V j) (h4 : 4 ≤ l)
    (hm : 1 ≤ l - m - 1) (F : (Fin d → ℤ) → ℤ → ℕ → K) :
    Nrb.ctor (N.knotsWith k) (.arr (N.netWith m 4 F)) none none = .ok (N.stack m l V F) := by
  rw [ctor_points (sh := Fin.snoc (α := fun _ => ℤ) N.shape m) (len := Fin.snoc (α := fun _ => ℤ) N.len l)
    (s := 4) (W := none) (C := N.netWith m 4 F) (by omega) (by omega) ?_ ?_ ?_ (by norm_num)
    (fun w h => by cases h) ?_ (Or.inl ⟨rfl, rfl⟩)]
  · unfold Nrb.stack
    congr 2
    · funext a j
      refine Fin.lastCases ?_ (fun b => ?_) a
      · simp [Nrb.knotsWith, hV]
      · simp [Nrb.knotsWith, Nrb.knotNd]
    · funext idx c
      simp only [homog, if_true, Nrb.netWith]
      rw [ofFn_getD_last, ofFn_getD_comp]
      congr 1
      funext a
      exact ofFn_getD_snoc _ _ _
  · intro a
    refine Fin.lastCases ?_ (fun b => ?_) a
    · simp [Nrb.knotsWith, hk]
    · simp [Nrb.knotsWith, Nrb.knotNd]
  · intro a
    refine Fin.lastCases ?_ (fun b => ?_) a
    · simpa using h4
    · simpa using hl b
  · simp only [Nrb.netWith]
    congr 1
    rw [List.ofFn_succ', List.concat_eq_append]
    simp
  · intro a
    refine Fin.lastCases ?_ (fun b => ?_) a
    · simpa using hm
    · simpa [Nrb.degree] using hdeg b

theorem valid_len {N : Nrb K d} (hv : N.Valid) (a : Fin d) : 4 ≤ N.len a := by
  have h := hv a
  have := h.one_le
  have := h.le
  rw [N.len_eq]; omega

theorem tensor_comb {E : Type*} [AddCommGroup E] [Module K E] {n : Fin d → ℤ} {p : Fin d → ℕ}
    {U : Fin d → ℤ → K} (A B : (Fin d → ℤ) → E) (s t : K) (x : Fin d → K) :
    tensor n p U (fun i => s • A i + t • B i) x = s • tensor n p U A x + t • tensor n p U B x := by
  unfold tensor
  rw [Finset.smul_sum, Finset.smul_sum, ← Finset.sum_add_distrib]
  apply Finset.sum_congr rfl
  intro i _
  module

/-- two objects stacked along unit knots are interpolated linearly -/
theorem stack_uk_eval (N : Nrb K d) (A B : (Fin d → ℤ) → ℕ → K) {x : Fin (d + 1) → K}
    (h0 : 0 ≤ x (Fin.last d)) (h1 : x (Fin.last d) ≤ 1) :
    (N.stack 2 4 uk (fun idx j c => if j = 0 then A idx c else B idx c)).eval x =
      (1 - x (Fin.last d)) • tensor N.n (fun a => (N.degree a).toNat) N.U A (Fin.init x) +
      x (Fin.last d) • tensor N.n (fun a => (N.degree a).toNat) N.U B (Fin.init x) := by
  rw [Nrb.stack_eval, show (2 : ℤ) - 1 = 1 from rfl, show ((4 : ℤ) - 2 - 1).toNat = 1 from rfl,
    curve_uk _ h0 h1, ← tensor_comb]
  congr 1

/-- a net that is a sum of two products of a function of the old indices and one of the new index -/
theorem stack_bilin {N : Nrb K d} {m l : ℤ} {V : ℤ → K} {F : (Fin d → ℤ) → ℤ → ℕ → K} {c : ℕ}
    {A A' : (Fin d → ℤ) → K} {B B' : ℤ → K}
    (h : ∀ idx j, (∀ a, 0 ≤ idx a ∧ idx a ≤ N.n a) → 0 ≤ j → j ≤ m - 1 →
      F idx j c = A idx * B j + A' idx * B' j) (x : Fin (d + 1) → K) :
    (N.stack m l V F).eval x c =
      tensor N.n (fun a => (N.degree a).toNat) N.U A (Fin.init x) *
        curve (m - 1) (l - m - 1).toNat V B (x (Fin.last d)) +
      tensor N.n (fun a => (N.degree a).toNat) N.U A' (Fin.init x) *
        curve (m - 1) (l - m - 1).toNat V B' (x (Fin.last d)) := by
  rw [Nrb.stack_eval]
  unfold tensor
  rw [Finset.sum_apply, Finset.sum_mul, Finset.sum_mul, ← Finset.sum_add_distrib]
  apply Finset.sum_congr rfl
  intro idx hidx
  have hr : ∀ a, 0 ≤ idx a ∧ idx a ≤ N.n a :=
    fun a => Finset.mem_Icc.mp (Fintype.mem_piFinset.mp hidx a)
  rw [Pi.smul_apply, curve_apply, curve_apply]
  unfold curve
  simp only [smul_eq_mul]
  rw [mul_assoc, mul_assoc, ← mul_add]
  congr 1
  rw [Finset.mul_sum, Finset.mul_sum, ← Finset.sum_add_distrib]
  apply Finset.sum_congr rfl
  intro j hj
  have hj := Finset.mem_Icc.mp hj
  rw [h idx j hr hj.1 hj.2]
  ring

theorem tensor_comp (N : Nrb K d) (x : Fin d → K) (c : ℕ) :
    tensor N.n (fun a => (N.degree a).toNat) N.U (fun idx => N.P idx c) x = N.eval x c := by
  rw [eval_apply]; rfl

theorem curve_comp (T : Nrb K 1) (u : K) (c : ℕ) :
    curve (T.n 0) (T.degree 0).toNat (T.U 0) (fun j => T.P ![j] c) u = T.eval ![u] c := by
  unfold Nrb.eval
  rw [tensor_one, Finset.sum_apply]
  rfl

/-- the constructor on control points and weights made with `netWith` -/
theorem ctor_netPair (N : Nrb K d) (hd : d ≤ 2) (hl : ∀ a, 4 ≤ N.len a) (hdeg : ∀ a, 1 ≤ N.degree a)
    {m l : ℤ} {k w : Nd K} {V : ℤ → K} (hk : k.shape = [l]) (hV : ∀ j, k.get [j] = V j) (h4 : 4 ≤ l)
    (hm : 1 ≤ l - m - 1) (F : (Fin d → ℤ) → ℤ → ℕ → K) (G : (Fin d → ℤ) → ℤ → K)
    (hw : w.shape = List.ofFn N.shape ++ [m]) (hG : ∀ i, w.get i = G (fun a => i.getD a 0) (i.getD d 0)) :
    Nrb.ctor (N.knotsWith k) (.pair (some (N.netWith m 3 F)) (some w)) none none =
      .ok (N.stack m l V (fun idx j c =>
        if c < 3 then F idx j c * G idx j else if c = 3 then G idx j else 0)) := by
  have hs : List.ofFn N.shape ++ [m] = List.ofFn (Fin.snoc (α := fun _ => ℤ) N.shape m) := by
    rw [List.ofFn_succ', List.concat_eq_append]
    simp
  rw [ctor_points (sh := Fin.snoc (α := fun _ => ℤ) N.shape m) (len := Fin.snoc (α := fun _ => ℤ) N.len l)
    (s := 3) (W := some w) (C := N.netWith m 3 F) (by omega) (by omega) ?_ ?_ ?_ (by norm_num)
    ?_ ?_ (Or.inr ⟨rfl, rfl⟩)]
  · unfold Nrb.stack
    congr 2
    · funext a j
      refine Fin.lastCases ?_ (fun b => ?_) a
      · simp [Nrb.knotsWith, hV]
      · simp [Nrb.knotsWith, Nrb.knotNd]
    · funext idx c
      have e1 : (fun a : Fin d => (List.ofFn idx).getD a 0) = Fin.init idx := by
        funext a; have := ofFn_getD_snoc idx [] a; rwa [List.append_nil] at this
      have e2 : (List.ofFn idx).getD d 0 = idx (Fin.last d) := by
        have := ofFn_getD_last idx []; rwa [List.append_nil] at this
      have e3 : (fun a : Fin d => (List.ofFn idx ++ [(c : ℤ)]).getD a 0) = Fin.init idx := by
        funext a; exact ofFn_getD_snoc idx _ a
      unfold homog
      rw [if_neg (by norm_num)]
      simp only [Nrb.netWith, hG]
      rw [ofFn_getD_last, ofFn_getD_comp, e1, e2, e3]
      have : ((c : ℤ) < 3) = (c < 3) := by apply propext; omega
      simp only [this]
  · intro a
    refine Fin.lastCases ?_ (fun b => ?_) a
    · simp [Nrb.knotsWith, hk]
    · simp [Nrb.knotsWith, Nrb.knotNd]
  · intro a
    refine Fin.lastCases ?_ (fun b => ?_) a
    · simpa using h4
    · simpa using hl b
  · simp only [Nrb.netWith]
    rw [hs]
  · intro w' h
    cases h
    exact ⟨by norm_num, hw.trans hs⟩
  · intro a
    refine Fin.lastCases ?_ (fun b => ?_) a
    · simpa using hm
    · simpa [Nrb.degree] using hdeg b

end Igakit
