import Verif.Proofs.BoundsApi
import Verif.Props.Elevate
import Verif.Props.NrbAxis

set_option linter.unusedSectionVars false

/-!
# C77: the compiled code stays inside its arrays

Each statement has the form `xC ... = py (x ...)`: the checked method ends exactly as the unchecked one, with its result or
its Python exception, and never with a fault (`C77_no_fault`).
-/

namespace Igakit
open Spec

/-- a run that ends as a Python step ends has no fault -/
theorem C77_no_fault {α : Type} {x : Run α} {y : Res α} (h : x = py y) (f : Fault) : x ≠ .error (.fault f) := by
  subst h
  cases y with
  | ok a => intro h; cases h
  | error e => intro h; cases h

variable {K : Type} [Field K] [LinearOrder K] [IsStrictOrderedRing K] {d : ℕ}

theorem Nrb.UA_eq (N : Nrb K d) (a : Fin d) : N.UA a = ⟨0, N.n a + N.degree a + 1, N.U a⟩ := by
  unfold Nrb.UA
  rw [N.len_eq]
  congr 1
  ring

theorem Nrb.rowA_eq (N : Nrb K (d + 1)) (a : Fin (d + 1)) : N.rowA a = ⟨0, N.n a, N.row a⟩ := rfl

/-- `insert`, for every object and all arguments -/
theorem C77_insert (eps : K) (jk : ℤ → K) (je : ℤ → (Fin d → ℤ) → ℕ → K) (N : Nrb K (d + 1)) (axis : ℤ) (value : K)
    (times : Option ℤ) :
    N.insertC eps jk je axis value times = py (N.insert eps jk je axis value times) := by
  unfold Nrb.insertC Nrb.insert
  refine py_bind_congr fun a _ => py_bind_congr fun _ _ => ?_
  rw [show N.UA a = ⟨0, N.len a - 1, N.U a⟩ from rfl, BSp.FindMultC_ok _ _ _ _ _ _ (by omega)]
  refine py_bind_congr fun m hm => py_bind_congr fun _ hc => ?_
  have hpn : N.degree a ≥ 1 ∧ N.degree a ≤ N.n a := by
    unfold BSp.FindMult at hm
    by_cases h : N.degree a ≥ 1 ∧ N.len a - 1 ≥ 2 * N.degree a + 1
    · rw [N.len_eq] at h; omega
    · rw [if_neg h] at hm; cases hm
  have em : m = findMult eps (findSpan (N.n a) (N.degree a) value (N.U a)) value (N.degree a) (N.U a) := by
    unfold BSp.FindMult at hm
    rw [if_pos (by rw [N.len_eq]; omega), if_neg (by omega)] at hm
    injection hm with hm
    rw [← hm, show N.len a - 1 - (N.degree a + 1) = N.n a by rw [N.len_eq]; ring]
  by_cases h0 : times.getD (N.degree a - min m (N.degree a)) = 0
  · rw [if_pos h0, if_pos h0]; rfl
  rw [if_neg h0, if_neg h0]
  rw [show N.rowA a = ⟨0, N.n a, N.row a⟩ from rfl, show (⟨0, N.len a - 1, N.U a⟩ : Arr K) =
    ⟨0, N.n a + N.degree a + 1, N.U a⟩ from N.UA_eq a]
  by_cases hr : times.getD (N.degree a - min m (N.degree a)) ≥ 0
  · rw [BSp.InsertKnotC_ok eps jk je hpn.2]
    · exact py_map_congr _ fun VQ _ => rfl
    · right
      rw [← em]
      unfold pyAssert at hc
      split_ifs at hc with hcc
      omega
  · unfold BSp.InsertKnotC BSp.InsertKnot
    rw [if_pos ⟨by omega, hpn.1⟩, Arr.get_ok (by omega) (by omega), ft_ok, run_bind, Arr.get_ok (by omega) (by omega),
      ft_ok, run_bind]
    rw [if_neg (fun hh => hr hh.2.1), if_neg (fun hh => hr hh.2.2.2.1)]
    rfl

variable (N : Nrb K (d + 1))

/-- `clamp`, for every object with at least `degree + 1` control points along each axis and all arguments -/
theorem C77_clamp {eps : K} (heps : 0 < eps) (je : ℤ → (Fin d → ℤ) → ℕ → K) (hN : ∀ a, N.degree a ≤ N.n a) (axis : ℤ)
    (side : Option ℤ) : N.clampC eps je axis side = py (N.clamp eps je axis side) := by
  unfold Nrb.clampC Nrb.clamp
  refine py_bind_congr fun a _ => py_bind_congr fun lr _ => ?_
  rw [N.UA_eq, N.rowA_eq, BSp.ClampC_ok heps je (hN a)]
  exact py_map_congr _ fun VQ _ => rfl

/-- `unclamp`, same objects -/
theorem C77_unclamp {eps : K} (heps : 0 < eps) (je : ℤ → (Fin d → ℤ) → ℕ → K) (hN : ∀ a, N.degree a ≤ N.n a) (axis : ℤ)
    (side continuity : Option ℤ) :
    N.unclampC eps je axis side continuity = py (N.unclamp eps je axis side continuity) := by
  unfold Nrb.unclampC Nrb.unclamp
  refine py_bind_congr fun a _ => py_bind_congr fun lr _ => py_bind_congr fun C hC => ?_
  rw [N.UA_eq, N.rowA_eq]
  by_cases hp : 1 ≤ N.degree a
  · have hc : 0 ≤ C ∧ C < N.degree a := by
      unfold Nrb.contArg at hC
      cases continuity with
      | none => injection hC with hC; omega
      | some c =>
        simp only at hC
        unfold pyAssert at hC
        by_cases hcc : 0 ≤ c ∧ c ≤ N.degree a - 1
        · rw [if_pos hcc] at hC
          have : c = C := by injection hC
          omega
        · rw [if_neg hcc] at hC; cases hC
    rw [BSp.UnclampC_ok heps je (hN a) hc.1 hc.2]
    exact py_map_congr _ fun VQ _ => rfl
  · unfold BSp.UnclampC BSp.Unclamp
    rw [if_neg (by omega), if_neg (by omega)]
    rfl

/-- `extract`, same objects -/
theorem C77_extract {eps : K} (heps : 0 < eps) (je : ℤ → (Fin d → ℤ) → ℕ → K) (hN : ∀ a, N.degree a ≤ N.n a) (axis : ℤ)
    (value : K) : N.extractC eps je axis value = py (N.extract eps je axis value) := by
  unfold Nrb.extractC Nrb.extract
  refine py_bind_congr fun a _ => py_bind_congr fun _ _ => py_bind_congr fun _ _ => ?_
  rw [N.UA_eq, N.rowA_eq, BSp.ExtractC_ok heps je (hN a)]
  exact py_bind_congr fun VQ _ => rfl

/-- `boundary`, same objects -/
theorem C77_boundary {eps : K} (heps : 0 < eps) (je : ℤ → (Fin d → ℤ) → ℕ → K) (hN : ∀ a, N.degree a ≤ N.n a) (axis : ℤ)
    (side : ℤ) : N.boundaryC eps je axis side = py (N.boundary eps je axis side) := by
  unfold Nrb.boundaryC Nrb.boundary
  exact py_bind_congr fun _ _ => py_bind_congr fun a _ => C77_extract N heps je hN _ _

variable {N}

/-- the values accepted by `refine` are not above the end of the domain -/
theorem refineArg_le {p : ℤ} {U : ℤ → K} {len : ℤ} {values u : List K} (h : Nrb.refineArg p U len values = .ok u) :
    ∀ x ∈ u, x ≤ U (len + (-p - 1)) := by
  unfold Nrb.refineArg at h
  dsimp only at h
  have hs : (values.mergeSort (fun x y => decide (x ≤ y))).Pairwise (· ≤ ·) := by
    have := List.pairwise_mergeSort (le := fun x y : K => decide (x ≤ y))
      (fun a b c h1 h2 => by simp only [decide_eq_true_eq] at *; exact h1.trans h2)
      (fun a b => by simp only [Bool.or_eq_true, decide_eq_true_eq]; exact le_total a b) values
    exact this.imp (fun h => by simpa using h)
  generalize values.mergeSort (fun x y => decide (x ≤ y)) = w at h hs
  unfold pyAssert at h
  by_cases h1 : ∀ x ∈ w.head?, U p ≤ x
  swap
  · rw [if_neg h1] at h; cases h
  rw [if_pos h1] at h
  by_cases h2 : ∀ x ∈ w.getLast?, x ≤ U (len + (-p - 1))
  swap
  · rw [if_neg h2] at h; cases h
  rw [if_pos h2] at h
  by_cases h3 : ∀ x ∈ w ++ Nrb.slab U 1 (len - 2), ((w ++ Nrb.slab U 1 (len - 2)).count x : ℤ) ≤ p
  swap
  · rw [if_neg h3] at h; cases h
  rw [if_pos h3] at h
  have e : w = u := by injection h
  subst e
  intro x hx
  have hne : w ≠ [] := List.ne_nil_of_mem hx
  refine le_trans ?_ (h2 (w.getLast hne) (List.getLast?_eq_some_getLast hne))
  exact hs.rel_getLast hx

/-- `refine`, for valid objects and all arguments -/
theorem C77_refine (eps : K) (jk : ℤ → K) (je : ℤ → (Fin d → ℤ) → ℕ → K) (hv : N.Valid) (axis : ℤ) (values : List K) :
    N.refineC eps jk je axis values = py (N.refine eps jk je axis values) := by
  unfold Nrb.refineC Nrb.refine
  by_cases h0 : values = []
  · rw [if_pos h0, if_pos h0]; rfl
  rw [if_neg h0, if_neg h0]
  refine py_bind_congr fun a _ => py_bind_congr fun u hu => ?_
  have h1 := (hv a).one_le
  have h2 := (hv a).le
  rw [N.UA_eq, N.rowA_eq, BSp.RefineKnotVectorC_ok eps jk je (hv a).le]
  · exact py_map_congr _ fun VQ _ => rfl
  · intro j c e i f g
    have hle := refineArg_le hu (Nrb.ofList u j) (by
      unfold Nrb.ofList
      have : j.toNat < u.length := by omega
      rw [List.getD_eq_getElem?_getD, List.getElem?_eq_getElem this]
      exact List.getElem_mem this)
    refine hle.trans ?_
    rw [show N.len a + (-N.degree a - 1) = N.n a + 1 by rw [N.len_eq]; ring]
    exact (hv a).sorted _ _ (by omega) (by omega) (by omega)

/-- `slice`, for valid objects and all arguments -/
theorem C77_slice (eps : K) (jk : ℤ → K) (je : ℤ → (Fin d → ℤ) → ℕ → K) (hv : N.Valid) (axis : ℤ) (start stop : Option K) :
    N.sliceC eps jk je axis start stop = py (N.slice eps jk je axis start stop) := by
  unfold Nrb.sliceC Nrb.slice
  refine py_bind_congr fun a _ => py_bind_congr fun _ _ => py_bind_congr fun _ _ => py_bind_congr fun _ _ => ?_
  rw [show N.UA a = ⟨0, N.len a - 1, N.U a⟩ from rfl, BSp.FindMultC_ok _ _ _ _ _ _ (by omega)]
  refine py_bind_congr fun s0 _ => ?_
  rw [BSp.FindMultC_ok _ _ _ _ _ _ (by omega)]
  refine py_bind_congr fun s1 _ => ?_
  dsimp only
  rw [C77_refine eps jk je hv]
  exact py_bind_congr fun N' _ => rfl

/-- `elevate`, for valid objects and an axis that is clamped at both ends, has interior knots of multiplicity at most the degree
and spans longer than the tolerance -/
theorem C77_elevate {eps : K} (heps : 0 ≤ eps) (jk : ℤ → K) (je : ℤ → (Fin d → ℤ) → ℕ → K) (jb : ℤ → ℤ → K) (hv : N.Valid)
    {axis : ℤ} (hE : ∀ a, normAxis (d + 1) axis = .ok a → N.Elevatable eps a) (times : Option ℤ) :
    N.elevateC eps jk je jb axis times = py (N.elevate eps jk je jb axis times) := by
  unfold Nrb.elevateC Nrb.elevate
  cases times with
  | none => rfl
  | some t =>
    dsimp only
    refine py_bind_congr fun _ _ => ?_
    by_cases h0 : t = 0
    · rw [if_pos h0, if_pos h0]; rfl
    rw [if_neg h0, if_neg h0]
    refine py_bind_congr fun a ha => ?_
    have hE := hE a ha
    rw [N.UA_eq, N.rowA_eq, BSp.DegreeElevateC_ok jk je jb (elevSafe_of heps (hv a) hE.right hE.mult hE.gaps) _ h0]
    exact py_map_congr _ fun VQ _ => rfl

/-- `remove`, for valid objects whose interior knots have multiplicity at most the degree, for every value that is a knot or
at least `eps` away from all knots -/
theorem C77_remove {eps : ℝ} (heps : 0 < eps) (jt : ℤ → (Fin d → ℤ) → ℕ → ℝ) {N : Nrb ℝ (d + 1)} (hv : N.Valid)
    {axis : ℤ} {value : ℝ} (hm : ∀ a, normAxis (d + 1) axis = .ok a → MultLe (N.n a) (N.degree a) (N.U a))
    (hsep : ∀ a, normAxis (d + 1) axis = .ok a → SepFrom eps value (N.U a) 0 (N.n a + N.degree a + 1)) (times : Option ℤ) (deviation : ℝ) :
    N.removeC eps jt axis value times deviation = py (N.remove eps jt axis value times deviation) := by
  unfold Nrb.removeC Nrb.remove
  refine py_bind_congr fun a ha => py_bind_congr fun _ _ => ?_
  have hm := hm a ha
  have hsep := hsep a ha
  have h1 := (hv a).one_le
  have h2 := (hv a).le
  rw [show N.UA a = ⟨0, N.len a - 1, N.U a⟩ from rfl, BSp.FindMultC_ok _ _ _ _ _ _ (by omega)]
  refine py_bind_congr fun m hfm => py_bind_congr fun _ _ => ?_
  have em : m = findMult eps (findSpan (N.n a) (N.degree a) value (N.U a)) value (N.degree a) (N.U a) := by
    unfold BSp.FindMult at hfm
    rw [if_pos (by rw [N.len_eq]; omega), if_neg (by omega)] at hfm
    injection hfm with hfm
    rw [← hfm, show N.len a - 1 - (N.degree a + 1) = N.n a by rw [N.len_eq]; ring]
  generalize ht : min (times.getD (min m (N.degree a))) (min m (N.degree a)) = t
  by_cases h0 : t = 0
  · rw [if_pos h0, if_pos h0]; rfl
  rw [if_neg h0, if_neg h0]
  by_cases h3 : value ≤ N.lo a
  · rw [if_pos h3, if_pos h3]; rfl
  rw [if_neg h3, if_neg h3]
  by_cases h4 : value ≥ N.hi a
  · rw [if_pos h4, if_pos h4]; rfl
  rw [if_neg h4, if_neg h4]
  rw [show N.rowA a = ⟨0, N.n a, N.row a⟩ from rfl, show (⟨0, N.len a - 1, N.U a⟩ : Arr ℝ) =
    ⟨0, N.n a + N.degree a + 1, N.U a⟩ from N.UA_eq a]
  dsimp only
  rw [BSp.RemoveKnotC_ok eps jt _ h2]
  · exact py_map_congr _ fun VQ _ => rfl
  · intro hr a1 a2
    obtain ⟨e1, e2⟩ := removeSafe_of heps (hv a) a1 a2 hsep (hm value a1 a2)
    refine ⟨by omega, by rw [e1]; exact hm value a1 a2, by omega⟩

/-- evaluation on a grid of parameters, for objects with at least `degree + 1` control points along each axis -/
theorem C77_call (jk : ℤ → K) (je : ℤ → ℕ → K) {d : ℕ} (N : Nrb K d) (h0 : ∀ a, 0 ≤ N.degree a)
    (hN : ∀ a, N.degree a ≤ N.n a) (r : Fin d → ℤ) (X : Fin d → ℤ → K) :
    N.callC jk je r X = py (N.call jk je r X) := by
  unfold Nrb.callC Nrb.call
  refine py_bind_congr fun _ _ => ?_
  have key : N.evaluateHC jk je r X = py (N.evaluateH jk je r X) := by
    match d, N, h0, hN, r, X with
    | 0, N, h0, hN, r, X => rfl
    | 1, N, h0, hN, r, X =>
      unfold Nrb.evaluateHC Nrb.evaluateH
      dsimp only
      rw [N.UA_eq, show N.shape 0 - 1 = N.n 0 from rfl, evaluate1C_ok (h0 0) (hN 0) le_rfl]
      rfl
    | 2, N, h0, hN, r, X =>
      unfold Nrb.evaluateHC Nrb.evaluateH
      dsimp only
      rw [N.UA_eq, N.UA_eq, show N.shape 0 - 1 = N.n 0 from rfl, show N.shape 1 - 1 = N.n 1 from rfl,
        evaluate2C_ok (h0 0) (hN 0) le_rfl (h0 1) (hN 1) le_rfl]
      rfl
    | 3, N, h0, hN, r, X =>
      unfold Nrb.evaluateHC Nrb.evaluateH
      dsimp only
      rw [N.UA_eq, N.UA_eq, N.UA_eq, show N.shape 0 - 1 = N.n 0 from rfl, show N.shape 1 - 1 = N.n 1 from rfl,
        show N.shape 2 - 1 = N.n 2 from rfl,
        evaluate3C_ok (h0 0) (hN 0) le_rfl (h0 1) (hN 1) le_rfl (h0 2) (hN 2) le_rfl]
      rfl
    | _ + 4, N, h0, hN, r, X => rfl
  rw [key]
  exact py_bind_congr fun _ _ => rfl

variable {d : ℕ}

/-- `spans`, for every object and all arguments -/
theorem C77_spans (eps : K) (ji : ℤ → ℤ) (N : Nrb K d) (axis : ℤ) : N.spansC eps ji axis = py (N.spans eps ji axis) := by
  unfold Nrb.spansC Nrb.spans
  refine py_bind_congr fun a _ => ?_
  rw [show N.UA a = ⟨0, N.len a - 1, N.U a⟩ from rfl, BSp.SpanIndexC_ok]

/-- `breaks(axis, mults=True)`, for every object and all arguments -/
theorem C77_breaks (eps : K) (N : Nrb K d) (axis : ℤ) : N.breakMultsC eps axis = py (N.breakMults eps axis) := by
  unfold Nrb.breakMultsC Nrb.breakMults
  refine py_bind_congr fun a _ => ?_
  dsimp only
  by_cases h : N.degree a ≥ 1 ∧ N.len a - 1 ≥ 2 * N.degree a + 1
  · rw [show N.UA a = ⟨0, N.len a - 1, N.U a⟩ from rfl, BSp.FindMultC_ok _ _ _ _ _ _ (by omega)]
    refine py_bind_congr fun m0 _ => ?_
    rw [BSp.FindMultC_ok _ _ _ _ _ _ (by omega)]
    exact py_bind_congr fun m1 _ => rfl
  · unfold BSp.FindMultC BSp.FindMult
    simp only [if_neg h]
    rfl

/-- `greville`, for every object and all arguments: the checked call ends with the same exception or with the array of all
abscissae -/
theorem C77_greville (jk : ℤ → K) (N : Nrb K d) (axis : ℤ) :
    (∃ e, N.greville axis = .error e ∧ N.grevilleC jk axis = .error (.exc e)) ∨
    ∃ c X A, N.greville axis = .ok (c, X) ∧ N.grevilleC jk axis = .ok A ∧ A.lo = 0 ∧ A.hi = c - 1 ∧
      ∀ i, 0 ≤ i → i < c → A.val i = X i := by
  unfold Nrb.greville Nrb.grevilleC
  cases ha : normAxis d axis with
  | error e => exact Or.inl ⟨e, rfl, rfl⟩
  | ok a =>
    rw [show py (.ok a : Res (Fin d)) = .ok a from rfl, run_bind, res_ok_bind,
      show N.UA a = ⟨0, N.len a - 1, N.U a⟩ from rfl, BSp.GrevilleC_ok]
    cases hg : BSp.Greville (N.degree a) (N.len a - 1) (N.U a) with
    | error e => exact Or.inl ⟨e, rfl, rfl⟩
    | ok X =>
      refine Or.inr ⟨_, _, _, rfl, rfl, rfl, by ring, ?_⟩
      intro i h1 h2
      dsimp only
      rw [fillRange_in _ _ _ _ _ (by omega) (by omega), sub_zero]

/-- `iga.KnotVector`, for all arguments -/
theorem C77_KnotVector (jk : ℤ → K) (E p C : ℤ) (Ui Uf : K) (wrap : Bool) :
    iga_KnotVectorC jk E p C Ui Uf wrap =
      py (iga_KnotVector jk E p C Ui Uf wrap >>= fun V => .ok ⟨0, knotVectorM E p C, V⟩) :=
  iga_KnotVectorC_ok jk E p C Ui Uf wrap

/-- `bsp.EvalBasisFuns` and `bsp.EvalBasisFunsDers`, for all arguments, when the span is computed or lies in the domain -/
theorem C77_basis (jk : ℤ → K) (j2 ja jd : ℤ → ℤ → K) (p m : ℤ) (U : ℤ → K) (uu : K) (d span : ℤ)
    (hs : span ≥ 0 → p ≤ span ∧ span ≤ m - (p + 1)) :
    BSp.EvalBasisFunsC jk p m ⟨0, m, U⟩ uu span =
        py (BSp.EvalBasisFuns jk p m U uu span >>= fun N => .ok ⟨0, p, N⟩) ∧
    BSp.EvalBasisFunsDersC jk j2 ja jd p m ⟨0, m, U⟩ uu d span =
        py (BSp.EvalBasisFunsDers jk j2 ja jd p m U uu d span >>= fun D => .ok ⟨0, p, 0, d, fun r l => D l r⟩) :=
  ⟨BSp.EvalBasisFunsC_ok jk p m U uu span (fun h => by have := hs h; omega),
    BSp.EvalBasisFunsDersC_ok jk j2 ja jd p m U uu d span (fun h => by have := hs h; omega)⟩

end Igakit
