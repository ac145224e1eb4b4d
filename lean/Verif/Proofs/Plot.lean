import Verif.Spec.Plot
import Verif.Spec.CadRefine
import Verif.Props.CallArgs
import Verif.Props.Conform
import Verif.Props.Vtk

set_option linter.unusedSectionVars false

namespace Igakit
open Spec

theorem forEach_ok {α β : Type} {R : α → β → Prop} {f : ℕ → α → Res β} :
    ∀ (l : List α) (k : ℕ), (∀ k, ∀ x ∈ l, ∃ y, f k x = .ok y ∧ R x y) → ∃ ys, forEach f k l = .ok ys ∧ List.Forall₂ R l ys
  | [], _, _ => ⟨[], rfl, .nil⟩
  | x :: l, k, h => by
    obtain ⟨y, h1, h2⟩ := h k x List.mem_cons_self
    obtain ⟨ys, h3, h4⟩ := forEach_ok l (k + 1) (fun k x hx => h k x (List.mem_cons_of_mem _ hx))
    refine ⟨y :: ys, ?_, .cons h2 h4⟩
    show (do let y ← f k x; let ys ← forEach f (k + 1) l; pure (y :: ys)) = _
    rw [h1, res_ok_bind, h3, res_ok_bind, res_pure]

theorem forEach_one {α β : Type} {f : ℕ → α → Res β} {k : ℕ} {x : α} {y : β} (h : f k x = .ok y) :
    forEach f k [x] = .ok [y] := by
  show (do let y ← f k x; let ys ← Except.ok []; pure (y :: ys)) = _
  rw [h, res_ok_bind, res_ok_bind, res_pure]

theorem getD_lt {α : Type} {l : List α} {i : ℕ} (x : α) (h : i < l.length) : l.getD i x = l[i] := by
  rw [List.getD_eq_getElem?_getD, List.getElem?_eq_getElem h, Option.getD_some]

variable {K : Type} [Field K] [LinearOrder K] [IsStrictOrderedRing K] {d : ℕ}

namespace Plot

theorem linspace_length (a b : K) (m : ℕ) : (linspace a b m).length = m := by simp [linspace]

theorem linspace_getD {a b : K} {m i : ℕ} (hi : i < m) : (linspace a b m).getD i 0 = evenly a b m i := by
  rw [getD_lt _ (by rw [linspace_length]; exact hi)]
  unfold linspace evenly
  rw [List.getElem_map, List.getElem_range]
  split_ifs with h
  · have h0 : (m : K) - 1 ≠ 0 := by
      have : (1 : K) < m := by exact_mod_cast h.1
      linarith
    have e : (i : K) = m - 1 := by
      rw [← h.2]; push_cast; ring
    rw [e, div_self h0]; ring
  · ring

theorem evenly_mem {a b : K} (hab : a ≤ b) {m i : ℕ} (hi : i < m) : a ≤ evenly a b m i ∧ evenly a b m i ≤ b := by
  unfold evenly
  have h0 : (0 : K) ≤ b - a := sub_nonneg.2 hab
  have h1 : (0 : K) ≤ (m : K) - 1 := by
    have : (1 : K) ≤ m := by exact_mod_cast (by omega : 1 ≤ m)
    linarith
  have h2 : (i : K) ≤ (m : K) - 1 := by
    have : ((i + 1 : ℕ) : K) ≤ m := by exact_mod_cast hi
    push_cast at this
    linarith
  have h3 : (0 : K) ≤ (i : K) / ((m : K) - 1) := div_nonneg (Nat.cast_nonneg _) h1
  have h4 : (i : K) / ((m : K) - 1) ≤ 1 := div_le_one_of_le₀ h2 h1
  constructor
  · have := mul_nonneg h0 h3
    linarith
  · have := mul_le_mul_of_nonneg_left h4 h0
    linarith

theorem linspace_mem {a b : K} (hab : a ≤ b) {m : ℕ} {x : K} (hx : x ∈ linspace a b m) : a ≤ x ∧ x ≤ b := by
  obtain ⟨i, hi, rfl⟩ := List.mem_iff_getElem.1 hx
  rw [linspace_length] at hi
  have := linspace_getD (a := a) (b := b) hi
  rw [getD_lt _ (by rw [linspace_length]; exact hi)] at this
  rw [this]
  exact evenly_mem hab hi

/-- the arguments of `callAt` -/
def seqArgs (uvw : Fin d → List K) : ℕ → ParArg K := fun k => if h : k < d then .seq (uvw ⟨k, h⟩) else .none

theorem seqArgs_at (uvw : Fin d → List K) (a : Fin d) : seqArgs uvw a = .seq (uvw a) := by simp [seqArgs]

theorem callAt_ok (M : PlotMem K) (key : List ℕ) (hd : d ≤ 3) {N : Nrb K d} (hv : N.Valid) {uvw : Fin d → List K}
    (hne : ∀ a, uvw a ≠ []) (hin : ∀ a, ∀ x ∈ uvw a, N.lo a ≤ x ∧ x ≤ N.hi a) :
    ∃ C, callAt M key N uvw = .ok C ∧ C.shape = (List.ofFn fun a => ((uvw a).length : ℤ)) ++ [3] ∧
      ∀ i : Fin d → ℕ, (∀ a, i a < (uvw a).length) → ∀ c : ℕ, c < 3 →
        C.get ((List.ofFn fun a => (i a : ℤ)) ++ [(c : ℤ)]) = N.proj (fun a => (uvw a).getD (i a) 0) c := by
  have hI : ParArg.Inside N (seqArgs uvw) := by
    intro a
    rw [seqArgs_at]
    exact ⟨hne a, hin a⟩
  obtain ⟨C, h1, h2, h3⟩ := C55_call (M.jk key) (M.je key) hd hv hI
  have ek : ∀ i : Fin d → ℤ, keptIdx (fun a => (seqArgs uvw a).isNum) i = List.ofFn i := by
    intro i
    unfold keptIdx
    simp only [seqArgs_at]
    rw [List.filter_eq_self.2 (by intro a _; rfl), List.ofFn_eq_map]
  refine ⟨C, ?_, ?_, fun i hi c hc => ?_⟩
  · unfold callAt
    rw [show (fun k => if h : k < d then ParArg.seq (uvw ⟨k, h⟩) else .none) = seqArgs uvw from rfl, h1, res_ok_bind, res_pure]
  · rw [h2, ek]
    simp only [seqArgs_at]
    rfl
  · have := h3 (fun a => (i a : ℤ)) (fun a => by
      rw [seqArgs_at]
      exact ⟨Int.natCast_nonneg _, by exact_mod_cast hi a⟩) [(c : ℤ)] ⟨⟨Int.natCast_nonneg _, by exact_mod_cast hc⟩, trivial⟩
    rw [ek] at this
    rw [this]
    simp only [List.headD_cons, Int.toNat_natCast]
    congr 1
    funext a
    unfold ParArg.at
    rw [seqArgs_at]
    rfl

theorem unpack3_ok {C : Nd K} {n : Fin d → ℕ} (hs : C.shape = (List.ofFn fun a => (n a : ℤ)) ++ [3]) :
    ∃ l, unpack3 C = .ok l ∧ ∀ f : (Fin d → ℕ) → K × K × K,
      (∀ i : Fin d → ℕ, (∀ a, i a < n a) → (C.get ((List.ofFn fun a => (i a : ℤ)) ++ [0]),
        C.get ((List.ofFn fun a => (i a : ℤ)) ++ [1]), C.get ((List.ofFn fun a => (i a : ℤ)) ++ [2])) = f i) → l.Shows n f := by
  refine ⟨⟨⟨(List.ofFn fun a => (n a : ℤ)).reverse, fun idx => C.get (idx.reverse ++ [0])⟩,
    ⟨(List.ofFn fun a => (n a : ℤ)).reverse, fun idx => C.get (idx.reverse ++ [1])⟩,
    ⟨(List.ofFn fun a => (n a : ℤ)).reverse, fun idx => C.get (idx.reverse ++ [2])⟩⟩, ?_, fun f hf => ⟨⟨rfl, rfl, rfl⟩, fun i hi => ?_⟩⟩
  · unfold unpack3 rowsNd transposeNd
    rw [hs]
    simp only [List.reverse_append, List.reverse_cons, List.reverse_nil, List.nil_append, List.cons_append, List.headD_cons,
      List.tail_cons]
    rfl
  · simp only [List.reverse_reverse]
    exact hf i hi

/-- a call on a grid and then `x, y, z = C.T` -/
theorem shown_ok (M : PlotMem K) (key : List ℕ) (hd : d ≤ 3) {N : Nrb K d} (hv : N.Valid) {uvw : Fin d → List K}
    (hne : ∀ a, uvw a ≠ []) (hin : ∀ a, ∀ x ∈ uvw a, N.lo a ≤ x ∧ x ≤ N.hi a) :
    ∃ C l, callAt M key N uvw = .ok C ∧ unpack3 C = .ok l ∧
      l.Shows (fun a => (uvw a).length) (fun i => N.pt (fun a => (uvw a).getD (i a) 0)) := by
  obtain ⟨C, h1, h2, h3⟩ := callAt_ok M key hd hv hne hin
  obtain ⟨l, h4, h5⟩ := unpack3_ok (n := fun a => (uvw a).length) h2
  refine ⟨C, l, h1, h4, h5 _ fun i hi => ?_⟩
  have e0 := h3 i hi 0 (by omega)
  have e1 := h3 i hi 1 (by omega)
  have e2 := h3 i hi 2 (by omega)
  unfold Nrb.pt
  rw [← e0, ← e1, ← e2]
  rfl

theorem lo_le_hi {N : Nrb K d} (hv : N.Valid) (a : Fin d) : N.lo a ≤ N.hi a := by
  obtain ⟨p, hp, hk, e⟩ := deg_nat hv a
  have hle := hk.le
  rw [N.lo_eq, N.hi_eq, hp]
  exact (hk.sorted p (N.n a) (by omega) (by omega) (by omega)).trans hk.last.le

/-- `sampled` and then `x, y, z = C.T` -/
theorem sampled_ok (M : PlotMem K) (key : List ℕ) (hd : d ≤ 3) {N : Nrb K d} (hv : N.Valid) {m : ℕ} (hm : 0 < m) :
    ∃ C l, sampled M key m N = .ok C ∧ unpack3 C = .ok l ∧
      l.Shows (fun _ => m) (fun i => N.pt (fun a => evenly (N.lo a) (N.hi a) m (i a))) := by
  obtain ⟨C, l, h1, h2, h3⟩ := shown_ok M key hd hv (uvw := fun a => linspace (N.lo a) (N.hi a) m)
    (fun a h => by
      have := linspace_length (N.lo a) (N.hi a) m
      rw [h] at this
      simp at this; omega) (fun a x hx => linspace_mem (lo_le_hi hv a) hx)
  refine ⟨C, l, h1, h2, ?_, fun i hi => ?_⟩
  · have := h3.shape
    simpa only [linspace_length] using this
  · have := h3.get i (fun a => by rw [linspace_length]; exact hi a)
    rw [this]
    exact congrArg N.pt (funext fun a => linspace_getD (hi a))

end Plot
end Igakit
