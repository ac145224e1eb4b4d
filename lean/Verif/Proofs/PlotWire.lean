import Verif.Proofs.Plot
import Verif.Props.Axis
import Verif.Props.Abscissae

set_option linter.unusedSectionVars false

namespace Igakit
open Spec Plot

variable {K : Type} [Field K] [LinearOrder K] [IsStrictOrderedRing K] {d : ℕ}

theorem breaks_ok (N : Nrb K d) {axis : ℤ} {a : Fin d} (ha : normAxis d axis = .ok a) :
    ∃ l, N.breaks axis = .ok l ∧ N.Breaks a l := by
  obtain ⟨l, h1, h2, h3⟩ := C32_breaks N ha
  exact ⟨l, h1, h2, h3⟩

theorem allBreaks_ok (N : Nrb K d) : ∃ br, allBreaks N = .ok br ∧ ∀ a, N.Breaks a (br a) := by
  choose l hl using fun a : Fin d => breaks_ok N (normAxis_self a)
  refine ⟨l, ?_, fun a => (hl a).2⟩
  unfold allBreaks
  apply seqFin_ok
  intro a
  exact (hl a).1

namespace Nrb.Breaks
variable {N : Nrb K d} {a : Fin d} {l : List K}

theorem inside (h : N.Breaks a l) (hv : N.Valid) {x : K} (hx : x ∈ l) : N.lo a ≤ x ∧ x ≤ N.hi a := by
  obtain ⟨k, h1, h2, rfl⟩ := (h.mem x).1 hx
  obtain ⟨p, hp, hk, e⟩ := deg_nat hv a
  have hle := hk.le
  rw [N.lo_eq, N.hi_eq]
  rw [hp] at h1 ⊢
  exact ⟨hk.sorted _ _ (by omega) h1 (by omega), hk.sorted _ _ (by omega) h2 (by omega)⟩

theorem lo_mem (h : N.Breaks a l) (hv : N.Valid) : N.lo a ∈ l := by
  obtain ⟨p, hp, hk, e⟩ := deg_nat hv a
  have hle := hk.le
  exact (h.mem _).2 ⟨N.degree a, le_rfl, by omega, (N.lo_eq a).symm⟩

theorem hi_mem (h : N.Breaks a l) (hv : N.Valid) : N.hi a ∈ l := by
  obtain ⟨p, hp, hk, e⟩ := deg_nat hv a
  have hle := hk.le
  exact (h.mem _).2 ⟨N.n a + 1, by omega, le_rfl, (N.hi_eq a).symm⟩

theorem head (h : N.Breaks a l) (hv : N.Valid) : l.headD 0 = N.lo a :=
  (strict_head h.lt (h.lo_mem hv) (fun _ hy => (h.inside hv hy).1)).1

theorem last (h : N.Breaks a l) (hv : N.Valid) : l.getLastD 0 = N.hi a :=
  (strict_last h.lt (h.hi_mem hv) (fun _ hy => (h.inside hv hy).2)).1

theorem ne_nil (h : N.Breaks a l) (hv : N.Valid) : l ≠ [] := by
  rintro rfl
  exact absurd (h.lo_mem hv) (by simp)

end Nrb.Breaks

/-- an axis number for which `rollaxis` takes the axis of the parameters: not negative, or `-1` -/
def WireAxis (d : ℕ) (axis : ℤ) (a : Fin (d + 1)) : Prop := axis = ((a : ℕ) : ℤ) ∨ (axis = -1 ∧ a = Fin.last d)

theorem WireAxis.norm {axis : ℤ} {a : Fin (d + 1)} (h : WireAxis d axis a) : normAxis (d + 1) axis = .ok a := by
  rcases h with rfl | ⟨rfl, rfl⟩
  · exact normAxis_self a
  · exact normAxis_named (Or.inr (by push_cast [Fin.val_last]; ring))

theorem rollaxisEnd_ok (hd : d + 1 ≤ 3) {C : Nd K} {n : Fin (d + 1) → ℤ} (hs : C.shape = List.ofFn n ++ [3]) {axis : ℤ}
    {a : Fin (d + 1)} (ha : WireAxis d axis a) :
    ∃ C', rollaxisEnd C axis = .ok C' ∧ C'.shape = List.ofFn (fun b => n (a.succAbove b)) ++ [n a, 3] ∧
      ∀ (i : Fin (d + 1) → ℤ) (c : ℤ), C'.get (List.ofFn (fun b => i (a.succAbove b)) ++ [i a, c]) = C.get (List.ofFn i ++ [c]) := by
  unfold rollaxisEnd
  rw [hs]
  have hcases : d = 0 ∨ d = 1 ∨ d = 2 := by omega
  rcases hcases with rfl | rfl | rfl
  all_goals
    fin_cases a <;> rcases ha with rfl | ⟨rfl, h⟩ <;>
    first
    | (exfalso; revert h; decide)
    | skip
  all_goals
    simp [Nrb.npAxis, transposeAxes, List.range_succ, hs, Fin.succAbove, List.idxOf_cons]

theorem reshapeLines_ok {A : Nd K} {S : List ℤ} {m : ℕ} (hm : 0 < m) (hS : ∀ s ∈ S, 0 < s) (hs : A.shape = S ++ [(m : ℤ), 3]) :
    ∃ B, reshapeLines A m = .ok B ∧ B.shape = [S.prod, (m : ℤ), 3] ∧
      ∀ j, InShape S j → ∀ i c : ℤ, 0 ≤ i → i < m → 0 ≤ c → c < 3 →
        B.get [offsetF S.reverse j.reverse, i, c] = A.get (j ++ [i, c]) := by
  have hp : 0 < S.prod := prod_pos_of hS
  have hm' : (0 : ℤ) < m := by exact_mod_cast hm
  have hprod : A.shape.prod = S.prod * ((m : ℤ) * 3) := by
    rw [hs, List.prod_append]; simp
  have hdiv : A.shape.prod / ((m : ℤ) * 3) = S.prod := by
    rw [hprod]; exact Int.mul_ediv_cancel _ (by omega)
  unfold reshapeLines
  rw [if_pos ⟨by omega, by rw [hprod]; exact Int.mul_emod_left _ _⟩, hdiv]
  unfold reshapeC
  have hpp : 0 < A.shape.prod := by rw [hprod]; positivity
  rw [if_pos (by
    rw [ravelC_length, Int.toNat_of_nonneg hpp.le, hprod]
    simp)]
  refine ⟨_, rfl, rfl, fun j hj i c i0 i1 c0 c1 => ?_⟩
  have hin : InShape A.shape (j ++ [i, c]) := by
    rw [hs]
    exact inShape_append hj ⟨⟨i0, i1⟩, ⟨c0, c1⟩, trivial⟩
  rw [← ravelC_get A hin, hs]
  congr 2
  simp [offsetF]

theorem rowsNd_ok {B : Nd K} {q : ℕ} {S : List ℤ} (hs : B.shape = (q : ℤ) :: S) :
    (rowsNd B).length = q ∧ ∀ t (ht : t < (rowsNd B).length), ((rowsNd B)[t]).shape = S ∧
      ∀ idx, ((rowsNd B)[t]).get idx = B.get ((t : ℤ) :: idx) := by
  unfold rowsNd
  rw [hs]
  refine ⟨by simp, fun t ht => ?_⟩
  simp

/-- the lines of one axis: for each choice of a break on each of the other axes one line, along the axis -/
def Nrb.KnotLines (N : Nrb K (d + 1)) (br : Fin (d + 1) → List K) (m : ℕ) (a : Fin (d + 1)) (B : List (Xyz K)) : Prop :=
  ∃ e : ((b : Fin d) → Fin (br (a.succAbove b)).length) ≃ Fin B.length, ∀ j,
    (B.get (e j)).IsLine m (fun i => N.pt (a.insertNth (evenly (N.lo a) (N.hi a) m i) (fun b => (br (a.succAbove b)).get (j b))))

theorem kwireAxis_ok (M : PlotMem K) (hd : d + 1 ≤ 3) {N : Nrb K (d + 1)} (hv : N.Valid) {m : ℕ} (hm : 0 < m)
    {br : Fin (d + 1) → List K} (hbr : ∀ a, N.Breaks a (br a)) (k : ℕ) {axis : ℤ} {a : Fin (d + 1)} (ha : WireAxis d axis a) :
    ∃ Cs, kwireAxis M m N br k axis = .ok Cs ∧ (∀ C ∈ Cs, ∃ l, unpack3 C = .ok l) ∧ ∀ ls, List.Forall₂ (fun C l => unpack3 C = .ok l) Cs ls →
      N.KnotLines br m a ls := by
  set uvw := Function.update br a (linspace (N.lo a) (N.hi a) m) with hu
  have hua : uvw a = linspace (N.lo a) (N.hi a) m := by rw [hu, Function.update_self]
  have hub : ∀ b, uvw (a.succAbove b) = br (a.succAbove b) := fun b => by
    rw [hu, Function.update_of_ne (Fin.succAbove_ne a b)]
  have hall : ∀ b, uvw b ≠ [] ∧ ∀ x ∈ uvw b, N.lo b ≤ x ∧ x ≤ N.hi b := by
    intro b
    rcases eq_or_ne b a with rfl | hb
    · rw [hua]
      refine ⟨fun h => ?_, fun x hx => linspace_mem (lo_le_hi hv _) hx⟩
      have := linspace_length (N.lo b) (N.hi b) m
      rw [h] at this
      simp at this; omega
    · obtain ⟨b, rfl⟩ := Fin.exists_succAbove_eq hb
      rw [hub]
      exact ⟨(hbr _).ne_nil hv, fun x hx => (hbr _).inside hv hx⟩
  obtain ⟨C, h1, h2, h3⟩ := callAt_ok M [k] hd hv (fun b => (hall b).1) (fun b => (hall b).2)
  obtain ⟨C', h4, h5, h6⟩ := rollaxisEnd_ok hd h2 ha
  rw [hua, linspace_length] at h5
  obtain ⟨B, h7, h8, h9⟩ := reshapeLines_ok (S := List.ofFn fun b : Fin d => ((uvw (a.succAbove b)).length : ℤ)) hm (fun s hs => by
    obtain ⟨b, rfl⟩ := (List.mem_ofFn' _ _).1 hs
    have := (hall (a.succAbove b)).1
    have := List.length_pos_of_ne_nil this
    dsimp only
    exact_mod_cast this) h5
  have hq : (List.ofFn fun b : Fin d => ((uvw (a.succAbove b)).length : ℤ)).prod =
      ((∏ b : Fin d, (br (a.succAbove b)).length : ℕ) : ℤ) := by
    rw [List.prod_ofFn]
    push_cast
    exact Finset.prod_congr rfl fun b _ => by rw [hub]
  rw [hq] at h8
  obtain ⟨h10, h11⟩ := rowsNd_ok h8
  refine ⟨rowsNd B, ?_, fun R hR => ?_, fun ls hls => ?_⟩
  · unfold kwireAxis
    rw [ha.norm, res_ok_bind]
    dsimp only
    rw [if_neg ((hbr a).ne_nil hv), (hbr a).head hv, (hbr a).last hv]
    rw [← hu, h1]
    simp only [res_ok_bind, h4, linspace_length, h7, res_pure]
  · obtain ⟨t, ht, rfl⟩ := List.mem_iff_getElem.1 hR
    obtain ⟨l, g1, _⟩ := unpack3_ok (n := fun _ : Fin 1 => m) (by rw [(h11 _ ht).1]; rfl : ((rowsNd B)[t]).shape = _)
    exact ⟨l, g1⟩
  · have hlen : ls.length = ∏ b : Fin d, (br (a.succAbove b)).length := by rw [← hls.length_eq, h10]
    have hpos : ∀ j : (b : Fin d) → Fin (br (a.succAbove b)).length,
        InShape (List.ofFn fun b : Fin d => ((uvw (a.succAbove b)).length : ℤ)) (List.ofFn fun b => ((j b : ℕ) : ℤ)) := by
      intro j
      refine inShape_ofFn fun b => ⟨Int.natCast_nonneg _, ?_⟩
      rw [hub]
      exact_mod_cast (j b).2
    have hrange := fun j => offsetF_range (inShape_reverse (hpos j))
    simp only [List.prod_reverse, hq] at hrange
    set pos : ((b : Fin d) → Fin (br (a.succAbove b)).length) → ℤ := fun j =>
      offsetF (List.ofFn fun b : Fin d => ((uvw (a.succAbove b)).length : ℤ)).reverse (List.ofFn fun b => ((j b : ℕ) : ℤ)).reverse
      with hposdef
    set f : ((b : Fin d) → Fin (br (a.succAbove b)).length) → Fin ls.length := fun j =>
      ⟨(pos j).toNat, by
        have : 0 ≤ pos j ∧ pos j < _ := hrange j
        rw [hlen]
        omega⟩ with hf
    have hinj : Function.Injective f := by
      intro j j' h
      have h : (pos j).toNat = (pos j').toNat := congrArg Fin.val h
      have hj := hrange j
      have hj' := hrange j'
      have h : pos j = pos j' := by
        have e1 : 0 ≤ pos j := hj.1
        have e2 : 0 ≤ pos j' := hj'.1
        omega
      have e := unravelF_offsetF (inShape_reverse (hpos j))
      have e' := unravelF_offsetF (inShape_reverse (hpos j'))
      rw [hposdef] at h
      dsimp only at h
      rw [h, e'] at e
      have e := List.ofFn_injective (List.reverse_injective e)
      funext b
      have := congrFun e b
      exact Fin.ext (by exact_mod_cast this.symm)
    have hbij : Function.Bijective f := by
      rw [Fintype.bijective_iff_injective_and_card]
      refine ⟨hinj, ?_⟩
      rw [Fintype.card_pi, Fintype.card_fin, hlen]
      exact Finset.prod_congr rfl fun b _ => Fintype.card_fin _
    refine ⟨Equiv.ofBijective f hbij, fun j => ?_⟩
    rw [Equiv.ofBijective_apply]
    have ht : (f j : ℕ) < (rowsNd B).length := by rw [hls.length_eq]; exact (f j).2
    have hun : unpack3 ((rowsNd B)[(f j : ℕ)]) = .ok (ls.get (f j)) := (List.forall₂_iff_get.1 hls).2 _ ht (f j).2
    obtain ⟨hsh, hget⟩ := h11 _ ht
    obtain ⟨l, g1, g2⟩ := unpack3_ok (n := fun _ : Fin 1 => m) (by rw [hsh]; rfl : ((rowsNd B)[(f j : ℕ)]).shape = _)
    rw [g1] at hun
    have hl : l = ls.get (f j) := by injection hun
    rw [← hl]
    have hfj : ((f j : ℕ) : ℤ) = pos j := Int.toNat_of_nonneg (hrange j).1
    have key : ∀ (i : ℕ), i < m → ∀ c : ℕ, c < 3 → ((rowsNd B)[(f j : ℕ)]).get [(i : ℤ), (c : ℤ)] =
        N.proj (a.insertNth (evenly (N.lo a) (N.hi a) m i) (fun b => (br (a.succAbove b)).get (j b))) c := by
      intro i hi c hc
      rw [hget, hfj]
      have := h9 _ (hpos j) (i : ℤ) (c : ℤ) (Int.natCast_nonneg _) (by exact_mod_cast hi) (Int.natCast_nonneg _) (by exact_mod_cast hc)
      rw [this]
      set I : Fin (d + 1) → ℕ := a.insertNth i (fun b => (j b : ℕ)) with hI
      have e1 := h6 (fun b => (I b : ℤ)) (c : ℤ)
      have eI : ∀ b, I (a.succAbove b) = j b := fun b => by rw [hI, Fin.insertNth_apply_succAbove]
      have eIa : I a = i := by rw [hI, Fin.insertNth_apply_same]
      simp only [eI, eIa] at e1
      rw [e1, h3 I (fun b => by
        rcases eq_or_ne b a with rfl | hb
        · rw [eIa, hua, linspace_length]; exact hi
        · obtain ⟨b, rfl⟩ := Fin.exists_succAbove_eq hb
          rw [eI, hub]
          exact (j b).2) c hc]
      congr 1
      funext b
      rcases eq_or_ne b a with rfl | hb
      · rw [eIa, hua, linspace_getD hi, Fin.insertNth_apply_same]
      · obtain ⟨b, rfl⟩ := Fin.exists_succAbove_eq hb
        rw [eI, hub, Fin.insertNth_apply_succAbove, getD_lt _ (j b).2]
        rfl
    refine g2 _ fun i hi => ?_
    have h0 := key (i 0) (hi 0) 0 (by omega)
    have h1' := key (i 0) (hi 0) 1 (by omega)
    have h2' := key (i 0) (hi 0) 2 (by omega)
    dsimp only [Nrb.pt]
    rw [← h0, ← h1', ← h2']
    rfl

end Igakit
