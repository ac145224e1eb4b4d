import Verif.Proofs.PlotWire
import Verif.Props.Plot

/-! # C64: drawings of the knots and of the control net -/

set_option linter.unusedSectionVars false

namespace Igakit
open Spec Plot

variable {K : Type} [Field K] [LinearOrder K] [IsStrictOrderedRing K] {d : ℕ}

theorem forall₂_flatten_inv {α β : Type} {R : α → β → Prop} : ∀ {L : List (List α)} {l : List β}, List.Forall₂ R L.flatten l →
    ∃ L', l = L'.flatten ∧ List.Forall₂ (List.Forall₂ R) L L'
  | [], l, h => by
    cases h
    exact ⟨[], rfl, .nil⟩
  | x :: L, l, h => by
    rw [List.flatten_cons] at h
    have h1 := List.forall₂_take x.length h
    have h2 := List.forall₂_drop x.length h
    rw [List.take_left' rfl] at h1
    rw [List.drop_left' rfl] at h2
    obtain ⟨L', e, h3⟩ := forall₂_flatten_inv h2
    exact ⟨l.take x.length :: L', by rw [List.flatten_cons, ← e, List.take_append_drop], .cons h1 h3⟩

/-- the axes chosen by the argument `axes`: all of them in order if it is absent, otherwise those named -/
def Plot.AxesArg.Selects (R : ℤ → Fin d → Prop) : AxesArg → List (Fin d) → Prop
  | .none, as => as = List.finRange d
  | .one axis, as => ∃ a, R axis a ∧ as = [a]
  | .many axes, as => List.Forall₂ R axes as

theorem selects_list (hd : d ≤ 3) {R : ℤ → Fin d → Prop} (hR : ∀ a : Fin d, R ((a : ℕ) : ℤ) a) {axes : AxesArg} {as : List (Fin d)}
    (h : axes.Selects R as) : List.Forall₂ R (axes.list d) as := by
  cases axes with
  | none =>
    rw [show as = List.finRange d from h]
    have e : ((AxesArg.none).list d) = (List.finRange d).map (fun a : Fin d => ((a : ℕ) : ℤ)) := by
      interval_cases d <;> rfl
    rw [e, List.forall₂_map_left_iff, List.forall₂_same]
    exact fun a _ => hR a
  | one axis =>
    obtain ⟨a, h1, rfl⟩ := h
    exact .cons h1 .nil
  | many l => exact h

/-- C64: `kwire`: for each of the axes, in order, one line along the axis for each choice of a break on each of the other axes -/
theorem C64_kwire (M : PlotMem K) (hd : d + 1 ≤ 3) {N : Nrb K (d + 1)} (hv : N.Valid) {m : ℕ} (hm : 0 < m) {axes : AxesArg}
    {as : List (Fin (d + 1))} (hax' : axes.Selects (WireAxis d) as) :
    ∃ br blocks, (∀ a, N.Breaks a (br a)) ∧ kwire M m N axes = .ok blocks.flatten ∧
      List.Forall₂ (fun a B => N.KnotLines br m a B) as blocks := by
  have hax := selects_list hd (fun a => Or.inl rfl) hax'
  obtain ⟨br, h1, h2⟩ := allBreaks_ok N
  obtain ⟨Bs, h3, h4⟩ := forEach_ok (f := kwireAxis M m N br) (R := fun axis Cs => (∀ C ∈ Cs, ∃ l, unpack3 C = .ok l) ∧
    ∀ a, WireAxis d axis a → ∀ ls, List.Forall₂ (fun C l => unpack3 C = .ok l) Cs ls → N.KnotLines br m a ls)
    (axes.list (d + 1)) 0 (fun k axis hx => by
      obtain ⟨a, _, ha⟩ := forall₂_mem_left hax hx
      obtain ⟨Cs, g1, g2, g3⟩ := kwireAxis_ok M hd hv hm h2 k ha
      refine ⟨Cs, g1, g2, fun a' ha' ls hls => ?_⟩
      have e : a = a' := by
        have := ha.norm.symm.trans ha'.norm
        injection this
      exact e ▸ g3 ls hls)
  obtain ⟨ls, h5, h6⟩ := forEach_ok (f := fun _ C => unpack3 C) (R := fun (C : Nd K) l => unpack3 C = .ok l) Bs.flatten 0 (fun k C hC => by
    obtain ⟨Cs, hCs, hC⟩ := List.mem_flatten.1 hC
    obtain ⟨_, _, g, _⟩ := forall₂_mem_right h4 hCs
    obtain ⟨l, hl⟩ := g C hC
    exact ⟨l, hl, hl⟩)
  obtain ⟨blocks, rfl, h7⟩ := forall₂_flatten_inv h6
  refine ⟨br, blocks, h2, ?_, ?_⟩
  · unfold kwire
    rw [h1, res_ok_bind, h3, res_ok_bind, h5]
  · have h8 : List.Forall₂ (fun a axis => WireAxis d axis a) as (axes.list (d + 1)) := hax.flip
    have h9 := forall₂_comp (T := fun (a : Fin (d + 1)) Cs => ∀ ls, List.Forall₂ (fun C l => unpack3 C = .ok l) Cs ls →
      N.KnotLines br m a ls) (fun a axis Cs ha hC => hC.2 a ha) h8 h4
    exact forall₂_comp (fun a Cs ls hC hl => hC ls hl) h9 h7

/-- C64: `ksurf`: for each of the axes and each break on it the section there, at equally spaced parameters -/
theorem C64_ksurf {eps : K} (heps : 0 < eps) (M : PlotMem K) (hd : d + 1 ≤ 3) {N : Nrb K (d + 1)} (hv : N.Valid) {m : ℕ} (hm : 0 < m)
    {axes : AxesArg} {as : List (Fin (d + 1))} (hax' : axes.Selects (AxisName (d + 1)) as)
    (hE : ∀ a ∈ as, ∀ k, N.degree a ≤ k → k ≤ N.n a + 1 → N.CanExtract eps a (N.U a k)) :
    ∃ (br : Fin (d + 1) → List K) (ls : List (Xyz K)), (∀ a, N.Breaks a (br a)) ∧ ksurf eps M m N axes = .ok ls ∧
      List.Forall₂ (fun (s : Fin (d + 1) × K) l => l.Shows (fun _ => m) (fun i => N.pt (N.faceAt s.1 s.2 m i)))
        (as.flatMap (fun a => (br a).map (fun u => (a, u)))) ls := by
  have hax := selects_list hd (fun a => Or.inl rfl) hax'
  choose br hb1 hb2 using fun a : Fin (d + 1) => breaks_ok N (normAxis_self a)
  obtain ⟨Bs, h3, h4⟩ := forEach_ok (f := ksurfAxis eps M m N) (R := fun axis Cs => ∀ a, AxisName (d + 1) axis a →
    List.Forall₂ (fun u C => ∃ l, unpack3 C = .ok l ∧ l.Shows (fun _ => m) (fun i => N.pt (N.faceAt a u m i))) (br a) Cs)
    (axes.list (d + 1)) 0 (fun k axis hx => by
      obtain ⟨a, hm', ha⟩ := forall₂_mem_left hax hx
      have hbr : N.breaks axis = .ok (br a) := by rw [← breaks_named ha]; exact hb1 a
      obtain ⟨Cs, g1, g2⟩ := forEach_ok (f := fun i u => do
          let nrb ← N.extract eps (M.jr [k, i]) axis u
          sampled M [k, i] m nrb)
        (R := fun u C => ∃ l, unpack3 C = .ok l ∧ l.Shows (fun _ => m) (fun i => N.pt (N.faceAt a u m i))) (br a) 0 (fun i u hu => by
          obtain ⟨j, j1, j2, rfl⟩ := ((hb2 a).mem u).1 hu
          have hc := hE a hm' j j1 j2
          obtain ⟨N', e1, hv', hs⟩ := C11_extract heps (M.jr [k, i]) hv (normAxis_named ha) hc.lo hc.hi hc.sep hc.mult hc.right
          obtain ⟨C, l, e2, e3, e4⟩ := section_sampled M [k, i] hd hv' hs hm
          exact ⟨C, by rw [e1, res_ok_bind, e2], l, e3, e4⟩)
      refine ⟨Cs, ?_, fun a' ha' => ?_⟩
      · unfold ksurfAxis
        rw [hbr, res_ok_bind, g1]
      · rw [← C54_unique ha ha']
        exact g2)
  have h8 : List.Forall₂ (fun a axis => AxisName (d + 1) axis a) as (axes.list (d + 1)) := hax.flip
  have h9 : List.Forall₂ (fun (a : Fin (d + 1)) Cs => List.Forall₂ (fun (s : Fin (d + 1) × K) C => ∃ l, unpack3 C = .ok l ∧
      l.Shows (fun _ => m) (fun i => N.pt (N.faceAt s.1 s.2 m i))) ((br a).map (fun u => (a, u))) Cs) as Bs :=
    forall₂_comp (fun a axis Cs ha hC => List.forall₂_map_left_iff.2 (hC a ha)) h8 h4
  have h10 := forall₂_flatten (List.forall₂_map_left_iff.2 h9)
  rw [← List.flatMap_def] at h10
  obtain ⟨ls, h5, h6⟩ := forEach_ok (f := fun _ C => unpack3 C) (R := fun (C : Nd K) l => unpack3 C = .ok l) Bs.flatten 0 (fun k C hC => by
    obtain ⟨_, _, l, hl, _⟩ := forall₂_mem_right h10 hC
    exact ⟨l, hl, hl⟩)
  refine ⟨br, ls, hb2, ?_, forall₂_comp (fun s C l hC hl => ?_) h10 h6⟩
  · unfold ksurf
    rw [h3, res_ok_bind, h5]
  · obtain ⟨l', e, h⟩ := hC
    rw [hl] at e
    cases e
    exact h

/-- C64: `kpoint`: the points at the breaks -/
theorem C64_kpoint (M : PlotMem K) (hd : d ≤ 3) {N : Nrb K d} (hv : N.Valid) :
    ∃ (br : Fin d → List K) (l : Xyz K), (∀ a, N.Breaks a (br a)) ∧ kpoint M N = .ok l ∧
      l.Shows (fun a => (br a).length) (fun i => N.pt (fun a => (br a).getD (i a) 0)) := by
  obtain ⟨br, h1, h2⟩ := allBreaks_ok N
  obtain ⟨C, l, h3, h4, h5⟩ := shown_ok M [] hd hv (uvw := br) (fun a => (h2 a).ne_nil hv) (fun a x hx => (h2 a).inside hv hx)
  refine ⟨br, l, h2, ?_, h5⟩
  unfold kpoint
  rw [h1, res_ok_bind, h3, res_ok_bind, h4]

/-- C64: `cpoint` and `cwire`: the control points -/
theorem C64_cpoint {N : Nrb K d} (hs : ∀ a, 0 ≤ N.shape a) :
    ∃ l, cpoint N = .ok l ∧ cwire N = .ok [l] ∧ l.Shows (fun a => (N.shape a).toNat) N.cp := by
  have e : (pointsNd N).shape = (List.ofFn fun a => (((N.shape a).toNat : ℕ) : ℤ)) ++ [3] := by
    unfold pointsNd
    simp only [Int.toNat_of_nonneg (hs _)]
  obtain ⟨l, h1, h2⟩ := unpack3_ok e
  refine ⟨l, h1, ?_, h2 _ fun i hi => ?_⟩
  · unfold cwire
    rw [h1, res_ok_bind, res_pure]
  · have hg : ∀ c : ℤ, (fun a : Fin d => ((List.ofFn fun a => (i a : ℤ)) ++ [c]).getD a 0) = fun a => (i a : ℤ) := by
      intro c
      funext a
      rw [List.getD_eq_getElem?_getD, List.getElem?_append_left (by rw [List.length_ofFn]; exact a.2), ← List.getD_eq_getElem?_getD, getD_lt _ (by rw [List.length_ofFn]; exact a.2)]
      simp
    have hl : ∀ c : ℤ, ((List.ofFn fun a => (i a : ℤ)) ++ [c]).getD d 0 = c := by
      intro c
      rw [List.getD_eq_getElem?_getD, List.getElem?_append_right (by rw [List.length_ofFn]), List.length_ofFn]
      simp
    unfold pointsNd Nrb.cp
    dsimp only
    simp only [hg, hl]
    rfl

namespace Ex

/-- the unit square, a bilinear patch -/
def square : Nrb ℚ 2 where
  shape := ![2, 2]
  nc := 4
  len := ![4, 4]
  U := fun _ => vec [0, 0, 1, 1]
  P := fun idx c => if c = 0 then idx 0 else if c = 1 then idx 1 else if c = 3 then 1 else 0

theorem square_valid : square.Valid := by
  intro a
  have h : ValidKnots 1 ((1 : ℕ) : ℤ) (vec [0, 0, 1, 1] : ℤ → ℚ) := by
    refine ⟨by norm_num, by norm_num, sortedOn_of_steps ?_, by decide +kernel, by decide +kernel⟩
    intro i h1 h2
    have h2 : i < 3 := by simpa using h2
    interval_cases i <;> decide +kernel
  fin_cases a <;> exact h

theorem square_breaks : allBreaks square = .ok (fun _ => [0, 1]) := by
  have h : ∀ a : Fin 2, Nrb.npUnique (Nrb.slab (square.U a) (square.degree a) (square.len a - square.degree a - 1)) = [0, 1] := by
    intro a
    have : Nrb.slab (square.U a) (square.degree a) (square.len a - square.degree a - 1) = [0, 1] := by
      fin_cases a <;> decide +kernel
    rw [this]
    simp [Nrb.npUnique, List.mergeSort, List.MergeSort.Internal.splitInTwo, List.merge]
  unfold allBreaks
  apply seqFin_ok
  intro a
  unfold Nrb.breaks
  rw [normAxis_self, res_ok_bind, h, res_pure]

def mem : PlotMem ℚ := ⟨fun _ _ => 7, fun _ _ _ => 8, fun _ _ _ _ => 9⟩

end Ex

/-- the `y` coordinates of lines of three points -/
def lineYs (ls : List (Xyz ℚ)) : List (List ℚ) := ls.map (fun l => [l.y.get [0], l.y.get [1], l.y.get [2]])

/-- C64: with the negative number `-2` for the first axis of the unit square `kwire` mixes up the lines: along the first axis `y`
does not change (as with the number 0), but the lines drawn run from one side to the other and back -/
theorem C64_kwire_negative : Ex.square.Valid ∧ AxisName 2 (-2) (0 : Fin 2) ∧
    (kwire Ex.mem 3 Ex.square (.one 0)).map lineYs = .ok [[0, 0, 0], [1, 1, 1]] ∧
    (kwire Ex.mem 3 Ex.square (.one (-2))).map lineYs = .ok [[0, 1, 0], [1, 0, 1]] :=
  ⟨Ex.square_valid, Or.inr (by decide), by unfold kwire; rw [Ex.square_breaks, res_ok_bind]; decide +kernel,
    by unfold kwire; rw [Ex.square_breaks, res_ok_bind]; decide +kernel⟩

end Igakit
