import Verif.Proofs.Plot

/-! # C63: drawings show the object -/

set_option linter.unusedSectionVars false

namespace Igakit
open Spec Plot

variable {K : Type} [Field K] [LinearOrder K] [IsStrictOrderedRing K] {d : ℕ}

theorem forall₂_mem_right {α β : Type} {R : α → β → Prop} {l : List α} {l' : List β} (h : List.Forall₂ R l l') {y : β}
    (hy : y ∈ l') : ∃ x ∈ l, R x y := by
  induction h with
  | nil => simp at hy
  | cons h1 _ ih =>
    rcases List.mem_cons.1 hy with rfl | hy
    · exact ⟨_, List.mem_cons_self, h1⟩
    · obtain ⟨x, hx, hr⟩ := ih hy
      exact ⟨x, List.mem_cons_of_mem _ hx, hr⟩

theorem forall₂_mem_left {α β : Type} {R : α → β → Prop} {l : List α} {l' : List β} (h : List.Forall₂ R l l') {x : α}
    (hx : x ∈ l) : ∃ y ∈ l', R x y := by
  induction h with
  | nil => simp at hx
  | cons h1 _ ih =>
    rcases List.mem_cons.1 hx with rfl | hx
    · exact ⟨_, List.mem_cons_self, h1⟩
    · obtain ⟨x, hx, hr⟩ := ih hx
      exact ⟨x, List.mem_cons_of_mem _ hx, hr⟩

theorem flatten_length_const {α : Type} {c : ℕ} : ∀ {l : List (List α)}, (∀ x ∈ l, x.length = c) → l.flatten.length = l.length * c
  | [], _ => by simp
  | x :: l, h => by
    rw [List.flatten_cons, List.length_append, h x List.mem_cons_self, flatten_length_const
      (fun y hy => h y (List.mem_cons_of_mem _ hy)), List.length_cons]
    ring

theorem sides_mem {s : ℤ × ℤ} : s ∈ sides d ↔ ∃ a : Fin d, s = (((a : ℕ) : ℤ), 0) ∨ s = (((a : ℕ) : ℤ), 1) := by
  unfold sides
  rw [List.mem_flatMap]
  constructor
  · rintro ⟨a, ha, hs⟩
    refine ⟨⟨a, List.mem_range.1 ha⟩, ?_⟩
    simpa using hs
  · rintro ⟨a, hs⟩
    exact ⟨a, List.mem_range.2 a.2, by simpa using hs⟩

theorem sides_length : (sides d).length = 2 * d := by
  unfold sides
  rw [List.length_flatMap]
  simp [mul_comm]

/-- both ends of all axes can be extracted -/
def Nrb.HasSides (N : Nrb K d) (eps : K) : Prop := ∀ a, N.CanExtract eps a (N.lo a) ∧ N.CanExtract eps a (N.hi a)

/-- the end of axis `a` -/
def Nrb.endOf (N : Nrb K d) (a : Fin d) (e : Bool) : K := if e then N.hi a else N.lo a

theorem boundary_ok {eps : K} (heps : 0 < eps) (je : ℤ → (Fin d → ℤ) → ℕ → K) {N : Nrb K (d + 1)} (hv : N.Valid)
    (hE : N.HasSides eps) (a : Fin (d + 1)) (e : Bool) :
    ∃ N', N.boundary eps je ((a : ℕ) : ℤ) (if e then 1 else 0) = .ok N' ∧ N'.Valid ∧ N.IsSection a (N.endOf a e) N' := by
  cases e
  · obtain ⟨N', h1, h2⟩ := extract_section heps je hv (hE a).1
    refine ⟨N', ?_, h2⟩
    unfold Nrb.boundary
    rw [pyAssert_ok (by simp), res_ok_bind, normAxis_self, res_ok_bind]
    simpa using h1
  · obtain ⟨N', h1, h2⟩ := extract_section heps je hv (hE a).2
    refine ⟨N', ?_, h2⟩
    unfold Nrb.boundary
    rw [pyAssert_ok (by simp), res_ok_bind, normAxis_self, res_ok_bind]
    simpa using h1

/-- the objects for the sides -/
theorem boundaries_ok {eps : K} (heps : 0 < eps) (M : PlotMem K) (key : List ℕ) {N : Nrb K (d + 1)} (hv : N.Valid)
    (hE : N.HasSides eps) :
    ∃ bs, boundaries eps M key N = .ok bs ∧ List.Forall₂ (fun (s : ℤ × ℤ) N' => ∃ (a : Fin (d + 1)) (e : Bool), s = (((a : ℕ) : ℤ), if e then 1 else 0) ∧
      N'.Valid ∧ N.IsSection a (N.endOf a e) N') (sides (d + 1)) bs := by
  unfold boundaries
  refine forEach_ok _ _ fun k s hs => ?_
  obtain ⟨a, h | h⟩ := sides_mem.1 hs
  · obtain ⟨N', h1, h2, h3⟩ := boundary_ok heps (M.jr (k :: key)) hv hE a false
    exact ⟨N', by rw [h]; exact h1, a, false, by rw [h]; rfl, h2, h3⟩
  · obtain ⟨N', h1, h2, h3⟩ := boundary_ok heps (M.jr (k :: key)) hv hE a true
    exact ⟨N', by rw [h]; exact h1, a, true, by rw [h]; rfl, h2, h3⟩

theorem Nrb.IsSection.hasSides {N : Nrb K (d + 1)} {N' : Nrb K d} {a : Fin (d + 1)} {u eps : K} (h : N.IsSection a u N')
    (hE : N.HasSides eps) : N'.HasSides eps := fun b =>
  ⟨by rw [h.lo]; exact h.canExtract (hE _).1, by rw [h.hi]; exact h.canExtract (hE _).2⟩

theorem Nrb.IsSection.pt {N : Nrb K (d + 1)} {N' : Nrb K d} {a : Fin (d + 1)} {u : K} (h : N.IsSection a u N') (y : Fin d → K) :
    N'.pt y = N.pt (a.insertNth u y) := by
  unfold Nrb.pt Nrb.proj
  rw [h.eval]

theorem Nrb.IsSection.edgeAt {N : Nrb K (d + 1)} {N' : Nrb K d} {a : Fin (d + 1)} {e : Bool} (h : N.IsSection a (N.endOf a e) N')
    (b : Fin d) (s : Fin d → Bool) (t : K) :
    a.insertNth (N.endOf a e) (N'.edgeAt b s t) = N.edgeAt (a.succAbove b) (a.insertNth e s) t := by
  funext c
  induction c using Fin.succAboveCases a with
  | x => simp [Nrb.edgeAt, Nrb.endOf, Fin.ne_succAbove a b]
  | p c =>
    simp only [Fin.insertNth_apply_succAbove, Nrb.edgeAt, h.lo, h.hi]
    simp [Fin.succAbove_right_inj]

/-- C63: `curve` draws the edges of the object: each line drawn is an edge, sampled at equally spaced parameters, and every
edge is drawn.  (On a curve that is the curve itself.) -/
theorem C63_curve {eps : K} (heps : 0 < eps) (M : PlotMem K) {m : ℕ} (hm : 0 < m) : ∀ {d : ℕ} (key : List ℕ) {N : Nrb K (d + 1)},
    d + 1 ≤ 3 → N.Valid → (1 ≤ d → N.HasSides eps) →
    ∃ ls, curve eps M m key N = .ok ls ∧ ls.length = 2 ^ d * (d + 1).factorial ∧
      (∀ l ∈ ls, ∃ a s, l.IsLine m (fun i => N.pt (N.edgeAt a s (evenly (N.lo a) (N.hi a) m i)))) ∧
      ∀ a s, ∃ l ∈ ls, l.IsLine m (fun i => N.pt (N.edgeAt a s (evenly (N.lo a) (N.hi a) m i)))
  | 0, key, N, hd, hv, _ => by
    obtain ⟨C, l, h1, h2, h3⟩ := sampled_ok M key (d := 1) (by omega) hv hm
    have hl : ∀ a s, l.IsLine m (fun i => N.pt (N.edgeAt a s (evenly (N.lo a) (N.hi a) m i))) := by
      intro a s
      unfold Xyz.IsLine
      have e : (fun i : Fin 1 → ℕ => N.pt (N.edgeAt a s (evenly (N.lo a) (N.hi a) m (i 0)))) =
          fun i => N.pt (fun a => evenly (N.lo a) (N.hi a) m (i a)) := by
        funext i
        congr 1
        funext b
        have hb : b = a := Subsingleton.elim (α := Fin 1) _ _
        have ha : a = 0 := Subsingleton.elim (α := Fin 1) _ _
        unfold Nrb.edgeAt
        rw [if_pos hb, hb, ha]
      rw [e]
      exact h3
    refine ⟨[l], ?_, rfl, fun l' hl' => ?_, fun a s => ⟨l, List.mem_singleton_self _, hl a s⟩⟩
    · show (do let C ← sampled M key m N; let l ← unpack3 C; pure [l]) = _
      rw [h1, res_ok_bind, h2, res_ok_bind, res_pure]
    · rw [List.mem_singleton.1 hl']
      exact ⟨0, fun _ => false, hl _ _⟩
  | d + 1, key, N, hd, hv, hE => by
    have hE := hE (by omega)
    obtain ⟨bs, h1, h2⟩ := boundaries_ok heps M key hv hE
    have hstep : ∀ k, ∀ N' ∈ bs, ∃ ls, curve eps M m (k :: key) N' = .ok ls ∧ ls.length = 2 ^ d * (d + 1).factorial ∧
        (∀ l ∈ ls, ∃ a s, l.IsLine m (fun i => N'.pt (N'.edgeAt a s (evenly (N'.lo a) (N'.hi a) m i)))) ∧
        ∀ a s, ∃ l ∈ ls, l.IsLine m (fun i => N'.pt (N'.edgeAt a s (evenly (N'.lo a) (N'.hi a) m i))) := by
      intro k N' hN'
      obtain ⟨s, _, a, e, _, hv', hsec⟩ := forall₂_mem_right h2 hN'
      exact C63_curve heps M hm (k :: key) (by omega) hv' (fun _ => hsec.hasSides hE)
    obtain ⟨ys, h3, h4⟩ := forEach_ok (R := fun (N' : Nrb K (d + 1)) (ls : List (Xyz K)) => ls.length = 2 ^ d * (d + 1).factorial ∧
        (∀ l ∈ ls, ∃ a s, l.IsLine m (fun i => N'.pt (N'.edgeAt a s (evenly (N'.lo a) (N'.hi a) m i)))) ∧
        ∀ a s, ∃ l ∈ ls, l.IsLine m (fun i => N'.pt (N'.edgeAt a s (evenly (N'.lo a) (N'.hi a) m i)))) bs 0 hstep
    refine ⟨ys.flatten, ?_, ?_, fun l hl => ?_, fun a s => ?_⟩
    · show (do let bs ← boundaries eps M key N
               let ls ← forEach (fun k nrb => curve eps M m (k :: key) nrb) 0 bs
               pure ls.flatten) = _
      rw [h1, res_ok_bind, h3, res_ok_bind, res_pure]
    · rw [flatten_length_const (c := 2 ^ d * (d + 1).factorial), ← h4.length_eq, ← h2.length_eq, sides_length,
        Nat.factorial_succ (d + 1), pow_succ]
      · ring
      · intro x hx
        obtain ⟨_, _, h, _⟩ := forall₂_mem_right h4 hx
        exact h
    · obtain ⟨x, hx, hl⟩ := List.mem_flatten.1 hl
      obtain ⟨N', hN', _, h5, _⟩ := forall₂_mem_right h4 hx
      obtain ⟨_, _, a, e, _, _, hsec⟩ := forall₂_mem_right h2 hN'
      obtain ⟨b, s, h6⟩ := h5 l hl
      refine ⟨a.succAbove b, a.insertNth e s, ?_⟩
      simpa only [hsec.pt, hsec.edgeAt, hsec.lo, hsec.hi] using h6
    · obtain ⟨a0, ha0⟩ := exists_ne a
      obtain ⟨b, rfl⟩ := Fin.exists_succAbove_eq ha0.symm
      have hmem : (((a0 : ℕ) : ℤ), if s a0 then (1 : ℤ) else 0) ∈ sides (d + 1 + 1) := by
        refine sides_mem.2 ⟨a0, ?_⟩
        cases s a0 <;> simp
      obtain ⟨N', hN', a, e, hs, _, hsec⟩ := forall₂_mem_left h2 hmem
      obtain ⟨x, hx, _, _, h5⟩ := forall₂_mem_left h4 hN'
      have ha : a = a0 := by
        have := (Prod.mk.inj hs).1
        exact Fin.ext (by exact_mod_cast this.symm)
      have he : e = s a0 := by
        have := (Prod.mk.inj hs).2
        cases e <;> cases h : s a0 <;> simp_all
      subst ha he
      obtain ⟨l, hl, h6⟩ := h5 b (fun c => s (a.succAbove c))
      refine ⟨l, List.mem_flatten.2 ⟨x, hx, hl⟩, ?_⟩
      have es : (a.insertNth (s a) (fun c => s (a.succAbove c)) : Fin (d + 1 + 1) → Bool) = s := by
        funext c
        induction c using Fin.succAboveCases a with
        | x => simp
        | p c => simp
      simpa only [hsec.pt, hsec.edgeAt, hsec.lo, hsec.hi, es] using h6

/-- the grid of a face: axis `a` fixed at `u`, `m` equally spaced parameters on each of the other axes -/
def Nrb.faceAt (N : Nrb K (d + 1)) (a : Fin (d + 1)) (u : K) (m : ℕ) (i : Fin d → ℕ) : Fin (d + 1) → K :=
  a.insertNth u (fun b => evenly (N.lo (a.succAbove b)) (N.hi (a.succAbove b)) m (i b))

theorem section_sampled (M : PlotMem K) (key : List ℕ) (hd : d + 1 ≤ 3) {N : Nrb K (d + 1)} {N' : Nrb K d} (hv' : N'.Valid) {a : Fin (d + 1)}
    {u : K} (h : N.IsSection a u N') {m : ℕ} (hm : 0 < m) :
    ∃ C l, sampled M key m N' = .ok C ∧ unpack3 C = .ok l ∧ l.Shows (fun _ => m) (fun i => N.pt (N.faceAt a u m i)) := by
  obtain ⟨C, l, h1, h2, h3⟩ := sampled_ok M key (by omega) hv' hm
  refine ⟨C, l, h1, h2, ?_⟩
  simp only [h.pt, h.lo, h.hi] at h3
  exact h3

theorem forall₂_comp {α β γ : Type} {R : α → β → Prop} {S : β → γ → Prop} {T : α → γ → Prop} (h : ∀ a b c, R a b → S b c → T a c)
    {l : List α} {l' : List β} {l'' : List γ} (h1 : List.Forall₂ R l l') (h2 : List.Forall₂ S l' l'') : List.Forall₂ T l l'' := by
  induction h1 generalizing l'' with
  | nil => cases h2; exact .nil
  | cons hr _ ih => cases h2 with
    | cons hs h2 => exact .cons (h _ _ _ hr hs) (ih h2)

theorem forall₂_flatten {α β : Type} {R : α → β → Prop} {l : List (List α)} {l' : List (List β)}
    (h : List.Forall₂ (List.Forall₂ R) l l') : List.Forall₂ R l.flatten l'.flatten := by
  induction h with
  | nil => exact .nil
  | cons h1 _ ih =>
    rw [List.flatten_cons, List.flatten_cons]
    exact List.rel_append h1 ih

/-- C63: `surface` of a surface draws its points at equally spaced parameters -/
theorem C63_surface {eps : K} (M : PlotMem K) {m : ℕ} (hm : 0 < m) {N : Nrb K 2} (hv : N.Valid) :
    ∃ l, surface eps M m N = .ok [l] ∧ l.Shows (fun _ => m) (fun i => N.pt (fun a => evenly (N.lo a) (N.hi a) m (i a))) := by
  obtain ⟨C, l, h1, h2, h3⟩ := sampled_ok M [0] (by omega) hv hm
  refine ⟨l, ?_, h3⟩
  show surfLoop M m [N] = _
  unfold surfLoop
  rw [forEach_one (f := fun k nrb => sampled M [k] m nrb) h1, res_ok_bind, forEach_one (f := fun _ C => unpack3 C) h2]

/-- C63: `surface` and `volume` of a volume draw its six faces -/
theorem C63_volume {eps : K} (heps : 0 < eps) (M : PlotMem K) {m : ℕ} (hm : 0 < m) {N : Nrb K 3} (hv : N.Valid) (hE : N.HasSides eps) :
    ∃ ls, surface eps M m N = .ok ls ∧ volume eps M m N = .ok ls ∧
      List.Forall₂ (fun (s : Fin 3 × Bool) l => l.Shows (fun _ => m) (fun i => N.pt (N.faceAt s.1 (N.endOf s.1 s.2) m i)))
        [(0, false), (0, true), (1, false), (1, true), (2, false), (2, true)] ls := by
  obtain ⟨bs, h1, h2⟩ := boundaries_ok heps M [] hv hE
  have h2' : List.Forall₂ (fun (s : Fin 3 × Bool) N' => N'.Valid ∧ N.IsSection s.1 (N.endOf s.1 s.2) N')
      [(0, false), (0, true), (1, false), (1, true), (2, false), (2, true)] bs := by
    refine forall₂_comp (R := fun (s : Fin 3 × Bool) (z : ℤ × ℤ) => z = (((s.1 : ℕ) : ℤ), if s.2 then 1 else 0)) ?_ ?_ h2
    · rintro ⟨a, e⟩ z N' rfl ⟨a', e', hz, hv', hs⟩
      have ha : a' = a := by
        have := (Prod.mk.inj hz).1
        exact Fin.ext (by exact_mod_cast this.symm)
      have he : e' = e := by
        have := (Prod.mk.inj hz).2
        cases e <;> cases e' <;> simp_all
      subst ha he
      exact ⟨hv', hs⟩
    · show List.Forall₂ _ _ [((0 : ℤ), (0 : ℤ)), (0, 1), (1, 0), (1, 1), (2, 0), (2, 1)]
      simp
  obtain ⟨Cs, h3, h4⟩ := forEach_ok (f := fun k nrb => sampled M [k] m nrb)
    (R := fun (N' : Nrb K 2) (C : Nd K) => ∀ a u, N.IsSection a u N' → ∃ l, unpack3 C = .ok l ∧
      l.Shows (fun _ => m) (fun i => N.pt (N.faceAt a u m i))) bs 0 (fun k N' hN' => by
      obtain ⟨⟨a, e⟩, _, hv', hs⟩ := forall₂_mem_right h2' hN'
      obtain ⟨C, l, g1, g2, g3⟩ := section_sampled M [k] (by omega) hv' hs hm
      refine ⟨C, g1, fun a' u' hs' => ?_⟩
      obtain ⟨C', l', g1', g2', g3'⟩ := section_sampled M [k] (by omega) hv' hs' hm
      rw [g1] at g1'
      cases g1'
      exact ⟨l', g2', g3'⟩)
  have h5 := forall₂_comp (T := fun (s : Fin 3 × Bool) C => ∃ l, unpack3 C = .ok l ∧
    l.Shows (fun _ => m) (fun i => N.pt (N.faceAt s.1 (N.endOf s.1 s.2) m i))) (fun s N' C hs hC => hC _ _ hs.2) h2' h4
  obtain ⟨ls, h6, h7⟩ := forEach_ok (f := fun _ C => unpack3 C) (R := fun (C : Nd K) l => unpack3 C = .ok l) Cs 0 (fun k C hC => by
    obtain ⟨_, _, l, hl, _⟩ := forall₂_mem_right h5 hC
    exact ⟨l, hl, hl⟩)
  have h8 : surface eps M m N = .ok ls := by
    show (do let bs ← boundaries eps M [] N; surfLoop M m bs) = _
    rw [h1, res_ok_bind]
    unfold surfLoop
    rw [h3, res_ok_bind, h6]
  refine ⟨ls, h8, ?_, forall₂_comp (fun s C l hC hl => ?_) h5 h7⟩
  · unfold volume
    rw [if_neg (by omega), h8]
  · obtain ⟨l', e, h⟩ := hC
    rw [hl] at e
    cases e
    exact h

/-- C63: `plot` hands to the backend: of a curve, one line; of a surface, one surface; of a volume, its six faces -/
theorem C63_plot {eps : K} (heps : 0 < eps) (M : PlotMem K) {r1 r2 : ℕ} (h1 : 0 < r1) (h2 : 0 < r2) :
    (∀ {N : Nrb K 1}, N.Valid → ∃ l, plot eps M r1 r2 N = .ok ⟨[l], []⟩ ∧
      l.IsLine r1 (fun i => N.pt (fun a => evenly (N.lo a) (N.hi a) r1 i))) ∧
    (∀ {N : Nrb K 2}, N.Valid → ∃ l, plot eps M r1 r2 N = .ok ⟨[], [l]⟩ ∧
      l.Shows (fun _ => r2) (fun i => N.pt (fun a => evenly (N.lo a) (N.hi a) r2 (i a)))) ∧
    (∀ {N : Nrb K 3}, N.Valid → N.HasSides eps → ∃ ls, plot eps M r1 r2 N = .ok ⟨[], ls⟩ ∧
      List.Forall₂ (fun (s : Fin 3 × Bool) l => l.Shows (fun _ => r2) (fun i => N.pt (N.faceAt s.1 (N.endOf s.1 s.2) r2 i)))
        [(0, false), (0, true), (1, false), (1, true), (2, false), (2, true)] ls) := by
  refine ⟨fun {N} hv => ?_, fun {N} hv => ?_, fun {N} hv hE => ?_⟩
  · obtain ⟨C, l, g1, g2, g3⟩ := sampled_ok M [] (by omega) hv h1
    refine ⟨l, ?_, ?_⟩
    · show (do let l ← (do let C ← sampled M [] r1 N; let l ← unpack3 C; pure [l]); pure (⟨l, []⟩ : Drawn K)) = _
      rw [g1, res_ok_bind, g2, res_ok_bind, res_pure, res_ok_bind, res_pure]
    · unfold Xyz.IsLine
      have e : (fun i : Fin 1 → ℕ => N.pt (fun a => evenly (N.lo a) (N.hi a) r1 (i 0))) =
          fun i => N.pt (fun a => evenly (N.lo a) (N.hi a) r1 (i a)) := by
        funext i
        congr 1
        funext b
        have hb : b = 0 := Subsingleton.elim _ _
        rw [hb]
      rw [e]
      exact g3
  · obtain ⟨l, g1, g2⟩ := C63_surface (eps := eps) M h2 hv
    refine ⟨l, ?_, g2⟩
    show (do let s ← surface eps M r2 N; pure (⟨[], s⟩ : Drawn K)) = _
    rw [g1, res_ok_bind, res_pure]
  · obtain ⟨ls, _, g1, g2⟩ := C63_volume heps M h2 hv hE
    refine ⟨ls, ?_, g2⟩
    show (do let s ← volume eps M r2 N; pure (⟨[], s⟩ : Drawn K)) = _
    rw [g1, res_ok_bind, res_pure]

end Igakit
