import Verif.Props.FloatEnds
import Verif.Props.Cad

/-!
# Property C110: lines and multilinear patches in floating point
-/

set_option linter.unusedSectionVars false

namespace Igakit
open Spec

variable {K : Type} [Field K] [LinearOrder K] [IsStrictOrderedRing K] {d : ℕ}

/-- the net of the object of `ctor_unit` -/
theorem ctor_unit_net {C : Nd K} {s : ℤ} (h1 : 1 ≤ d) (h3 : d ≤ 3) (hC : C.shape = List.replicate d 2 ++ [s]) (hs : 2 ≤ s ∧ s ≤ 4)
    {N : Nrb K d} (h : Nrb.ctor (fun _ => unitKnots) (.arr C) none none = .ok N) :
    (∀ idx c, N.P idx c = homog C none s (List.ofFn idx) c) ∧ ∀ a, N.U a 1 = 0 ∧ N.U a 2 = 1 := by
  have hr : List.replicate d (2 : ℤ) = List.ofFn (fun _ : Fin d => (2 : ℤ)) := (List.ofFn_const d 2).symm
  rw [hr] at hC
  have := ctor_points (knots := fun _ => unitKnots) (W := none) (len := fun _ => 4) h1 h3 (fun _ => rfl) (fun _ => le_rfl) hC hs
    (fun w h => by cases h) (fun _ => by norm_num) (Or.inl ⟨rfl, rfl⟩)
  rw [h] at this
  obtain rfl := Except.ok.inj this
  exact ⟨fun _ _ => rfl, fun _ => ⟨rfl, rfl⟩⟩

/-- the corner `e` of a patch on the unit cube is a clamped end of all axes -/
theorem unit_atEnd {rd : K → K} (hone : rd 1 = 1) {N : Nrb K d} (hp : N.UnitPatch) (hu : ∀ a, N.U a 1 = 0 ∧ N.U a 2 = 1) (a : Fin d)
    {u : K} (j : Fin 2) (h : u = (j : ℕ)) : AtEnd rd N a u ((j : ℕ) : ℤ) := by
  have hn : N.n a = 1 := by unfold Nrb.n; rw [hp.shape]; rfl
  have hrec : Recip rd 1 := by unfold Recip; rw [hone, div_one, hone, mul_one, hone]
  fin_cases j
  · refine Or.inl ⟨?_, ?_, ?_, rfl⟩
    · rw [h, hp.lo]; simp
    · rw [hp.degree]
      intro j j0 j1
      have : j = 0 ∨ j = 1 := by omega
      rcases this with rfl | rfl
      · rw [hp.first, (hu a).1]
      · rfl
    · rw [hp.lo, hp.degree, sub_zero, show (1 : ℤ) + 1 = 2 by norm_num, (hu a).2]
      exact hrec
  · refine Or.inr ⟨?_, ?_, ?_, ?_⟩
    · rw [h, hp.hi]; simp
    · rw [hp.degree, hn]
      intro j j0 j1
      have : j = 2 ∨ j = 3 := by omega
      rcases this with rfl | rfl
      · rfl
      · rw [hp.last, show (1 : ℤ) + 1 = 2 by norm_num, (hu a).2]
    · rw [hp.hi, hn, (hu a).1, sub_zero]
      exact hrec
    · rw [hn]; rfl

/-- the call of an object made by `NURBS([[0,0,1,1]]*d, points)` -/
theorem unit_call {δ : K} {rd : K → K} (h0 : 0 ≤ δ) (hδ : δ < 1) (hr : RelErr δ rd) (hone : rd 1 = 1) (hid : ∀ x, rd (rd x) = rd x)
    (jk : ℤ → Fp K) (je : ℤ → ℕ → Fp K) (h1 : 1 ≤ d) (h3 : d ≤ 3) {C : Nd K} {s : ℤ}
    (hC : C.shape = List.replicate d 2 ++ [s]) (hs : s = 2 ∨ s = 3) :
    ∃ N : Nrb K d, Nrb.ctor (fun _ => unitKnots) (.arr C) none none = .ok N ∧ ∀ (r : Fin d → ℤ) (X : Fin d → ℤ → K),
      (∀ a, 0 ≤ r a) → (∀ a i, 0 ≤ i → i ≤ r a → 0 ≤ X a i ∧ X a i ≤ 1) → ∃ R, N.callF rd jk je r X = .ok R ∧
      ∀ g : Fin d → ℤ, (∀ a, 0 ≤ g a ∧ g a ≤ r a) → ∀ (c : Fin 3) (v : (Fin d → Fin 2) → K),
      (∀ e, v e = if ((c : ℕ) : ℤ) < s then C.corner e c else 0) →
      (∀ B, (∀ e, |v e| ≤ B) → ∃ y, (R g).1 c = some y ∧
        |y - multilin v (fun a => X a (g a))| ≤ (growth δ ^ (2 * (7 * d + 2 ^ d) + 1) - 1) * B) ∧
      ∀ e : Fin d → Fin 2, (∀ a, X a (g a) = (e a : ℕ)) → rd (v e) = v e → (R g).1 c = some (v e) := by
  obtain ⟨N, hN, hp, he⟩ := ctor_unit h1 h3 hC (by omega)
  obtain ⟨hP, hu⟩ := ctor_unit_net h1 h3 hC (by omega) hN
  refine ⟨N, hN, fun r X hn hx => ?_⟩
  have hx' : ∀ a i, 0 ≤ i → i ≤ r a → N.lo a ≤ X a i ∧ X a i ≤ N.hi a := fun a i i0 i1 => by
    rw [hp.lo, hp.hi]
    exact hx a i i0 i1
  have hw : ∀ idx, N.P idx 3 = 1 := fun idx => by
    rw [hP]
    unfold homog
    rw [if_neg (by omega), if_neg (by omega), if_pos rfl]
  have hc : ∀ (c : Fin 3) (e : Fin d → Fin 2), N.P (fun a => ((e a : ℕ) : ℤ)) c = if ((c : ℕ) : ℤ) < s then C.corner e c else 0 := by
    intro c e
    have := c.2
    rw [hP]
    unfold homog Nd.corner
    rw [if_neg (by omega : ¬ s = 4), if_neg (by omega : ¬ (c : ℕ) = 3)]
  obtain ⟨R, r1, r2⟩ := C72_call h0 hδ hr jk je h3 hp.valid hn hx' (fun idx _ => by rw [hw]; exact one_pos) rfl
  obtain ⟨R', r1', r3⟩ := C109_unit hδ hr hone hid jk je h3 hp.valid hn hx'
  rw [r1] at r1'
  obtain rfl := Except.ok.inj r1'
  refine ⟨R, r1, fun g hg c v hv => ⟨fun B hB => ?_, fun e hge hve => ?_⟩⟩
  · obtain ⟨y, y1, y2⟩ := (r2 g hg c B).1 (fun idx hidx => by
      rw [hw, div_one]
      have : idx = fun a => (((⟨(idx a).toNat, by have := hidx a; rw [hp.shape] at this; omega⟩ : Fin 2) : ℕ) : ℤ) := by
        funext a
        have := (hidx a).1
        simp only
        omega
      rw [this, hc, ← hv]
      exact hB _)
    refine ⟨y, y1, ?_⟩
    have hin : N.InDom (fun a => X a (g a)) := fun a => hx' a _ (hg a).1 (hg a).2
    have e3 : N.eval (fun a => X a (g a)) 3 = 1 := by
      rw [he _ hin, ← multilin_one (fun a => X a (g a))]
      congr 1
      funext e
      rw [← hP, hw]
    have ev : N.proj (fun a => X a (g a)) c = multilin v (fun a => X a (g a)) := by
      unfold Nrb.proj
      rw [e3, div_one, he _ hin]
      congr 1
      funext e
      rw [← hP, hc, ← hv]
    rw [ev] at y2
    have em : 6 * (∑ a, (N.degree a).toNat) + d + ∏ a, ((N.degree a).toNat + 1) = 7 * d + 2 ^ d := by
      simp only [hp.degree]
      simp
      ring
    rw [em] at y2
    exact y2
  · have := (r3 g hg (fun a => ((e a : ℕ) : ℤ)) (fun a => unit_atEnd hone hp hu a (e a) (hge a)) (hw _) c).1
    rw [hc, ← hv] at this
    exact this hve

/-- C110: `linear`, `bilinear` and `trilinear` in floating point: within `2 (7 d + 2^d) + 1` roundings of the interpolation of their
corners, and exactly the given points at the corners -/
theorem C110_multilinear {δ : K} {rd : K → K} (h0 : 0 ≤ δ) (hδ : δ < 1) (hr : RelErr δ rd) (hone : rd 1 = 1)
    (hid : ∀ x, rd (rd x) = rd x) (jk : ℤ → Fp K) (je : ℤ → ℕ → Fp K) (h1 : 1 ≤ d) (h3 : d ≤ 3) {C : Nd K} {s : ℤ}
    (hC : C.shape = List.replicate d 2 ++ [s]) (hs : s = 2 ∨ s = 3) :
    ∃ N : Nrb K d, Cad.multilinear d (some C) = .ok N ∧ ∀ (r : Fin d → ℤ) (X : Fin d → ℤ → K),
      (∀ a, 0 ≤ r a) → (∀ a i, 0 ≤ i → i ≤ r a → 0 ≤ X a i ∧ X a i ≤ 1) → ∃ R, N.callF rd jk je r X = .ok R ∧
      ∀ g : Fin d → ℤ, (∀ a, 0 ≤ g a ∧ g a ≤ r a) → ∀ (c : Fin 3) (v : (Fin d → Fin 2) → K),
      (∀ e, v e = if ((c : ℕ) : ℤ) < s then C.corner e c else 0) →
      (∀ B, (∀ e, |v e| ≤ B) → ∃ y, (R g).1 c = some y ∧
        |y - multilin v (fun a => X a (g a))| ≤ (growth δ ^ (2 * (7 * d + 2 ^ d) + 1) - 1) * B) ∧
      ∀ e : Fin d → Fin 2, (∀ a, X a (g a) = (e a : ℕ)) → rd (v e) = v e → (R g).1 c = some (v e) := by
  obtain ⟨N, hN, h⟩ := unit_call h0 hδ hr hone hid jk je h1 h3 hC hs
  refine ⟨N, ?_, h⟩
  unfold Cad.multilinear
  dsimp only
  rw [pyAssert_ok (by rw [hC, List.dropLast_concat])]
  exact hN

/-- C110: `line` in floating point: within 19 roundings of the segment, and exactly the given points at its ends -/
theorem C110_line {δ : K} {rd : K → K} (h0 : 0 ≤ δ) (hδ : δ < 1) (hr : RelErr δ rd) (hone : rd 1 = 1) (hid : ∀ x, rd (rd x) = rd x)
    (jk : ℤ → Fp K) (je : ℤ → ℕ → Fp K) (p0 p1 : ArrArg K) (l0 : p0.toList.length ≤ 3) (l1 : p1.toList.length ≤ 3) :
    ∃ N, Cad.line p0 p1 = .ok N ∧ ∀ (r : ℤ) (X : ℤ → K), 0 ≤ r → (∀ i, 0 ≤ i → i ≤ r → 0 ≤ X i ∧ X i ≤ 1) →
      ∃ R, N.callF rd jk je (fun _ => r) (fun _ => X) = .ok R ∧ ∀ g, 0 ≤ g → g ≤ r → ∀ c : Fin 3,
      (∀ B, |p0.toList.getD c 0| ≤ B → |p1.toList.getD c 0| ≤ B → ∃ y, (R ![g]).1 c = some y ∧
        |y - ((1 - X g) * p0.toList.getD c 0 + X g * p1.toList.getD c 0)| ≤ (growth δ ^ 19 - 1) * B) ∧
      (X g = 0 → rd (p0.toList.getD c 0) = p0.toList.getD c 0 → (R ![g]).1 c = some (p0.toList.getD c 0)) ∧
      (X g = 1 → rd (p1.toList.getD c 0) = p1.toList.getD c 0 → (R ![g]).1 c = some (p1.toList.getD c 0)) := by
  unfold Cad.line
  dsimp only
  rw [if_neg (by omega)]
  obtain ⟨C, hC1, hC2⟩ : ∃ C : Nd K, C.shape = [2, 3] ∧ C.get = (fun i : List ℤ =>
      if i.getD 0 0 = 0 then p0.toList.getD (i.getD 1 0).toNat 0 else p1.toList.getD (i.getD 1 0).toNat 0) :=
    ⟨⟨_, _⟩, rfl, rfl⟩
  rw [← hC1, ← hC2]
  obtain ⟨N, hN, h⟩ := unit_call (d := 1) (C := C) h0 hδ hr hone hid jk je le_rfl (by norm_num) (s := 3) hC1 (Or.inr rfl)
  refine ⟨N, hN, fun r X hr0 hx => ?_⟩
  obtain ⟨R, r1, r2⟩ := h (fun _ => r) (fun _ => X) (fun _ => hr0) (fun _ => hx)
  refine ⟨R, r1, fun g g0 g1 c => ?_⟩
  have hv : ∀ e : Fin 1 → Fin 2, (if e 0 = 0 then p0.toList.getD c 0 else p1.toList.getD c 0) =
      if ((c : ℕ) : ℤ) < 3 then C.corner e c else 0 := by
    intro e
    rw [if_pos (show ((c : ℕ) : ℤ) < 3 by have := c.2; omega)]
    unfold Nd.corner
    rw [hC2]
    have h01 : ∀ j : Fin 2, j = 0 ∨ j = 1 := by decide
    rcases h01 (e 0) with q | q <;> simp [q]
  obtain ⟨a1, a2⟩ := r2 ![g] (fun a => by fin_cases a; exact ⟨g0, g1⟩) c _ hv
  refine ⟨fun B b0 b1 => ?_, fun hX hrd => ?_, fun hX hrd => ?_⟩
  · obtain ⟨y, y1, y2⟩ := a1 B (fun e => by split_ifs; exacts [b0, b1])
    refine ⟨y, y1, ?_⟩
    have : multilin (fun e : Fin 1 → Fin 2 => if e 0 = 0 then p0.toList.getD c 0 else p1.toList.getD c 0)
        (fun a => X (![g] a)) = (1 - X g) * p0.toList.getD c 0 + X g * p1.toList.getD c 0 := by
      unfold multilin
      rw [← Fintype.sum_equiv (Equiv.funUnique (Fin 1) (Fin 2)).symm
        (fun j => (if j = 0 then 1 - X g else X g) * (if j = 0 then p0.toList.getD c 0 else p1.toList.getD c 0)) _
        (fun j => by simp), Fin.sum_univ_two]
      simp
    rw [this] at y2
    exact y2
  · exact a2 (fun _ => 0) (fun a => by fin_cases a; simpa using hX) hrd
  · exact a2 (fun _ => 1) (fun a => by fin_cases a; simpa using hX) hrd

namespace Ex

/-- the segment from (1/2, 3) to (5/4, 0) with doubles: its second end is exact -/
example (jk : ℤ → Fp ℚ) (je : ℤ → ℕ → Fp ℚ) : ∃ N, Cad.line (.vec [1 / 2, 3]) (.vec [5 / 4]) = .ok N ∧
    ∃ R, N.callF (fl 53) jk je (fun _ => 1) (fun _ i => if i = 0 then 1 / 3 else 1) = .ok R ∧ (R ![1]).1 0 = some (5 / 4) := by
  obtain ⟨N, n1, n2⟩ := C110_line (by positivity) (by norm_num : (2 : ℚ) ^ (-(53 : ℕ) : ℤ) < 1) (fl_relErr 53) (fl_one (by norm_num))
    (fun x => fl_exact (by norm_num) (fl_mem 53 x)) jk je (.vec [1 / 2, 3]) (.vec [5 / 4]) (by decide) (by decide)
  obtain ⟨R, r1, r2⟩ := n2 1 (fun i => if i = 0 then 1 / 3 else 1) (by norm_num) (fun i _ _ => by split_ifs <;> norm_num)
  exact ⟨N, n1, R, r1, (r2 1 (by norm_num) le_rfl 0).2.2 (by norm_num) (by decide +kernel)⟩

/-- a corner of the default square, given explicitly -/
example (jk : ℤ → Fp ℚ) (je : ℤ → ℕ → Fp ℚ) : ∃ N : Nrb ℚ 2, Cad.multilinear 2 (some (Cad.cornerPoints 2)) = .ok N ∧
    ∃ R, N.callF (fl 53) jk je (fun _ => 0) ![fun _ => 1, fun _ => 0] = .ok R ∧ (R ![0, 0]).1 0 = some (1 / 2) := by
  obtain ⟨N, n1, n2⟩ := C110_multilinear (d := 2) (by positivity) (by norm_num : (2 : ℚ) ^ (-(53 : ℕ) : ℤ) < 1) (fl_relErr 53)
    (fl_one (by norm_num)) (fun x => fl_exact (by norm_num) (fl_mem 53 x)) jk je (by norm_num) (by norm_num)
    (C := Cad.cornerPoints 2) (s := 2) rfl (Or.inl rfl)
  obtain ⟨R, r1, r2⟩ := n2 (fun _ => 0) ![fun _ => 1, fun _ => 0] (fun _ => le_rfl) (fun a i _ _ => by fin_cases a <;> simp)
  refine ⟨N, n1, R, r1, ?_⟩
  have := (r2 ![0, 0] (fun a => by fin_cases a <;> exact ⟨le_rfl, le_rfl⟩) 0 _ (fun _ => rfl)).2 ![1, 0]
    (fun a => by fin_cases a <;> simp) (by decide +kernel)
  rw [Fin.val_zero] at this
  rw [this]
  decide +kernel

end Ex
end Igakit
