import Verif.Proofs.PlotEdges
import Verif.Props.PlotKnots

/-! # C65: what the backends draw -/

set_option linter.unusedSectionVars false

namespace Igakit
open Spec Plot

variable {K : Type} [Field K] [LinearOrder K] [IsStrictOrderedRing K] {d : ℕ}

/-! ## points of a triple in the order of the memory -/

theorem myvPoints_ok {n : Fin d → ℕ} {f : (Fin d → ℕ) → K × K × K} {l : Xyz K} (h : l.Shows n f) :
    ∃ pts, myvPoints l = .ok pts ∧ ∀ i, (∀ a, i a < n a) →
      0 ≤ numOf n i ∧ numOf n i < pts.length ∧ pts[(numOf n i).toNat]? = some (f i) := by
  obtain ⟨hx, hy, hz⟩ := h.shape
  refine ⟨(ravelC l.x).zip ((ravelC l.y).zip (ravelC l.z)), ?_, fun i hi => ?_⟩
  · unfold myvPoints
    rw [pyAssert_ok (by rw [hx, hy, hz]; exact ⟨rfl, rfl⟩), pyAssert_ok (by rw [hx, hy]), pyAssert_ok (by rw [hy, hz])]
    rfl
  · have hin : InShape (List.ofFn fun a => (n a : ℤ)).reverse (List.ofFn fun a => (i a : ℤ)).reverse :=
      inShape_reverse (inShape_ofFn fun a => ⟨Int.natCast_nonneg _, by exact_mod_cast hi a⟩)
    obtain ⟨h1, h2⟩ := offsetF_range (inShape_reverse hin)
    rw [List.prod_reverse] at h2
    have hlen : ∀ A : Nd K, A.shape = (List.ofFn fun a => (n a : ℤ)).reverse → (numOf n i).toNat < (ravelC A).length := by
      intro A hA
      rw [ravelC_length, hA]
      unfold numOf gridNum
      omega
    have hget : ∀ A : Nd K, A.shape = (List.ofFn fun a => (n a : ℤ)).reverse →
        (ravelC A)[(numOf n i).toNat]? = some (A.get (List.ofFn fun a => (i a : ℤ)).reverse) := by
      intro A hA
      have := ravelC_get A (idx := (List.ofFn fun a => (i a : ℤ)).reverse) (by rw [hA]; exact hin)
      rw [hA, getD_lt _ (by have := hlen A hA; exact this)] at this
      rw [List.getElem?_eq_getElem (hlen A hA)]
      exact congrArg some this
    refine ⟨h1, ?_, ?_⟩
    · have e1 := hlen _ hx
      have e2 := hlen _ hy
      have e3 := hlen _ hz
      rw [List.length_zip, List.length_zip]
      have h0 : 0 ≤ numOf n i := h1
      omega
    · rw [← h.get i hi]
      exact List.getElem?_zip_eq_some.2 ⟨hget _ hx, List.getElem?_zip_eq_some.2 ⟨hget _ hy, hget _ hz⟩⟩

/-! ## numbers of points after stacking -/

section stack
variable {α β : Type}

/-- everything drawn: the points for the numbers of each element -/
def drawnBy (num : α → List ℤ) (pts : List β) (q : List α) : Set (List β) :=
  {p | ∃ e ∈ q, List.Forall₂ (fun (k : ℤ) v => pts[k.toNat]? = some v) (num e) p}

theorem forall₂_shift {pts pts' : List β} {o : ℤ} : ∀ {ks : List ℤ}, (∀ k ∈ ks, pts'[(k + o).toNat]? = pts[k.toNat]?) → ∀ {p : List β},
    (List.Forall₂ (fun (k : ℤ) v => pts'[k.toNat]? = some v) (ks.map (· + o)) p ↔
      List.Forall₂ (fun (k : ℤ) v => pts[k.toNat]? = some v) ks p)
  | [], _, p => by simp
  | k :: ks, h, [] => by simp
  | k :: ks, h, v :: p => by
    rw [List.map_cons, List.forall₂_cons, List.forall₂_cons, forall₂_shift (fun k hk => h k (by simp [hk])), h k (by simp)]

theorem stack_ok {num : α → List ℤ} {shift : ℤ → α → α} (hsh : ∀ o e, num (shift o e) = (num e).map (· + o)) :
    ∀ (L : List (List β × List α)), (∀ x ∈ L, ∀ e ∈ x.2, ∀ k ∈ num e, 0 ≤ k ∧ k < x.1.length) → ∀ pre : List β,
      (∀ e ∈ (stack shift pre.length L).2, ∀ k ∈ num e, 0 ≤ k ∧ k < pre.length + (stack shift pre.length L).1.length) ∧
      drawnBy num (pre ++ (stack shift pre.length L).1) (stack shift pre.length L).2 = {p | ∃ x ∈ L, p ∈ drawnBy num x.1 x.2}
  | [], _, pre => by
    refine ⟨by simp [stack], ?_⟩
    ext p
    simp [stack, drawnBy]
  | (P, Q) :: L, h, pre => by
    obtain ⟨h1, h2⟩ := stack_ok hsh L (fun x hx => h x (by simp [hx])) (pre ++ P)
    have hlen : ((pre ++ P).length : ℤ) = pre.length + P.length := by simp
    rw [hlen] at h1 h2
    have e : stack shift pre.length ((P, Q) :: L) = (P ++ (stack shift (pre.length + P.length) L).1,
      Q.map (shift pre.length) ++ (stack shift (pre.length + P.length) L).2) := rfl
    rw [e]
    dsimp only
    have hPQ := h (P, Q) (by simp)
    dsimp only at hPQ
    constructor
    · intro e' he k hk
      rw [List.length_append]
      push_cast
      rcases List.mem_append.1 he with he | he
      · obtain ⟨e0, he0, rfl⟩ := List.mem_map.1 he
        rw [hsh] at hk
        obtain ⟨k0, hk0, rfl⟩ := List.mem_map.1 hk
        have := hPQ e0 he0 k0 hk0
        omega
      · have := h1 e' he k hk
        omega
    · rw [← List.append_assoc]
      set R := stack shift (pre.length + P.length) L with hR
      have key : ∀ e0 ∈ Q, ∀ p, List.Forall₂ (fun (k : ℤ) v => (pre ++ P ++ R.1)[k.toNat]? = some v) (num (shift pre.length e0)) p ↔
          List.Forall₂ (fun (k : ℤ) v => P[k.toNat]? = some v) (num e0) p := by
        intro e0 he0 p
        rw [hsh]
        apply forall₂_shift
        intro k hk
        obtain ⟨k0, k1⟩ := hPQ e0 he0 k hk
        rw [List.getElem?_append_left (by rw [List.length_append]; omega), List.getElem?_append_right (by omega)]
        congr 1
        omega
      ext p
      constructor
      · rintro ⟨e', he, hp⟩
        rcases List.mem_append.1 he with he | he
        · obtain ⟨e0, he0, rfl⟩ := List.mem_map.1 he
          exact ⟨(P, Q), by simp, e0, he0, (key e0 he0 p).1 hp⟩
        · have : p ∈ drawnBy num (pre ++ P ++ R.1) R.2 := ⟨e', he, hp⟩
          rw [h2] at this
          obtain ⟨x, hx, hp⟩ := this
          exact ⟨x, by simp [hx], hp⟩
      · rintro ⟨x, hx, hp⟩
        rcases List.mem_cons.1 hx with rfl | hx
        · obtain ⟨e0, he0, hp⟩ := hp
          exact ⟨_, List.mem_append_left _ (List.mem_map_of_mem he0), (key e0 he0 p).2 hp⟩
        · have : p ∈ drawnBy num (pre ++ P ++ R.1) R.2 := by
            rw [h2]
            exact ⟨x, hx, hp⟩
          obtain ⟨e', he, hp⟩ := this
          exact ⟨e', List.mem_append_right _ he, hp⟩

end stack

def num2 (e : ℤ × ℤ) : List ℤ := [e.1, e.2]
def num4 (q : ℤ × ℤ × ℤ × ℤ) : List ℤ := [q.1, q.2.1, q.2.2.1, q.2.2.2]

theorem mem_segmentsBy {α : Type} {pts : List α} {es : List (ℤ × ℤ)} {e : Sym2 α} :
    e ∈ segmentsBy pts es ↔ ∃ x y, [x, y] ∈ drawnBy num2 pts es ∧ e = s(x, y) := by
  constructor
  · rintro ⟨q, hq, x, y, h1, h2, rfl⟩
    exact ⟨x, y, ⟨q, hq, .cons h1 (.cons h2 .nil)⟩, rfl⟩
  · rintro ⟨x, y, ⟨q, hq, hf⟩, rfl⟩
    have hf : List.Forall₂ (fun (k : ℤ) v => pts[k.toNat]? = some v) [q.1, q.2] [x, y] := hf
    simp only [List.forall₂_cons] at hf
    exact ⟨q, hq, x, y, hf.1, hf.2.1, rfl⟩

theorem mem_polysBy {α : Type} {pts : List α} {qs : List (ℤ × ℤ × ℤ × ℤ)} {p : List α} :
    p ∈ polysBy pts qs ↔ p ∈ drawnBy num4 pts qs := by
  constructor
  · rintro ⟨q, hq, w, x, y, z, h1, h2, h3, h4, rfl⟩
    exact ⟨q, hq, .cons h1 (.cons h2 (.cons h3 (.cons h4 .nil)))⟩
  · rintro ⟨q, hq, hf⟩
    have hf : List.Forall₂ (fun (k : ℤ) v => pts[k.toNat]? = some v) [q.1, q.2.1, q.2.2.1, q.2.2.2] p := hf
    match p, hf with
    | [w, x, y, z], hf =>
      simp only [List.forall₂_cons] at hf
      exact ⟨q, hq, w, x, y, z, hf.1, hf.2.1, hf.2.2.1, hf.2.2.2.1, rfl⟩

/-! ## the theorems -/

/-- C65: matplotlib draws the segments between neighbours of each grid -/
theorem C65_mpl_lines {ls : List (Xyz K)} {S : Xyz K → Set (Sym2 (K × K × K))}
    (h : ∀ l ∈ ls, ∃ (d : ℕ) (n : Fin d → ℕ) (f : (Fin d → ℕ) → K × K × K), 1 ≤ d ∧ d ≤ 3 ∧ l.Shows n f ∧ S l = netSegs n f) :
    segments (mplLines ls) = {e | ∃ l ∈ ls, e ∈ S l} := by
  have key : ∀ l ∈ ls, segments (mplLine l) = S l := by
    intro l hl
    obtain ⟨d, n, f, h1, h3, hs, e⟩ := h l hl
    rw [e]
    have : d = 1 ∨ d = 2 ∨ d = 3 := by omega
    rcases this with rfl | rfl | rfl
    · exact mpl_line1 hs
    · exact mpl_line2 hs
    · exact mpl_line3 hs
  ext e
  unfold mplLines
  rw [mem_segments_flatMap]
  constructor
  · rintro ⟨l, hl, he⟩
    exact ⟨l, hl, key l hl ▸ he⟩
  · rintro ⟨l, hl, he⟩
    exact ⟨l, hl, (key l hl).symm ▸ he⟩

/-- C65: mayavi draws the same segments; all the numbers of points handed to it exist -/
theorem C65_myv_lines {ls : List (Xyz K)} (hne : ls ≠ []) {S : Xyz K → Set (Sym2 (K × K × K))}
    (h : ∀ l ∈ ls, ∃ (d : ℕ) (n : Fin d → ℕ) (f : (Fin d → ℕ) → K × K × K), 1 ≤ d ∧ d ≤ 3 ∧ (2 ≤ d → ∀ a, 2 ≤ n a) ∧
      l.Shows n f ∧ S l = netSegs n f) :
    ∃ pts es, extractLines ls = .ok (pts, es) ∧ (∀ e ∈ es, (0 ≤ e.1 ∧ e.1 < pts.length) ∧ (0 ≤ e.2 ∧ e.2 < pts.length)) ∧
      segmentsBy pts es = {e | ∃ l ∈ ls, e ∈ S l} := by
  obtain ⟨L, h1, h2⟩ := forEach_ok (f := fun _ (t : Xyz K) => do
      let p ← myvPoints t
      pure (p, edges t.x.shape))
    (R := fun l (x : List (K × K × K) × List (ℤ × ℤ)) => (∀ e ∈ x.2, ∀ k ∈ num2 e, 0 ≤ k ∧ k < (x.1.length : ℤ)) ∧
      segmentsBy x.1 x.2 = S l) ls 0 (fun k l hl => by
      obtain ⟨d, n, f, d1, d3, hn, hs, e⟩ := h l hl
      obtain ⟨pts, g1, g2⟩ := myvPoints_ok hs
      have he := edges_ok d1 d3 hn
      rw [← hs.shape.1] at he
      refine ⟨_, by rw [g1, res_ok_bind, res_pure], ?_, ?_⟩
      · intro e' he' k hk
        obtain ⟨i, j, hi, hj, _, rfl⟩ := he.sound e' he'
        simp only [num2, List.mem_cons, List.not_mem_nil, or_false] at hk
        rcases hk with rfl | rfl
        · exact ⟨(g2 i hi).1, (g2 i hi).2.1⟩
        · exact ⟨(g2 j hj).1, (g2 j hj).2.1⟩
      · rw [e]
        ext e'
        constructor
        · rintro ⟨q, hq, x, y, hx, hy, rfl⟩
          obtain ⟨i, j, hi, hj, hij, rfl⟩ := he.sound q hq
          dsimp only at hx hy
          rw [(g2 i hi).2.2] at hx
          rw [(g2 j hj).2.2] at hy
          cases hx
          cases hy
          rcases hij with hij | hij
          · exact ⟨i, j, hi, hj, hij, rfl⟩
          · exact ⟨j, i, hj, hi, hij, Sym2.eq_swap⟩
        · rintro ⟨i, j, hi, hj, hij, rfl⟩
          rcases he.complete i j hi hj hij with hm | hm
          · exact ⟨_, hm, f i, f j, (g2 i hi).2.2, (g2 j hj).2.2, rfl⟩
          · exact ⟨_, hm, f j, f i, (g2 j hj).2.2, (g2 i hi).2.2, Sym2.eq_swap⟩)
  obtain ⟨h3, h4⟩ := stack_ok (num := num2) (shift := fun o (e : ℤ × ℤ) => (e.1 + o, e.2 + o)) (fun o e => rfl) L (fun x hx => by
    obtain ⟨_, _, hh⟩ := forall₂_mem_right h2 hx
    exact hh.1) []
  rw [List.nil_append] at h4
  simp only [List.length_nil, Nat.cast_zero, zero_add] at h3 h4
  refine ⟨(stack (fun o (e : ℤ × ℤ) => (e.1 + o, e.2 + o)) 0 L).1, (stack (fun o (e : ℤ × ℤ) => (e.1 + o, e.2 + o)) 0 L).2, ?_, ?_, ?_⟩
  · unfold extractLines
    rw [h1, res_ok_bind, if_neg (by
      rw [List.isEmpty_iff]
      rintro rfl
      cases h2
      exact hne rfl)]
    rfl
  · intro e he
    exact ⟨h3 e he _ (by simp [num2]), h3 e he _ (by simp [num2])⟩
  · ext e
    rw [mem_segmentsBy, h4]
    constructor
    · rintro ⟨x, y, ⟨p, hp, hd⟩, rfl⟩
      obtain ⟨l, hl, hh⟩ := forall₂_mem_right h2 hp
      exact ⟨l, hl, hh.2 ▸ mem_segmentsBy.2 ⟨x, y, hd, rfl⟩⟩
    · rintro ⟨l, hl, he⟩
      obtain ⟨p, hp, hh⟩ := forall₂_mem_left h2 hl
      rw [← hh.2] at he
      obtain ⟨x, y, hd, rfl⟩ := mem_segmentsBy.1 he
      exact ⟨x, y, ⟨p, hp, hd⟩, rfl⟩

/-- C65: matplotlib draws surfaces as the polygons of the cells -/
theorem C65_mpl_surfs {ls : List (Xyz K)} {S : Xyz K → Set (List (K × K × K))}
    (h : ∀ l ∈ ls, ∃ (n : Fin 2 → ℕ) (f : (Fin 2 → ℕ) → K × K × K), (∀ a, 1 ≤ n a) ∧ l.Shows n f ∧ S l = cellPolys n f) :
    {p | p ∈ mplSurfs ls} = {p | ∃ l ∈ ls, p ∈ S l} := by
  have key : ∀ l ∈ ls, ∀ p, p ∈ mplSurf l ↔ p ∈ S l := by
    intro l hl p
    obtain ⟨n, f, hn, hs, e⟩ := h l hl
    have hsh : (backT l).x.shape = [(n 0 : ℤ), (n 1 : ℤ)] := by
      show l.x.shape.reverse = _
      rw [hs.shape.1]; simp
    have key : ∀ i j : ℕ, i < n 0 → j < n 1 → Xyz.at (backT l) [(i : ℤ), (j : ℤ)] = f ![i, j] := fun i j h0 h1 =>
      shows_at hs ![i, j] (by simp [Fin.forall_fin_two]; omega) (by simp)
    have e0 : (n 0 : ℤ) - 1 = ((n 0 - 1 : ℕ) : ℤ) := by have := hn 0; omega
    have e1 : (n 1 : ℤ) - 1 = ((n 1 - 1 : ℕ) : ℤ) := by have := hn 1; omega
    rw [e]
    unfold mplSurf
    simp only [hsh]
    rw [e0, e1]
    simp only [List.mem_flatMap, List.mem_map, mem_upTo]
    have hq : ∀ i j : ℕ, i + 1 < n 0 → j + 1 < n 1 → [Xyz.at (backT l) [(i : ℤ), (j : ℤ)], Xyz.at (backT l) [(i : ℤ), (j : ℤ) + 1],
        Xyz.at (backT l) [(i : ℤ) + 1, (j : ℤ) + 1], Xyz.at (backT l) [(i : ℤ) + 1, (j : ℤ)]] =
        [f ![i, j], f ![i, j + 1], f ![i + 1, j + 1], f ![i + 1, j]] := by
      intro i j hi hj
      have k1 := key i (j + 1) (by omega) hj
      have k2 := key (i + 1) (j + 1) hi hj
      have k3 := key (i + 1) j hi (by omega)
      push_cast at k1 k2 k3
      rw [key i j (by omega) (by omega), k1, k2, k3]
    constructor
    · rintro ⟨_, ⟨i, hi, rfl⟩, _, ⟨j, hj, rfl⟩, rfl⟩
      exact ⟨i, j, by omega, by omega, hq i j (by omega) (by omega)⟩
    · rintro ⟨i, j, hi, hj, rfl⟩
      exact ⟨_, ⟨i, by omega, rfl⟩, _, ⟨j, by omega, rfl⟩, hq i j hi hj⟩
  ext p
  show p ∈ ls.flatMap mplSurf ↔ _
  rw [List.mem_flatMap]
  constructor
  · rintro ⟨l, hl, he⟩
    exact ⟨l, hl, (key l hl p).1 he⟩
  · rintro ⟨l, hl, he⟩
    exact ⟨l, hl, (key l hl p).2 he⟩

/-- C65: and so does mayavi -/
theorem C65_myv_surfs {ls : List (Xyz K)} (hne : ls ≠ []) {S : Xyz K → Set (List (K × K × K))}
    (h : ∀ l ∈ ls, ∃ (n : Fin 2 → ℕ) (f : (Fin 2 → ℕ) → K × K × K), l.Shows n f ∧ S l = cellPolys n f) :
    ∃ pts qs, extractPolys ls = .ok (pts, qs) ∧ (∀ q ∈ qs, (0 ≤ q.1 ∧ q.1 < pts.length) ∧ (0 ≤ q.2.1 ∧ q.2.1 < pts.length) ∧
        (0 ≤ q.2.2.1 ∧ q.2.2.1 < pts.length) ∧ (0 ≤ q.2.2.2 ∧ q.2.2.2 < pts.length)) ∧
      polysBy pts qs = {p | ∃ l ∈ ls, p ∈ S l} := by
  obtain ⟨L, h1, h2⟩ := forEach_ok (f := fun _ (t : Xyz K) => do
      let p ← myvPoints t
      pure (p, polys t.x.shape))
    (R := fun l (x : List (K × K × K) × List (ℤ × ℤ × ℤ × ℤ)) => (∀ e ∈ x.2, ∀ k ∈ num4 e, 0 ≤ k ∧ k < (x.1.length : ℤ)) ∧
      polysBy x.1 x.2 = S l) ls 0 (fun k l hl => by
      obtain ⟨n, f, hs, e⟩ := h l hl
      obtain ⟨pts, g1, g2⟩ := myvPoints_ok hs
      have hg : ∀ i j : ℕ, i < n 0 → j < n 1 → 0 ≤ numOf n ![i, j] ∧ numOf n ![i, j] < pts.length ∧
          pts[(numOf n ![i, j]).toNat]? = some (f ![i, j]) := fun i j h0 h1 =>
        g2 ![i, j] (by simp [Fin.forall_fin_two]; omega)
      refine ⟨_, by rw [g1, res_ok_bind, res_pure], ?_, ?_⟩
      · intro q hq k hk
        dsimp only at hq ⊢
        rw [hs.shape.1] at hq
        obtain ⟨i, j, hi, hj, rfl⟩ := mem_polys2.1 hq
        have k0 := hg i j (by omega) (by omega)
        have k1 := hg i (j + 1) (by omega) hj
        have k2 := hg (i + 1) (j + 1) hi hj
        have k3 := hg (i + 1) j hi (by omega)
        simp only [num4, List.mem_cons, List.not_mem_nil, or_false] at hk
        rcases hk with rfl | rfl | rfl | rfl
        · exact ⟨k0.1, k0.2.1⟩
        · exact ⟨k1.1, k1.2.1⟩
        · exact ⟨k2.1, k2.2.1⟩
        · exact ⟨k3.1, k3.2.1⟩
      · rw [e, hs.shape.1]
        ext p
        constructor
        · rintro ⟨q, hq, w, x, y, z, a1, a2, a3, a4, rfl⟩
          obtain ⟨i, j, hi, hj, rfl⟩ := mem_polys2.1 hq
          dsimp only at a1 a2 a3 a4
          rw [(hg i j (by omega) (by omega)).2.2] at a1
          rw [(hg i (j + 1) (by omega) hj).2.2] at a2
          rw [(hg (i + 1) (j + 1) hi hj).2.2] at a3
          rw [(hg (i + 1) j hi (by omega)).2.2] at a4
          cases a1; cases a2; cases a3; cases a4
          exact ⟨i, j, hi, hj, rfl⟩
        · rintro ⟨i, j, hi, hj, rfl⟩
          exact ⟨_, mem_polys2.2 ⟨i, j, hi, hj, rfl⟩, _, _, _, _, (hg i j (by omega) (by omega)).2.2, (hg i (j + 1) (by omega) hj).2.2,
            (hg (i + 1) (j + 1) hi hj).2.2, (hg (i + 1) j hi (by omega)).2.2, rfl⟩)
  obtain ⟨h3, h4⟩ := stack_ok (num := num4) (shift := fun o (q : ℤ × ℤ × ℤ × ℤ) => (q.1 + o, q.2.1 + o, q.2.2.1 + o, q.2.2.2 + o))
    (fun o e => rfl) L (fun x hx => by
    obtain ⟨_, _, hh⟩ := forall₂_mem_right h2 hx
    exact hh.1) []
  rw [List.nil_append] at h4
  simp only [List.length_nil, Nat.cast_zero, zero_add] at h3 h4
  refine ⟨(stack (fun o (q : ℤ × ℤ × ℤ × ℤ) => (q.1 + o, q.2.1 + o, q.2.2.1 + o, q.2.2.2 + o)) 0 L).1,
    (stack (fun o (q : ℤ × ℤ × ℤ × ℤ) => (q.1 + o, q.2.1 + o, q.2.2.1 + o, q.2.2.2 + o)) 0 L).2, ?_, ?_, ?_⟩
  · unfold extractPolys
    rw [h1, res_ok_bind, if_neg (by
      rw [List.isEmpty_iff]
      rintro rfl
      cases h2
      exact hne rfl)]
    rfl
  · intro q hq
    exact ⟨h3 q hq _ (by simp [num4]), h3 q hq _ (by simp [num4]), h3 q hq _ (by simp [num4]), h3 q hq _ (by simp [num4])⟩
  · ext p
    rw [mem_polysBy, h4]
    constructor
    · rintro ⟨x, hx, hp⟩
      obtain ⟨l, hl, hh⟩ := forall₂_mem_right h2 hx
      exact ⟨l, hl, hh.2 ▸ mem_polysBy.2 hp⟩
    · rintro ⟨l, hl, he⟩
      obtain ⟨x, hx, hh⟩ := forall₂_mem_left h2 hl
      rw [← hh.2] at he
      exact ⟨x, hx, mem_polysBy.1 he⟩

theorem inShape_exists {n : Fin d → ℕ} {idx : List ℤ} (h : InShape (List.ofFn fun a => (n a : ℤ)) idx) :
    ∃ i : Fin d → ℕ, (∀ a, i a < n a) ∧ idx = List.ofFn fun a => (i a : ℤ) := by
  induction d generalizing idx with
  | zero =>
    rw [List.ofFn_zero] at h
    cases idx with
    | nil => exact ⟨fun a => a.elim0, fun a => a.elim0, by simp⟩
    | cons => exact h.elim
  | succ d ih =>
    rw [List.ofFn_succ] at h
    cases idx with
    | nil => exact h.elim
    | cons x idx =>
      obtain ⟨⟨h0, h1⟩, h2⟩ := h
      obtain ⟨i, hi, rfl⟩ := ih h2
      refine ⟨Fin.cons x.toNat i, fun a => ?_, ?_⟩
      · refine Fin.cases ?_ (fun a => ?_) a
        · rw [Fin.cons_zero]; omega
        · rw [Fin.cons_succ]; exact hi a
      · rw [List.ofFn_succ]
        simp [Int.toNat_of_nonneg h0]

/-- C65: `points3d` of matplotlib: all the points of a grid -/
theorem C65_mpl_points {n : Fin d → ℕ} {f : (Fin d → ℕ) → K × K × K} {l : Xyz K} (h : l.Shows n f) :
    {p | p ∈ mplPoints l} = {p | ∃ i, (∀ a, i a < n a) ∧ p = f i} ∧ (mplPoints l).length = ∏ a, n a := by
  obtain ⟨hx, hy, hz⟩ := h.shape
  have hT : (backT l).x.shape = (List.ofFn fun a => (n a : ℤ)) ∧ (backT l).y.shape = (List.ofFn fun a => (n a : ℤ)) ∧
      (backT l).z.shape = (List.ofFn fun a => (n a : ℤ)) := by
    unfold backT transposeNd
    dsimp only
    rw [hx, hy, hz]
    simp
  have hprod : (List.ofFn fun a => (n a : ℤ)).prod = ((∏ a, n a : ℕ) : ℤ) := by
    rw [List.prod_ofFn]; push_cast; rfl
  have hm : mplPoints l = (List.range (∏ a, n a)).map (fun (t : ℕ) =>
      Xyz.at (backT l) (unravelF (List.ofFn fun a => (n a : ℤ)).reverse t).reverse) := by
    unfold mplPoints ravelC
    dsimp only
    rw [hT.1, hT.2.1, hT.2.2, hprod, Int.toNat_natCast]
    rw [List.zip_map', List.zip_map']
    rfl
  rw [hm]
  refine ⟨?_, by simp⟩
  ext p
  show p ∈ List.map _ _ ↔ _
  rw [List.mem_map]
  constructor
  · rintro ⟨t, ht, rfl⟩
    rw [List.mem_range] at ht
    obtain ⟨h1, _⟩ := offsetF_unravelF (ss := (List.ofFn fun a => (n a : ℤ)).reverse) (t := t) (fun s hs => by
      refine pos_of_prod_pos ?_ (by rw [hprod]; omega) s (List.mem_reverse.1 hs)
      intro x hx
      obtain ⟨a, rfl⟩ := (List.mem_ofFn' _ _).1 hx
      exact Int.natCast_nonneg _) (by omega) (by rw [List.prod_reverse, hprod]; omega)
    have h1 := inShape_reverse h1
    rw [List.reverse_reverse] at h1
    obtain ⟨i, hi, e⟩ := inShape_exists h1
    exact ⟨i, hi, shows_at h i hi e⟩
  · rintro ⟨i, hi, rfl⟩
    have hin : InShape (List.ofFn fun a => (n a : ℤ)).reverse (List.ofFn fun a => (i a : ℤ)).reverse :=
      inShape_reverse (inShape_ofFn fun a => ⟨Int.natCast_nonneg _, by exact_mod_cast hi a⟩)
    obtain ⟨h1, h2⟩ := offsetF_range hin
    rw [List.prod_reverse, hprod] at h2
    refine ⟨(offsetF (List.ofFn fun a => (n a : ℤ)).reverse (List.ofFn fun a => (i a : ℤ)).reverse).toNat, List.mem_range.2 (by omega), ?_⟩
    rw [Int.toNat_of_nonneg h1, unravelF_offsetF hin, List.reverse_reverse]
    exact shows_at h i hi rfl

/-- coordinate `c` of a point with `k` coordinates -/
def coordOf (P : Nd K) (k : ℕ) (i : Fin d → ℕ) (c : ℕ) : K := if c < k then P.get ((List.ofFn fun a => (i a : ℤ)) ++ [(c : ℤ)]) else 0

/-- C65: `points` draws points with one, two or three coordinates; the missing ones are zero -/
theorem C65_points (hd : 1 ≤ d) {P : Nd K} {n : Fin d → ℕ} {k : ℕ} (hs : P.shape = (List.ofFn fun a => (n a : ℤ)) ++ [(k : ℤ)]) :
    (1 ≤ k → k ≤ 3 → ∃ l, points P = .ok l ∧ l.Shows n (fun i => (coordOf P k i 0, coordOf P k i 1, coordOf P k i 2))) ∧
    (¬ (1 ≤ k ∧ k ≤ 3) → points P = .error .assertion) := by
  obtain ⟨s, S, hS⟩ : ∃ s S, List.ofFn (fun a => (n a : ℤ)) = s :: S := by
    cases d with
    | zero => omega
    | succ d => exact ⟨_, _, List.ofFn_succ⟩
  have hA : atleast2d P = P := by
    unfold atleast2d
    rw [hs, hS]
    cases S <;> rfl
  have hdim : P.shape.getLastD 0 = k := by rw [hs]; simp
  have hdrop : P.shape.dropLast = List.ofFn fun a => (n a : ℤ) := by rw [hs]; simp
  constructor
  · intro k1 k3
    have hp1 : (1 : ℤ) ≤ k := by exact_mod_cast k1
    have hp3 : (k : ℤ) ≤ 3 := by exact_mod_cast k3
    unfold points
    simp only [hA, hdim, hdrop]
    rw [pyAssert_ok hp1, pyAssert_ok hp3]
    split_ifs with hk
    · obtain ⟨l, h1, h2⟩ := unpack3_ok (C := ⟨(List.ofFn fun a => (n a : ℤ)) ++ [3], fun idx => if idx.getLastD 0 < (k : ℤ) then P.get idx else 0⟩) rfl
      refine ⟨l, h1, h2 _ fun i hi => ?_⟩
      unfold coordOf
      simp
    · have hk3 : k = 3 := by omega
      subst hk3
      obtain ⟨l, h1, h2⟩ := unpack3_ok (C := P) hs
      refine ⟨l, h1, h2 _ fun i hi => ?_⟩
      unfold coordOf
      simp
  · intro hk
    unfold points
    simp only [hA, hdim, hdrop]
    by_cases h1 : (1 : ℤ) ≤ k
    · rw [pyAssert_ok h1, pyAssert_err (by omega)]
      rfl
    · rw [pyAssert_err h1]
      rfl

/-- C65: one point given as a vector -/
theorem C65_point {P : Nd K} {k : ℕ} (hs : P.shape = [(k : ℤ)]) (k1 : 1 ≤ k) (k3 : k ≤ 3) :
    ∃ l, points P = .ok l ∧ l.Shows (fun _ : Fin 1 => 1) (fun _ => (coordOf P k (fun a : Fin 0 => a.elim0) 0,
      coordOf P k (fun a : Fin 0 => a.elim0) 1, coordOf P k (fun a : Fin 0 => a.elim0) 2)) := by
  have hp1 : (1 : ℤ) ≤ k := by exact_mod_cast k1
  have hp3 : (k : ℤ) ≤ 3 := by exact_mod_cast k3
  unfold points atleast2d
  simp only [hs]
  rw [pyAssert_ok (by simpa using hp1), pyAssert_ok (by simpa using hp3)]
  simp only [List.getLastD_cons, List.getLastD_nil, List.dropLast]
  split_ifs with hk
  · obtain ⟨l, h1, h2⟩ := unpack3_ok (n := fun _ : Fin 1 => 1) (C := ⟨[1] ++ [3], fun idx => if idx.getLastD 0 < (k : ℤ) then P.get idx.tail else 0⟩) rfl
    refine ⟨l, h1, h2 _ fun i hi => ?_⟩
    unfold coordOf
    simp
  · have hk3 : k = 3 := by omega
    subst hk3
    obtain ⟨l, h1, h2⟩ := unpack3_ok (n := fun _ : Fin 1 => 1) (C := ⟨[1, 3], fun idx => P.get idx.tail⟩) rfl
    refine ⟨l, h1, h2 _ fun i hi => ?_⟩
    unfold coordOf
    simp

/-- C65: `cwire` draws the control net, with either backend -/
theorem C65_cwire (hd : 1 ≤ d) (hd3 : d ≤ 3) {N : Nrb K d} (hs : ∀ a, 2 ≤ N.shape a) :
    ∃ ls, cwire N = .ok ls ∧ segments (mplLines ls) = netSegs (fun a => (N.shape a).toNat) N.cp ∧
      ∃ pts es, extractLines ls = .ok (pts, es) ∧ (∀ e ∈ es, (0 ≤ e.1 ∧ e.1 < pts.length) ∧ (0 ≤ e.2 ∧ e.2 < pts.length)) ∧
        segmentsBy pts es = netSegs (fun a => (N.shape a).toNat) N.cp := by
  obtain ⟨l, _, h2, h3⟩ := C64_cpoint (N := N) (fun a => by have := hs a; omega)
  refine ⟨[l], h2, ?_, ?_⟩
  · rw [C65_mpl_lines (S := fun _ => netSegs (fun a => (N.shape a).toNat) N.cp) (fun l' hl => by
      obtain rfl := List.mem_singleton.1 hl
      exact ⟨d, _, _, hd, hd3, h3, rfl⟩)]
    ext e
    simp
  · obtain ⟨pts, es, h4, h5, h6⟩ := C65_myv_lines (ls := [l]) (by simp) (S := fun _ => netSegs (fun a => (N.shape a).toNat) N.cp) (fun l' hl => by
      obtain rfl := List.mem_singleton.1 hl
      exact ⟨d, _, _, hd, hd3, fun _ a => by have := hs a; omega, h3, rfl⟩)
    refine ⟨pts, es, h4, h5, ?_⟩
    rw [h6]
    ext e
    simp

/-- C65: `ksurf` of a surface: its sections are curves, and neither backend draws polygons for them -/
theorem C65_ksurf_surface {eps : K} (heps : 0 < eps) (M : PlotMem K) {N : Nrb K 2} (hv : N.Valid) {m : ℕ} (hm : 0 < m)
    {axes : AxesArg} {as : List (Fin 2)} (hax : axes.Selects (AxisName 2) as)
    (hE : ∀ a ∈ as, ∀ k, N.degree a ≤ k → k ≤ N.n a + 1 → N.CanExtract eps a (N.U a k)) :
    ∃ ls, ksurf eps M m N axes = .ok ls ∧ mplSurfs ls = [] ∧ ∀ r, extractPolys ls = .ok r → r.2 = [] := by
  obtain ⟨br, ls, _, h1, h2⟩ := C64_ksurf heps M (by norm_num) hv hm hax hE
  have hsh : ∀ l ∈ ls, l.x.shape = [(m : ℤ)] := by
    intro l hl
    obtain ⟨s, _, hs⟩ := forall₂_mem_right h2 hl
    simpa using hs.shape.1
  refine ⟨ls, h1, ?_, fun r hr => ?_⟩
  · unfold mplSurfs
    rw [List.flatMap_eq_nil_iff]
    intro l hl
    have : (backT l).x.shape = [(m : ℤ)] := by
      show l.x.shape.reverse = _
      rw [hsh l hl]; rfl
    unfold mplSurf
    simp only [this]
  · have hst : ∀ (L : List (List (K × K × K) × List (ℤ × ℤ × ℤ × ℤ))) (o : ℤ), (∀ x ∈ L, x.2 = []) →
        (stack (fun o (q : ℤ × ℤ × ℤ × ℤ) => (q.1 + o, q.2.1 + o, q.2.2.1 + o, q.2.2.2 + o)) o L).2 = [] := by
      intro L
      induction L with
      | nil => intro o _; rfl
      | cons x L ih =>
        intro o hx
        obtain ⟨P, Q⟩ := x
        have hQ : Q = [] := hx (P, Q) (by simp)
        show Q.map _ ++ _ = []
        rw [hQ, List.map_nil, List.nil_append]
        exact ih _ (fun y hy => hx y (by simp [hy]))
    obtain ⟨L, g1, g2⟩ := forEach_ok (f := fun _ (t : Xyz K) => do
        let p ← myvPoints t
        pure (p, polys t.x.shape))
      (R := fun l (x : List (K × K × K) × List (ℤ × ℤ × ℤ × ℤ)) => x.2 = []) ls 0 (fun k l hl => by
        obtain ⟨s, _, hs⟩ := forall₂_mem_right h2 hl
        obtain ⟨pts, e1, _⟩ := myvPoints_ok hs
        refine ⟨(pts, []), ?_, rfl⟩
        rw [e1, res_ok_bind, hsh l hl]
        rfl)
    unfold extractPolys at hr
    rw [g1, res_ok_bind] at hr
    have hL : ∀ x ∈ L, x.2 = [] := fun x hx => by
      obtain ⟨_, _, hh⟩ := forall₂_mem_right g2 hx
      exact hh
    by_cases hE : L.isEmpty
    · rw [if_pos hE] at hr
      cases hr
    · rw [if_neg hE] at hr
      have hr : Except.ok (stack (fun o (q : ℤ × ℤ × ℤ × ℤ) => (q.1 + o, q.2.1 + o, q.2.2.1 + o, q.2.2.2 + o)) 0 L) = Except.ok r := hr
      cases hr
      exact hst L 0 hL

end Igakit
