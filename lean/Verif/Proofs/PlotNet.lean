import Verif.Proofs.Plot
import Verif.Props.Vtk

set_option linter.unusedSectionVars false

namespace Igakit
open Plot

variable {K : Type} [Field K] [LinearOrder K] {d : ℕ}

theorem mem_upTo {n : ℕ} {x : ℤ} : x ∈ upTo (n : ℤ) ↔ ∃ k : ℕ, k < n ∧ x = k := by
  simp [upTo, eq_comm]

section segs
variable {α β : Type}

theorem mem_segments_append {L L' : List (List α)} {e : Sym2 α} : e ∈ segments (L ++ L') ↔ e ∈ segments L ∨ e ∈ segments L' := by
  constructor
  · rintro ⟨p, hp, h⟩
    rcases List.mem_append.1 hp with hp | hp
    · exact Or.inl ⟨p, hp, h⟩
    · exact Or.inr ⟨p, hp, h⟩
  · rintro (⟨p, hp, h⟩ | ⟨p, hp, h⟩)
    · exact ⟨p, List.mem_append_left _ hp, h⟩
    · exact ⟨p, List.mem_append_right _ hp, h⟩

theorem mem_segments_flatMap {L : List β} {g : β → List (List α)} {e : Sym2 α} :
    e ∈ segments (L.flatMap g) ↔ ∃ x ∈ L, e ∈ segments (g x) := by
  constructor
  · rintro ⟨p, hp, h⟩
    obtain ⟨x, hx, hp⟩ := List.mem_flatMap.1 hp
    exact ⟨x, hx, p, hp, h⟩
  · rintro ⟨x, hx, p, hp, h⟩
    exact ⟨p, List.mem_flatMap.2 ⟨x, hx, hp⟩, h⟩

theorem mem_segments_map {L : List β} {g : β → List α} {e : Sym2 α} :
    e ∈ segments (L.map g) ↔ ∃ x ∈ L, e ∈ segments [g x] := by
  rw [List.map_eq_flatMap]
  exact mem_segments_flatMap

theorem mem_segments_line {n : ℕ} {g : ℤ → α} {e : Sym2 α} :
    e ∈ segments [(upTo n).map g] ↔ ∃ k : ℕ, k + 1 < n ∧ e = s(g k, g (k + 1)) := by
  constructor
  · rintro ⟨p, hp, k, x, y, h1, h2, rfl⟩
    rw [List.mem_singleton] at hp
    subst hp
    have hk : k + 1 < n := by
      by_contra hc
      rw [List.getElem?_eq_none (by simp [upTo]; omega)] at h2
      cases h2
    refine ⟨k, hk, ?_⟩
    have e1 : x = g k := by
      have := h1.symm
      simp [upTo, List.getElem?_range (show k < n by omega)] at this
      exact this
    have e2 : y = g (k + 1) := by
      have := h2.symm
      simp [upTo, List.getElem?_range hk] at this
      exact this
    rw [e1, e2]
  · rintro ⟨k, hk, rfl⟩
    refine ⟨_, List.mem_singleton_self _, k, g k, g (k + 1), ?_, ?_, rfl⟩
    · simp [upTo, List.getElem?_range (show k < n by omega)]
    · simp [upTo, List.getElem?_range hk]

end segs

theorem shows_at {n : Fin d → ℕ} {f : (Fin d → ℕ) → K × K × K} {l : Xyz K} (h : l.Shows n f) (i : Fin d → ℕ) (hi : ∀ a, i a < n a)
    {idx : List ℤ} (he : idx = (List.ofFn fun a => (i a : ℤ))) : Xyz.at (backT l) idx = f i := by
  subst he
  exact h.get i hi

theorem mem_netSegs {n : Fin d → ℕ} {f : (Fin d → ℕ) → K × K × K} {e : Sym2 (K × K × K)} :
    e ∈ netSegs n f ↔ ∃ a i, (∀ b, i b < n b) ∧ i a + 1 < n a ∧ e = s(f i, f (Function.update i a (i a + 1))) := by
  constructor
  · rintro ⟨i, j, hi, hj, ⟨a, rfl⟩, rfl⟩
    refine ⟨a, i, hi, ?_, rfl⟩
    have := hj a
    rwa [Function.update_self] at this
  · rintro ⟨a, i, hi, ha, rfl⟩
    refine ⟨i, _, hi, fun b => ?_, ⟨a, rfl⟩, rfl⟩
    rcases eq_or_ne b a with rfl | hb
    · rwa [Function.update_self]
    · rw [Function.update_of_ne hb]; exact hi b

theorem mpl_line1 {n : Fin 1 → ℕ} {f : (Fin 1 → ℕ) → K × K × K} {l : Xyz K} (h : l.Shows n f) : segments (mplLine l) = netSegs n f := by
  have hs : (backT l).x.shape = [(n 0 : ℤ)] := by
    show l.x.shape.reverse = _
    rw [h.shape.1]; simp
  ext e
  unfold mplLine
  simp only [hs]
  rw [mem_segments_line, mem_netSegs]
  constructor
  · rintro ⟨k, hk, rfl⟩
    refine ⟨0, ![k], by simp [Fin.forall_fin_one]; omega, hk, ?_⟩
    rw [shows_at h ![k] (by simp [Fin.forall_fin_one]; omega) (by simp), shows_at h ![k + 1] (by simp [Fin.forall_fin_one]; omega) (by simp)]
    congr 2
    congr 1
    funext b
    fin_cases b
    simp
  · rintro ⟨a, i, hi, ha, rfl⟩
    obtain rfl : a = 0 := Subsingleton.elim _ _
    refine ⟨i 0, ha, ?_⟩
    rw [shows_at h i hi (by simp), shows_at h (Function.update i 0 (i 0 + 1)) (fun b => by
      obtain rfl : b = 0 := Subsingleton.elim _ _
      simpa using ha) (by simp)]

theorem mpl_line2 {n : Fin 2 → ℕ} {f : (Fin 2 → ℕ) → K × K × K} {l : Xyz K} (h : l.Shows n f) : segments (mplLine l) = netSegs n f := by
  have hs : (backT l).x.shape = [(n 0 : ℤ), (n 1 : ℤ)] := by
    show l.x.shape.reverse = _
    rw [h.shape.1]; simp
  have key : ∀ i j : ℕ, i < n 0 → j < n 1 → Xyz.at (backT l) [(i : ℤ), (j : ℤ)] = f ![i, j] := fun i j h0 h1 =>
    shows_at h ![i, j] (by simp [Fin.forall_fin_two]; omega) (by simp)
  ext e
  unfold mplLine
  simp only [hs]
  unfold wireframe
  rw [mem_segments_append, mem_segments_map, mem_segments_map, mem_netSegs]
  simp only [mem_upTo, mem_segments_line]
  constructor
  · rintro (⟨_, ⟨i, hi, rfl⟩, k, hk, rfl⟩ | ⟨_, ⟨j, hj, rfl⟩, k, hk, rfl⟩)
    · refine ⟨1, ![i, k], by simp [Fin.forall_fin_two]; omega, hk, ?_⟩
      have e2 := key i (k + 1) hi hk
      push_cast at e2
      rw [key i k hi (by omega), e2]
      congr 2
      congr 1
      funext b
      fin_cases b <;> simp
    · refine ⟨0, ![k, j], by simp [Fin.forall_fin_two]; omega, hk, ?_⟩
      have e2 := key (k + 1) j hk hj
      push_cast at e2
      rw [key k j (by omega) hj, e2]
      congr 2
      congr 1
      funext b
      fin_cases b <;> simp
  · rintro ⟨a, i, hi, ha, rfl⟩
    have ei : i = ![i 0, i 1] := by funext b; fin_cases b <;> rfl
    have h0 := hi 0
    have h1 := hi 1
    fin_cases a
    · right
      refine ⟨_, ⟨i 1, h1, rfl⟩, i 0, ha, ?_⟩
      have e2 := key (i 0 + 1) (i 1) ha h1
      push_cast at e2
      rw [key _ _ h0 h1, e2, ← ei]
      congr 2
      congr 1
      funext b
      fin_cases b <;> simp
    · left
      refine ⟨_, ⟨i 0, h0, rfl⟩, i 1, ha, ?_⟩
      have e2 := key (i 0) (i 1 + 1) h0 ha
      push_cast at e2
      rw [key _ _ h0 h1, e2, ← ei]
      congr 2
      congr 1
      funext b
      fin_cases b <;> simp

theorem mpl_line3 {n : Fin 3 → ℕ} {f : (Fin 3 → ℕ) → K × K × K} {l : Xyz K} (h : l.Shows n f) : segments (mplLine l) = netSegs n f := by
  have hs : (backT l).x.shape = [(n 0 : ℤ), (n 1 : ℤ), (n 2 : ℤ)] := by
    show l.x.shape.reverse = _
    rw [h.shape.1]; simp
  have key : ∀ i j k : ℕ, i < n 0 → j < n 1 → k < n 2 → Xyz.at (backT l) [(i : ℤ), (j : ℤ), (k : ℤ)] = f ![i, j, k] :=
    fun i j k h0 h1 h2 => shows_at h ![i, j, k] (fun a => by fin_cases a <;> assumption) (by simp)
  ext e
  unfold mplLine
  simp only [hs]
  unfold wireframe
  rw [mem_segments_append, mem_netSegs]
  simp only [mem_segments_flatMap, mem_segments_append, mem_segments_map, mem_upTo, mem_segments_line]
  constructor
  · rintro (⟨_, ⟨i, hi, rfl⟩, (⟨_, ⟨j, hj, rfl⟩, k, hk, rfl⟩ | ⟨_, ⟨k, hk, rfl⟩, j, hj, rfl⟩)⟩ | ⟨_, ⟨j, hj, rfl⟩, _, ⟨k, hk, rfl⟩, i, hi, rfl⟩)
    · refine ⟨2, ![i, j, k], fun a => by fin_cases a <;> simp <;> omega, hk, ?_⟩
      have e2 := key i j (k + 1) hi hj hk
      push_cast at e2
      rw [key i j k hi hj (by omega), e2]
      congr 2
      congr 1
      funext b
      fin_cases b <;> simp
    · refine ⟨1, ![i, j, k], fun a => by fin_cases a <;> simp <;> omega, hj, ?_⟩
      have e2 := key i (j + 1) k hi hj hk
      push_cast at e2
      rw [key i j k hi (by omega) hk, e2]
      congr 2
      congr 1
      funext b
      fin_cases b <;> simp
    · refine ⟨0, ![i, j, k], fun a => by fin_cases a <;> simp <;> omega, hi, ?_⟩
      have e2 := key (i + 1) j k hi hj hk
      push_cast at e2
      rw [key i j k (by omega) hj hk, e2]
      congr 2
      congr 1
      funext b
      fin_cases b <;> simp
  · rintro ⟨a, i, hi, ha, rfl⟩
    have ei : i = ![i 0, i 1, i 2] := by funext b; fin_cases b <;> rfl
    have h0 := hi 0
    have h1 := hi 1
    have h2 := hi 2
    fin_cases a
    · right
      refine ⟨_, ⟨i 1, h1, rfl⟩, _, ⟨i 2, h2, rfl⟩, i 0, ha, ?_⟩
      have e2 := key (i 0 + 1) (i 1) (i 2) ha h1 h2
      push_cast at e2
      rw [key _ _ _ h0 h1 h2, e2, ← ei]
      congr 2
      congr 1
      funext b
      fin_cases b <;> simp
    · left
      refine ⟨_, ⟨i 0, h0, rfl⟩, Or.inr ⟨_, ⟨i 2, h2, rfl⟩, i 1, ha, ?_⟩⟩
      have e2 := key (i 0) (i 1 + 1) (i 2) h0 ha h2
      push_cast at e2
      rw [key _ _ _ h0 h1 h2, e2, ← ei]
      congr 2
      congr 1
      funext b
      fin_cases b <;> simp
    · left
      refine ⟨_, ⟨i 0, h0, rfl⟩, Or.inl ⟨_, ⟨i 1, h1, rfl⟩, i 2, ha, ?_⟩⟩
      have e2 := key (i 0) (i 1) (i 2 + 1) h0 h1 ha
      push_cast at e2
      rw [key _ _ _ h0 h1 h2, e2, ← ei]
      congr 2
      congr 1
      funext b
      fin_cases b <;> simp

/-! ## mayavi -/

theorem rows4_append {α : Type} : ∀ {l : List α} (m : List α), l.length % 4 = 0 → rows4 (l ++ m) = rows4 l ++ rows4 m
  | [], m, _ => rfl
  | [_], _, h => by simp at h
  | [_, _], _, h => by simp at h
  | [_, _, _], _, h => by simp at h
  | a :: b :: c :: d :: l, m, h => by
    have h' : l.length % 4 = 0 := by simp only [List.length_cons] at h; omega
    show (a, b, c, d) :: rows4 (l ++ m) = (a, b, c, d) :: (rows4 l ++ rows4 m)
    rw [rows4_append m h']

theorem rows4_flatMap {α β : Type} {g : β → List α} (hg : ∀ x, (g x).length % 4 = 0) : ∀ L : List β,
    rows4 (L.flatMap g) = L.flatMap (fun x => rows4 (g x))
  | [] => rfl
  | x :: L => by rw [List.flatMap_cons, List.flatMap_cons, rows4_append _ (hg x), rows4_flatMap hg L]

/-- the cells of a grid -/
def cellsOf (shape : List ℤ) : List ℤ := shape.map (fun n => max (n - 1) 0)

theorem pos_of_prod_pos : ∀ {l : List ℤ}, (∀ x ∈ l, 0 ≤ x) → 0 < l.prod → ∀ x ∈ l, 0 < x
  | [], _, _ => by simp
  | y :: l, h, hp => by
    rw [List.prod_cons] at hp
    have hy := h y (by simp)
    have h0 : 0 < y := lt_of_le_of_ne hy (by rintro rfl; simp at hp)
    have h1 : 0 < l.prod := by
      by_contra hc
      nlinarith
    intro x hx
    rcases List.mem_cons.1 hx with rfl | hx
    · exact h0
    · exact pos_of_prod_pos (fun z hz => h z (by simp [hz])) h1 x hx

theorem mem_corner_rows {shape : List ℤ} {verts : List (List ℤ)} (hv : verts.length % 4 = 0) {q : ℤ × ℤ × ℤ × ℤ} :
    q ∈ rows4 (corners shape verts) ↔ ∃ idx, InShape (cellsOf shape) idx ∧
      q ∈ rows4 (verts.map (fun c => gridNum shape (List.zipWith (· + ·) idx c))) := by
  unfold corners
  dsimp only
  rw [rows4_flatMap (fun x => by rw [List.length_map]; exact hv), List.mem_flatMap]
  have hnn : ∀ x ∈ cellsOf shape, 0 ≤ x := by
    intro x hx
    obtain ⟨y, _, rfl⟩ := List.mem_map.1 hx
    exact le_max_right _ _
  have hrev : (cellsOf shape).reverse.prod = (cellsOf shape).prod := List.prod_reverse _
  constructor
  · rintro ⟨t, ht, hq⟩
    have ht : t < (cellsOf shape).prod.toNat := List.mem_range.1 ht
    obtain ⟨h1, _⟩ := offsetF_unravelF (ss := (cellsOf shape).reverse) (t := t)
      (fun s hs => pos_of_prod_pos hnn (by omega) s (List.mem_reverse.1 hs)) (by omega) (by rw [hrev]; omega)
    have h1 := inShape_reverse h1
    rw [List.reverse_reverse] at h1
    exact ⟨_, h1, hq⟩
  · rintro ⟨idx, hi, hq⟩
    have hr := inShape_reverse hi
    obtain ⟨h1, h2⟩ := offsetF_range hr
    rw [hrev] at h2
    refine ⟨(offsetF (cellsOf shape).reverse idx.reverse).toNat, List.mem_range.2 ?_, ?_⟩
    · show _ < (cellsOf shape).prod.toNat
      omega
    · rw [Int.toNat_of_nonneg h1]
      have := unravelF_offsetF hr
      unfold cellsOf at this
      rw [show (List.map (fun n : ℤ => max (n - 1) 0) shape) = cellsOf shape from rfl] at *
      rw [this, List.reverse_reverse]
      exact hq

/-- number of a point -/
def numOf (n i : Fin d → ℕ) : ℤ := gridNum (List.ofFn fun a => (n a : ℤ)).reverse (List.ofFn fun a => (i a : ℤ)).reverse

theorem inShape_cells2 {r c : ℕ} {idx : List ℤ} : InShape (cellsOf [(r : ℤ), (c : ℤ)]) idx ↔
    ∃ j i : ℕ, j + 1 < r ∧ i + 1 < c ∧ idx = [(j : ℤ), (i : ℤ)] := by
  constructor
  · intro h
    match idx, h with
    | [x, y], ⟨⟨h1, h2⟩, ⟨h3, h4⟩, _⟩ =>
      dsimp only at *
      refine ⟨x.toNat, y.toNat, ?_, ?_, ?_⟩
      · rcases lt_max_iff.1 h2 with h | h <;> omega
      · rcases lt_max_iff.1 h4 with h | h <;> omega
      · rw [Int.toNat_of_nonneg h1, Int.toNat_of_nonneg h3]
  · rintro ⟨j, i, h1, h2, rfl⟩
    exact ⟨⟨by omega, lt_max_iff.2 (Or.inl (by omega))⟩, ⟨by omega, lt_max_iff.2 (Or.inl (by omega))⟩, trivial⟩

theorem inShape_cells3 {r c s : ℕ} {idx : List ℤ} : InShape (cellsOf [(r : ℤ), (c : ℤ), (s : ℤ)]) idx ↔
    ∃ k j i : ℕ, k + 1 < r ∧ j + 1 < c ∧ i + 1 < s ∧ idx = [(k : ℤ), (j : ℤ), (i : ℤ)] := by
  constructor
  · intro h
    match idx, h with
    | [x, y, z], ⟨⟨h1, h2⟩, ⟨h3, h4⟩, ⟨h5, h6⟩, _⟩ =>
      dsimp only at *
      refine ⟨x.toNat, y.toNat, z.toNat, ?_, ?_, ?_, ?_⟩
      · rcases lt_max_iff.1 h2 with h | h <;> omega
      · rcases lt_max_iff.1 h4 with h | h <;> omega
      · rcases lt_max_iff.1 h6 with h | h <;> omega
      · rw [Int.toNat_of_nonneg h1, Int.toNat_of_nonneg h3, Int.toNat_of_nonneg h5]
  · rintro ⟨k, j, i, h0, h1, h2, rfl⟩
    exact ⟨⟨by omega, lt_max_iff.2 (Or.inl (by omega))⟩, ⟨by omega, lt_max_iff.2 (Or.inl (by omega))⟩,
      ⟨by omega, lt_max_iff.2 (Or.inl (by omega))⟩, trivial⟩

/-- the polygons of a grid with two axes: one for each cell -/
theorem mem_polys2 {n : Fin 2 → ℕ} {q : ℤ × ℤ × ℤ × ℤ} : q ∈ polys (List.ofFn fun a => (n a : ℤ)).reverse ↔
    ∃ i j : ℕ, i + 1 < n 0 ∧ j + 1 < n 1 ∧
      q = (numOf n ![i, j], numOf n ![i, j + 1], numOf n ![i + 1, j + 1], numOf n ![i + 1, j]) := by
  have hs : (List.ofFn fun a => (n a : ℤ)).reverse = [(n 1 : ℤ), (n 0 : ℤ)] := by simp
  have hn : ∀ i j : ℕ, numOf n ![i, j] = gridNum [(n 1 : ℤ), (n 0 : ℤ)] [(j : ℤ), (i : ℤ)] := by
    intro i j
    unfold numOf
    rw [hs]
    simp
  simp only [hn, hs, polys]
  rw [mem_corner_rows (by decide)]
  simp only [inShape_cells2]
  constructor
  · rintro ⟨_, ⟨j, i, h1, h2, rfl⟩, hq⟩
    refine ⟨i, j, h2, h1, ?_⟩
    simpa [verts2, rows4] using hq
  · rintro ⟨i, j, h1, h2, rfl⟩
    refine ⟨_, ⟨j, i, h2, h1, rfl⟩, ?_⟩
    simp [verts2, rows4]

/-- with three axes: the six faces of each cell -/
theorem mem_polys3 {n : Fin 3 → ℕ} {q : ℤ × ℤ × ℤ × ℤ} : q ∈ polys (List.ofFn fun a => (n a : ℤ)).reverse ↔
    ∃ i j k : ℕ, i + 1 < n 0 ∧ j + 1 < n 1 ∧ k + 1 < n 2 ∧
      (q = (numOf n ![i, j, k], numOf n ![i, j, k + 1], numOf n ![i, j + 1, k + 1], numOf n ![i, j + 1, k]) ∨
       q = (numOf n ![i + 1, j, k], numOf n ![i + 1, j, k + 1], numOf n ![i + 1, j + 1, k + 1], numOf n ![i + 1, j + 1, k]) ∨
       q = (numOf n ![i, j, k], numOf n ![i, j, k + 1], numOf n ![i + 1, j, k + 1], numOf n ![i + 1, j, k]) ∨
       q = (numOf n ![i, j + 1, k + 1], numOf n ![i + 1, j + 1, k + 1], numOf n ![i + 1, j + 1, k], numOf n ![i, j + 1, k]) ∨
       q = (numOf n ![i, j, k], numOf n ![i, j + 1, k], numOf n ![i + 1, j + 1, k], numOf n ![i + 1, j, k]) ∨
       q = (numOf n ![i, j, k + 1], numOf n ![i, j + 1, k + 1], numOf n ![i + 1, j + 1, k + 1], numOf n ![i + 1, j, k + 1])) := by
  have hs : (List.ofFn fun a => (n a : ℤ)).reverse = [(n 2 : ℤ), (n 1 : ℤ), (n 0 : ℤ)] := by simp
  have hn : ∀ i j k : ℕ, numOf n ![i, j, k] = gridNum [(n 2 : ℤ), (n 1 : ℤ), (n 0 : ℤ)] [(k : ℤ), (j : ℤ), (i : ℤ)] := by
    intro i j k
    unfold numOf
    rw [hs]
    simp
  simp only [hn, hs, polys]
  rw [mem_corner_rows (by decide)]
  simp only [inShape_cells3]
  constructor
  · rintro ⟨_, ⟨k, j, i, h1, h2, h3, rfl⟩, hq⟩
    refine ⟨i, j, k, h3, h2, h1, ?_⟩
    simpa [verts3, rows4] using hq
  · rintro ⟨i, j, k, h1, h2, h3, hq⟩
    refine ⟨_, ⟨k, j, i, h3, h2, h1, rfl⟩, ?_⟩
    simpa [verts3, rows4] using hq

end Igakit
