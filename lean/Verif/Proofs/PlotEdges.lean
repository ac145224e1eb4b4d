import Verif.Proofs.PlotNet

set_option linter.unusedSectionVars false

namespace Igakit
open Plot

/-- pairs of numbers of neighbours, in either order, each at least once -/
structure EdgesOf {d : ℕ} (n : Fin d → ℕ) (es : List (ℤ × ℤ)) : Prop where
  sound : ∀ e ∈ es, ∃ i j : Fin d → ℕ, (∀ a, i a < n a) ∧ (∀ a, j a < n a) ∧ (NextTo i j ∨ NextTo j i) ∧ e = (numOf n i, numOf n j)
  complete : ∀ i j : Fin d → ℕ, (∀ a, i a < n a) → (∀ a, j a < n a) → NextTo i j →
    (numOf n i, numOf n j) ∈ es ∨ (numOf n j, numOf n i) ∈ es

theorem next2 (i j : ℕ) : NextTo ![i, j] ![i + 1, j] ∧ NextTo ![i, j] ![i, j + 1] := by
  refine ⟨⟨0, ?_⟩, ⟨1, ?_⟩⟩ <;> (funext b; fin_cases b <;> simp)

theorem next3 (i j k : ℕ) : NextTo ![i, j, k] ![i + 1, j, k] ∧ NextTo ![i, j, k] ![i, j + 1, k] ∧ NextTo ![i, j, k] ![i, j, k + 1] := by
  refine ⟨⟨0, ?_⟩, ⟨1, ?_⟩, ⟨2, ?_⟩⟩ <;> (funext b; fin_cases b <;> simp)

theorem edges1 (n : Fin 1 → ℕ) : EdgesOf n (edges (List.ofFn fun a => (n a : ℤ)).reverse) := by
  have hs : (List.ofFn fun a => (n a : ℤ)).reverse = [(n 0 : ℤ)] := by simp
  have hn : ∀ i : Fin 1 → ℕ, numOf n i = i 0 := by
    intro i
    unfold numOf gridNum
    simp [offsetF]
  constructor
  · rw [hs]
    intro e he
    simp only [edges, List.mem_map, List.mem_range] at he
    obtain ⟨t, ht, rfl⟩ := he
    refine ⟨![t], ![t + 1], ?_, ?_, Or.inl ⟨0, ?_⟩, ?_⟩
    · simp [Fin.forall_fin_one]; omega
    · simp [Fin.forall_fin_one]; omega
    · funext b; fin_cases b; simp
    · simp [hn]
  · rintro i j hi hj ⟨a, rfl⟩
    obtain rfl : a = 0 := Subsingleton.elim _ _
    rw [hs]
    left
    simp only [edges, List.mem_map, List.mem_range]
    have := hj 0
    rw [Function.update_self] at this
    exact ⟨i 0, by omega, by simp [hn]⟩

/-- a cell with the given place on one axis as an end -/
theorem cell_end {i n : ℕ} (h : i < n) (h2 : 2 ≤ n) : ∃ c, c + 1 < n ∧ (i = c ∨ i = c + 1) := by
  by_cases hc : i + 1 < n
  · exact ⟨i, hc, Or.inl rfl⟩
  · exact ⟨i - 1, by omega, Or.inr (by omega)⟩

theorem edges2 {n : Fin 2 → ℕ} (h2 : ∀ a, 2 ≤ n a) : EdgesOf n (edges (List.ofFn fun a => (n a : ℤ)).reverse) := by
  have hmem : ∀ e, e ∈ edges (List.ofFn fun a => (n a : ℤ)).reverse ↔ ∃ i j : ℕ, i + 1 < n 0 ∧ j + 1 < n 1 ∧
      (e = (numOf n ![i, j], numOf n ![i, j + 1]) ∨ e = (numOf n ![i, j + 1], numOf n ![i + 1, j + 1]) ∨
       e = (numOf n ![i + 1, j + 1], numOf n ![i + 1, j]) ∨ e = (numOf n ![i + 1, j], numOf n ![i, j])) := by
    intro e
    have hs : (List.ofFn fun a => (n a : ℤ)).reverse = [(n 1 : ℤ), (n 0 : ℤ)] := by simp
    have he : edges (List.ofFn fun a => (n a : ℤ)).reverse = (polys (List.ofFn fun a => (n a : ℤ)).reverse).flatMap
        (fun q => [(q.1, q.2.1), (q.2.1, q.2.2.1), (q.2.2.1, q.2.2.2), (q.2.2.2, q.1)]) := by rw [hs]; rfl
    rw [he, List.mem_flatMap]
    simp only [mem_polys2]
    constructor
    · rintro ⟨_, ⟨i, j, h1, h2, rfl⟩, h⟩
      exact ⟨i, j, h1, h2, by simpa using h⟩
    · rintro ⟨i, j, h1, h2, h⟩
      exact ⟨_, ⟨i, j, h1, h2, rfl⟩, by simpa using h⟩
  constructor
  · intro e he
    obtain ⟨i, j, h0, h1, h⟩ := (hmem e).1 he
    rcases h with rfl | rfl | rfl | rfl
    · exact ⟨_, _, fun a => by fin_cases a <;> simp <;> omega, fun a => by fin_cases a <;> simp <;> omega, Or.inl (next2 _ _).2, rfl⟩
    · exact ⟨_, _, fun a => by fin_cases a <;> simp <;> omega, fun a => by fin_cases a <;> simp <;> omega, Or.inl (next2 _ _).1, rfl⟩
    · exact ⟨_, _, fun a => by fin_cases a <;> simp <;> omega, fun a => by fin_cases a <;> simp <;> omega, Or.inr (next2 _ _).2, rfl⟩
    · exact ⟨_, _, fun a => by fin_cases a <;> simp <;> omega, fun a => by fin_cases a <;> simp <;> omega, Or.inr (next2 _ _).1, rfl⟩
  · rintro i j hi hj ⟨a, rfl⟩
    have ei : i = ![i 0, i 1] := by funext b; fin_cases b <;> rfl
    obtain ⟨x, hx⟩ : ∃ x, x = i 0 := ⟨_, rfl⟩
    obtain ⟨y, hy⟩ : ∃ y, y = i 1 := ⟨_, rfl⟩
    have hj := hj a
    rw [Function.update_self] at hj
    have h0 := hi 0
    have h1 := hi 1
    rw [← hx, ← hy] at ei
    rw [← hx] at h0
    rw [← hy] at h1
    subst ei
    fin_cases a
    · have hj : x + 1 < n 0 := hj
      rw [show Function.update ![x, y] ⟨0, by omega⟩ (![x, y] ⟨0, by omega⟩ + 1) = ![x + 1, y] by funext b; fin_cases b <;> simp]
      obtain ⟨c, hc, rfl | rfl⟩ := cell_end h1 (h2 1)
      · right
        exact (hmem _).2 ⟨x, y, hj, hc, by simp⟩
      · left
        exact (hmem _).2 ⟨x, c, hj, hc, by simp⟩
    · have hj : y + 1 < n 1 := hj
      rw [show Function.update ![x, y] ⟨1, by omega⟩ (![x, y] ⟨1, by omega⟩ + 1) = ![x, y + 1] by funext b; fin_cases b <;> simp]
      obtain ⟨c, hc, rfl | rfl⟩ := cell_end h0 (h2 0)
      · left
        exact (hmem _).2 ⟨x, y, hc, hj, by simp⟩
      · right
        exact (hmem _).2 ⟨c, y, hc, hj, by simp⟩

theorem edges3 {n : Fin 3 → ℕ} (h2 : ∀ a, 2 ≤ n a) : EdgesOf n (edges (List.ofFn fun a => (n a : ℤ)).reverse) := by
  have hs : (List.ofFn fun a => (n a : ℤ)).reverse = [(n 2 : ℤ), (n 1 : ℤ), (n 0 : ℤ)] := by simp
  have he : edges (List.ofFn fun a => (n a : ℤ)).reverse = (polys (List.ofFn fun a => (n a : ℤ)).reverse).flatMap
      (fun q => [(q.1, q.2.1), (q.2.1, q.2.2.1), (q.2.2.1, q.2.2.2), (q.2.2.2, q.1)]) := by rw [hs]; rfl
  have hmem : ∀ e, e ∈ edges (List.ofFn fun a => (n a : ℤ)).reverse ↔ ∃ q : ℤ × ℤ × ℤ × ℤ,
      q ∈ polys (List.ofFn fun a => (n a : ℤ)).reverse ∧
      (e = (q.1, q.2.1) ∨ e = (q.2.1, q.2.2.1) ∨ e = (q.2.2.1, q.2.2.2) ∨ e = (q.2.2.2, q.1)) := by
    intro e
    rw [he, List.mem_flatMap]
    simp
  constructor
  · intro e he
    obtain ⟨q, hq, h⟩ := (hmem e).1 he
    obtain ⟨i, j, k, h0, h1, h3, hq⟩ := mem_polys3.1 hq
    rcases hq with rfl | rfl | rfl | rfl | rfl | rfl <;> rcases h with rfl | rfl | rfl | rfl <;>
      refine ⟨_, _, ?_, ?_, ?_, rfl⟩
    all_goals
      first
      | (intro a; fin_cases a <;> simp <;> omega)
      | exact Or.inl (next3 _ _ _).1
      | exact Or.inl (next3 _ _ _).2.1
      | exact Or.inl (next3 _ _ _).2.2
      | exact Or.inr (next3 _ _ _).1
      | exact Or.inr (next3 _ _ _).2.1
      | exact Or.inr (next3 _ _ _).2.2
  · rintro i j hi hj ⟨a, rfl⟩
    have ei : i = ![i 0, i 1, i 2] := by funext b; fin_cases b <;> rfl
    obtain ⟨x, hx⟩ : ∃ x, x = i 0 := ⟨_, rfl⟩
    obtain ⟨y, hy⟩ : ∃ y, y = i 1 := ⟨_, rfl⟩
    obtain ⟨z, hz⟩ : ∃ z, z = i 2 := ⟨_, rfl⟩
    have hj := hj a
    rw [Function.update_self] at hj
    have h0 := hi 0
    have h1 := hi 1
    have h3 := hi 2
    rw [← hx, ← hy, ← hz] at ei
    rw [← hx] at h0
    rw [← hy] at h1
    rw [← hz] at h3
    subst ei
    have go : ∀ (q : ℤ × ℤ × ℤ × ℤ) (e : ℤ × ℤ), q ∈ polys (List.ofFn fun a => (n a : ℤ)).reverse →
      (e = (q.1, q.2.1) ∨ e = (q.2.1, q.2.2.1) ∨ e = (q.2.2.1, q.2.2.2) ∨ e = (q.2.2.2, q.1)) →
      e ∈ edges (List.ofFn fun a => (n a : ℤ)).reverse := fun q e h1 h2 => (hmem e).2 ⟨q, h1, h2⟩
    fin_cases a
    · have hj : x + 1 < n 0 := hj
      rw [show Function.update ![x, y, z] ⟨0, by omega⟩ (![x, y, z] ⟨0, by omega⟩ + 1) = ![x + 1, y, z] by funext b; fin_cases b <;> simp]
      obtain ⟨c, hc, hyc⟩ := cell_end h1 (h2 1)
      obtain ⟨e, he, hze⟩ := cell_end h3 (h2 2)
      rcases hyc with rfl | rfl <;> rcases hze with rfl | rfl
      · right; exact go _ _ (mem_polys3.2 ⟨x, y, z, hj, hc, he, Or.inr (Or.inr (Or.inl rfl))⟩) (by simp)
      · left; exact go _ _ (mem_polys3.2 ⟨x, y, e, hj, hc, he, Or.inr (Or.inr (Or.inl rfl))⟩) (by simp)
      · left; exact go _ _ (mem_polys3.2 ⟨x, c, z, hj, hc, he, Or.inr (Or.inr (Or.inr (Or.inr (Or.inl rfl))))⟩) (by simp)
      · left; exact go _ _ (mem_polys3.2 ⟨x, c, e, hj, hc, he, Or.inr (Or.inr (Or.inr (Or.inl rfl)))⟩) (by simp)
    · have hj : y + 1 < n 1 := hj
      rw [show Function.update ![x, y, z] ⟨1, by omega⟩ (![x, y, z] ⟨1, by omega⟩ + 1) = ![x, y + 1, z] by funext b; fin_cases b <;> simp]
      obtain ⟨c, hc, hxc⟩ := cell_end h0 (h2 0)
      obtain ⟨e, he, hze⟩ := cell_end h3 (h2 2)
      rcases hxc with rfl | rfl <;> rcases hze with rfl | rfl
      · right; exact go _ _ (mem_polys3.2 ⟨x, y, z, hc, hj, he, Or.inl rfl⟩) (by simp)
      · left; exact go _ _ (mem_polys3.2 ⟨x, y, e, hc, hj, he, Or.inl rfl⟩) (by simp)
      · right; exact go _ _ (mem_polys3.2 ⟨c, y, z, hc, hj, he, Or.inr (Or.inl rfl)⟩) (by simp)
      · left; exact go _ _ (mem_polys3.2 ⟨c, y, e, hc, hj, he, Or.inr (Or.inl rfl)⟩) (by simp)
    · have hj : z + 1 < n 2 := hj
      rw [show Function.update ![x, y, z] ⟨2, by omega⟩ (![x, y, z] ⟨2, by omega⟩ + 1) = ![x, y, z + 1] by funext b; fin_cases b <;> simp]
      obtain ⟨c, hc, hxc⟩ := cell_end h0 (h2 0)
      obtain ⟨e, he, hye⟩ := cell_end h1 (h2 1)
      rcases hxc with rfl | rfl <;> rcases hye with rfl | rfl
      · left; exact go _ _ (mem_polys3.2 ⟨x, y, z, hc, he, hj, Or.inl rfl⟩) (by simp)
      · right; exact go _ _ (mem_polys3.2 ⟨x, e, z, hc, he, hj, Or.inl rfl⟩) (by simp)
      · left; exact go _ _ (mem_polys3.2 ⟨c, y, z, hc, he, hj, Or.inr (Or.inl rfl)⟩) (by simp)
      · right; exact go _ _ (mem_polys3.2 ⟨c, e, z, hc, he, hj, Or.inr (Or.inl rfl)⟩) (by simp)

theorem edges_ok {d : ℕ} (h1 : 1 ≤ d) (h3 : d ≤ 3) {n : Fin d → ℕ} (h2 : 2 ≤ d → ∀ a, 2 ≤ n a) :
    EdgesOf n (edges (List.ofFn fun a => (n a : ℤ)).reverse) := by
  have : d = 1 ∨ d = 2 ∨ d = 3 := by omega
  rcases this with rfl | rfl | rfl
  · exact edges1 n
  · exact edges2 (h2 (by omega))
  · exact edges3 (h2 (by omega))

end Igakit
