import Verif.Proofs.Uniform
import Verif.Props.NrbAxis
import Mathlib.Data.Nat.Log
import Mathlib.Data.List.Pairwise

/-!
# Property C95: `InsertUniformly` of the venturi demo
-/

set_option linter.unusedSectionVars false

namespace Igakit
open Spec

variable {K : Type} [Field K] [LinearOrder K] [IsStrictOrderedRing K]

/-- `k` is the least number of halvings after which `g` is at most `h` -/
def Spec.Halvings (h g : K) (k : ℕ) : Prop := g ≤ 2 ^ k * h ∧ ∀ i < k, 2 ^ i * h < g

/-- the neighbouring entries `a`, `b` of `U` -/
def Spec.NextTo (U : List K) (a b : K) : Prop := ∃ A B, U = A ++ a :: b :: B

namespace Unif

/-! ## Extremes of sorted lists -/

theorem foldl_min : ∀ (l : List K) (a : K), (∀ x ∈ l, a ≤ x) → l.foldl min a = a
  | [], _, _ => rfl
  | x :: l, a, h => by
    rw [List.foldl_cons, min_eq_left (h x (by simp))]
    exact foldl_min l a (fun y hy => h y (by simp [hy]))

theorem foldl_max : ∀ (l : List K) (a : K), (a :: l).Pairwise (· ≤ ·) →
    l.foldl max a = (a :: l).getLast (by simp)
  | [], _, _ => rfl
  | x :: l, a, h => by
    rw [List.pairwise_cons] at h
    rw [List.foldl_cons, max_eq_right (h.1 x (by simp)), foldl_max l x h.2]
    simp

theorem head_le {U : List K} (hs : U.Pairwise (· ≤ ·)) (h0 : U ≠ []) {x : K} (hx : x ∈ U) :
    U.head h0 ≤ x := by
  cases U with
  | nil => exact absurd rfl h0
  | cons a l =>
    rw [List.pairwise_cons] at hs
    rcases List.mem_cons.mp hx with h | h
    · simp [h]
    · exact hs.1 x h

theorem le_getLast {U : List K} (hs : U.Pairwise (· ≤ ·)) (h0 : U ≠ []) {x : K} (hx : x ∈ U) :
    x ≤ U.getLast h0 := by
  rw [← List.dropLast_append_getLast h0] at hs hx
  rw [List.pairwise_append] at hs
  rcases List.mem_append.mp hx with h | h
  · exact hs.2.2 x h _ (by simp)
  · rw [List.mem_singleton] at h; exact h.le

theorem infix_iff {U : List K} {a b : K} : [a, b] <:+: U ↔ NextTo U a b := by
  constructor
  · rintro ⟨A, B, h⟩; exact ⟨A, B, by rw [← h]; simp⟩
  · rintro ⟨A, B, h⟩; exact ⟨A, B, by rw [h]; simp⟩

theorem chain_of {R : K → K → Prop} : ∀ {l : List K}, (∀ a b, [a, b] <:+: l → R a b) → l.IsChain R
  | [], _ => by simp
  | [a], _ => by simp
  | a :: b :: l, h => by
    rw [List.isChain_cons_cons]
    exact ⟨h a b ⟨[], l, rfl⟩, chain_of (fun x y hxy => h x y (hxy.trans (List.suffix_cons a _).isInfix))⟩

theorem of_chain {R : K → K → Prop} {l : List K} (h : l.IsChain R) {a b : K} (hab : [a, b] <:+: l) :
    R a b := by
  obtain ⟨A, B, rfl⟩ := hab
  have := (List.isChain_append.mp (List.isChain_append.mp h).1).2.1
  simpa using this

/-! ## Levels -/

section lev
variable {big : K → Prop} [DecidablePred big] {dU : K}

theorem lev_min (hb : ∀ g, big g → dU < g) (r : ℕ) (g : K) : ∀ i < lev big r g, 2 ^ i * dU < g := by
  induction r with
  | zero => intro i hi; simp [lev] at hi
  | succ r ih =>
    intro i hi
    rw [lev] at hi
    split_ifs at hi with h
    · rcases Nat.lt_succ_iff_lt_or_eq.mp hi with h' | h'
      · exact ih i h'
      · have := hb _ h
        rw [lt_div_iff₀ (by positivity)] at this
        rw [h', mul_comm]
        exact this
    · exact ih i hi

theorem lev_or (r : ℕ) (g : K) : lev big r g = r ∨ ¬ big (g / 2 ^ lev big r g) := by
  induction r with
  | zero => exact Or.inl rfl
  | succ r ih =>
    rw [lev]
    split_ifs with h
    · rcases ih with e | e
      · exact Or.inl (by rw [e])
      · exact absurd h e
    · exact Or.inr h

end lev

/-! ## The call -/

/-- what is returned after the loop -/
def after (U : List K) : Option (Res (List K)) → Option (Res (List K))
  | none => none
  | some (.error e) => some (.error e)
  | some (.ok V) => some (.ok ((Nrb.npUnique V).filter (fun x => decide (x ∉ U))))

theorem insert_eq {tol : K} {fuel : ℕ} {U : List K} (hs : U.Pairwise (· ≤ ·)) (h0 : U ≠ []) {n : ℤ} :
    insertUniformly tol fuel U n = after U
      (loop tol (fun g => n ≠ 0 ∧ (U.getLast h0 - U.head h0) / (n : K) < g) U fuel U) := by
  cases U with
  | nil => exact absurd rfl h0
  | cons a l =>
    have e1 : l.foldl max a = (a :: l).getLast h0 := foldl_max l a hs
    have e2 : l.foldl min a = (a :: l).head h0 := foldl_min l a (List.pairwise_cons.mp hs).1
    rw [← e1, ← e2]
    unfold insertUniformly
    dsimp only
    generalize loop tol (fun g => n ≠ 0 ∧ (l.foldl max a - l.foldl min a) / (n : K) < g) (a :: l) fuel
      (a :: l) = o
    rcases o with _ | _ | _ <;> rfl

/-- evaluation of the call by evaluation of the subdivision -/
theorem insert_calc {tol : K} (ht : 0 ≤ tol) {U : List K} (hs : U.Pairwise (· ≤ ·)) (h0 : U ≠ [])
    {n : ℤ} {big : K → Prop} [DecidablePred big]
    (hb : ∀ g, big g ↔ n ≠ 0 ∧ (U.getLast h0 - U.head h0) / (n : K) < g) (m : ℕ)
    (hm : mids big (grow (lev big m) U) = []) {fuel : ℕ} (hf : m < fuel) :
    insertUniformly tol fuel U n =
      some (.ok ((grow (lev big m) U).dedup.filter (fun x => decide (x ∉ U)))) := by
  have hl := loop_ok big ht hs.isChain hm m 0 rfl fuel hf
  rw [grow_zero] at hl
  have hsg : (grow (lev big m) U).Pairwise (· ≤ ·) := (grow_sorted big m hs.isChain).pairwise
  have e : (grow (lev big m) U).mergeSort (fun x y => decide (x ≤ y)) = grow (lev big m) U :=
    List.Perm.eq_of_pairwise (le := (· ≤ ·)) (fun _ _ _ _ => le_antisymm) (sort_pairwise _) hsg
      (sort_perm _)
  have key : ∀ (b' : K → Prop) (i : DecidablePred b'), (∀ g, big g ↔ b' g) →
      loop tol b' U fuel U = loop tol big U fuel U := by
    intro b' i h
    have : big = b' := funext (fun g => propext (h g))
    subst this
    congr
  rw [insert_eq hs h0, key _ _ hb, hl, after, Nrb.npUnique, e]

/-! ## The run of the loop for a positive number of spans -/

/-- everything the theorems below need about a run -/
theorem run {tol : K} (ht : 0 ≤ tol) {U : List K} (hs : U.Pairwise (· ≤ ·)) (h0 : U ≠ []) {n : ℕ}
    (hn : 1 ≤ n) : ∃ (κ : K → ℕ) (V : List K), V = grow κ U ∧ V.IsChain (· ≤ ·) ∧
      (∀ fuel, Nat.clog 2 n < fuel → insertUniformly tol fuel U n =
        some (.ok ((Nrb.npUnique V).filter (fun x => decide (x ∉ U))))) ∧
      ∀ a b, NextTo U a b → Halvings ((U.getLast h0 - U.head h0) / n) (b - a) (κ (b - a)) := by
  set dU := (U.getLast h0 - U.head h0) / (n : K) with hdU
  have hc : U.IsChain (· ≤ ·) := hs.isChain
  have hnK : (0 : K) < n := by exact_mod_cast hn
  have hd0 : 0 ≤ dU := div_nonneg (sub_nonneg.mpr (head_le hs h0 (List.getLast_mem h0))) hnK.le
  set big : K → Prop := fun g => (n : ℤ) ≠ 0 ∧ dU < g with hbig
  have hb : ∀ g, big g ↔ dU < g := fun g => by
    simp only [hbig, and_iff_right_iff_imp]
    intro _; omega
  have hstop : ∀ a b, NextTo U a b →
      ¬ big ((b - a) / 2 ^ lev big (Nat.clog 2 n) (b - a)) := by
    intro a b hab
    rcases lev_or (big := big) (Nat.clog 2 n) (b - a) with e | e
    · rw [e, hb, not_lt, div_le_iff₀ (by positivity)]
      obtain ⟨A, B, hU⟩ := hab
      have ha := head_le hs h0 (x := a) (by rw [hU]; simp)
      have hb' := le_getLast hs h0 (x := b) (by rw [hU]; simp)
      have h1 : U.getLast h0 - U.head h0 = dU * n := by rw [hdU]; field_simp
      have h2 : (n : K) ≤ 2 ^ Nat.clog 2 n := by exact_mod_cast Nat.le_pow_clog (by norm_num) n
      have := mul_le_mul_of_nonneg_left h2 hd0
      linarith
    · exact e
  have hm : mids big (grow (lev big (Nat.clog 2 n)) U) = [] := by
    rw [mids_grow]
    exact chain_of (fun a b hab => hstop a b (infix_iff.mp hab))
  refine ⟨lev big (Nat.clog 2 n), _, rfl, grow_sorted big _ hc, ?_, ?_⟩
  · intro fuel hf
    have hl := loop_ok big ht hc hm (Nat.clog 2 n) 0 (by omega) fuel hf
    rw [grow_zero] at hl
    rw [insert_eq hs h0, Int.cast_natCast]
    change after U (loop tol big U fuel U) = _
    rw [hl]
    rfl
  · intro a b hab
    refine ⟨?_, lev_min (fun g => (hb g).mp) _ _⟩
    have := hstop a b hab
    rw [hb, not_lt, div_le_iff₀ (by positivity)] at this
    rw [mul_comm]
    exact this

end Unif

open Unif

/-! ## C95 -/

/-- C95: for sorted knots and a positive number of spans the function returns, after at most
`⌈log₂ n⌉ + 1` rounds of its loop.  The returned knots are strictly increasing.  They are exactly
the inner points of the following subdivision: every span of `U` is cut into `2^k` equal parts, where
`k` is the least number of halvings that makes the parts no longer than `(max - min) / n`.  In
particular the five smoothing passes have no effect on the result. -/
theorem C95_insert {tol : K} (ht : 0 ≤ tol) {U : List K} (hs : U.Pairwise (· ≤ ·)) (h0 : U ≠ [])
    {n : ℕ} (hn : 1 ≤ n) : ∃ W, (∀ fuel, Nat.clog 2 n < fuel →
      insertUniformly tol fuel U n = some (.ok W)) ∧ W.Pairwise (· < ·) ∧
      ∀ w, w ∈ W ↔ ∃ a b, NextTo U a b ∧
        ∃ k, Halvings ((U.getLast h0 - U.head h0) / n) (b - a) k ∧
          ∃ j : ℕ, 0 < j ∧ j < 2 ^ k ∧ w = a + j * ((b - a) / 2 ^ k) := by
  obtain ⟨κ, V, rfl, hV, hrun, hH⟩ := run ht hs h0 hn
  refine ⟨_, hrun, (npUnique_lt _).filter _, ?_⟩
  intro w
  rw [List.mem_filter, mem_npUnique, mem_grow, decide_eq_true_iff]
  constructor
  · rintro ⟨h | ⟨a, b, hab, hw⟩, hn'⟩
    · exact absurd h hn'
    · exact ⟨a, b, infix_iff.mp hab, _, hH a b (infix_iff.mp hab), (mem_inner _ a b w).mp hw⟩
  · rintro ⟨a, b, hab, k, hk, hj⟩
    have hk' := hH a b hab
    have e : k = κ (b - a) := by
      rcases lt_trichotomy k (κ (b - a)) with h | h | h
      · exact absurd hk.1 (not_le.mpr (hk'.2 k h))
      · exact h
      · exact absurd hk'.1 (not_le.mpr (hk.2 _ h))
    subst e
    refine ⟨Or.inr ⟨a, b, infix_iff.mpr hab, (mem_inner _ a b w).mpr hj⟩, ?_⟩
    obtain ⟨j, j0, j1, rfl⟩ := hj
    have hlt : a < b := by
      rcases Nat.eq_zero_or_pos (κ (b - a)) with h | h
      · rw [h] at j1; simp at j1; omega
      · have := hk'.2 0 h
        rw [pow_zero, one_mul] at this
        have h2 : 0 ≤ (U.getLast h0 - U.head h0) / (n : K) :=
          div_nonneg (sub_nonneg.mpr (head_le hs h0 (List.getLast_mem h0))) (by positivity)
        linarith
    have hg : 0 < (b - a) / 2 ^ κ (b - a) := div_pos (sub_pos.mpr hlt) (by positivity)
    have h1 : a < a + j * ((b - a) / 2 ^ κ (b - a)) := by
      have : (0 : K) < j := by exact_mod_cast j0
      have := mul_pos this hg
      linarith
    have h2 : a + j * ((b - a) / 2 ^ κ (b - a)) < b := by
      have h3 : (j : K) < 2 ^ κ (b - a) := by exact_mod_cast j1
      have h4 := mul_lt_mul_of_pos_right h3 hg
      rw [mul_div_cancel₀ _ (by positivity)] at h4
      linarith
    obtain ⟨A, B, rfl⟩ := hab
    rw [List.pairwise_append, List.pairwise_cons, List.pairwise_cons] at hs
    intro hmem
    rcases List.mem_append.mp hmem with h | h
    · exact absurd (hs.2.2 _ h a (by simp)) (not_le.mpr h1)
    · rcases List.mem_cons.mp h with h | h
      · exact absurd h h1.ne'
      · rcases List.mem_cons.mp h with h | h
        · exact absurd h h2.ne
        · exact absurd (hs.2.1.2.1 _ h) (not_le.mpr h2)

/-- C95: after the insertion no span is longer than `(max - min) / n`, the returned knots lie strictly
inside, are not knots of `U`, and keep more than half of that length as distance from every other
knot; there are fewer than `2 n - 1` of them. -/
theorem C95_spans {tol : K} (ht : 0 ≤ tol) {U : List K} (hs : U.Pairwise (· ≤ ·)) (h0 : U ≠ [])
    {n : ℕ} (hn : 1 ≤ n) {fuel : ℕ} (hf : Nat.clog 2 n < fuel) {W : List K}
    (hW : insertUniformly tol fuel U n = some (.ok W)) :
    (∀ x ∈ U ++ W, x < U.getLast h0 → ∃ y ∈ U ++ W, x < y ∧ y - x ≤ (U.getLast h0 - U.head h0) / n) ∧
    (∀ w ∈ W, w ∉ U ∧ U.head h0 < w ∧ w < U.getLast h0) ∧
    (∀ w ∈ W, ∀ y ∈ U ++ W, y ≠ w → (U.getLast h0 - U.head h0) / n / 2 < |w - y|) ∧
    W.length + 1 < 2 * n := by
  obtain ⟨κ, V, hVe, hV, hrun, hH⟩ := run ht hs h0 hn
  have hWV : W = (Nrb.npUnique V).filter (fun x => decide (x ∉ U)) := by
    have := (hW.symm.trans (hrun fuel hf))
    simpa using this
  have hlt : W.Pairwise (· < ·) := by rw [hWV]; exact (npUnique_lt _).filter _
  have hmW : ∀ w, w ∈ W ↔ w ∈ V ∧ w ∉ U := fun w => by
    rw [hWV, List.mem_filter, mem_npUnique, decide_eq_true_iff]
  have hUV : ∀ x ∈ U, x ∈ V := fun x hx => by rw [hVe, mem_grow]; exact Or.inl hx
  have hm : ∀ x, x ∈ U ++ W ↔ x ∈ V := fun x => by
    rw [List.mem_append, hmW]
    constructor
    · rintro (h | h)
      · exact hUV x h
      · exact h.1
    · intro h
      by_cases hx : x ∈ U
      · exact Or.inl hx
      · exact Or.inr ⟨h, hx⟩
  set dU := (U.getLast h0 - U.head h0) / (n : K) with hdU
  have hnK : (0 : K) < n := by exact_mod_cast hn
  have hd0 : 0 ≤ dU := div_nonneg (sub_nonneg.mpr (head_le hs h0 (List.getLast_mem h0))) hnK.le
  -- neighbours in the result
  have hchain : V.IsChain (fun x y => y - x ≤ dU ∧ (x ∈ U ∧ y ∈ U ∨ dU / 2 < y - x)) := by
    rw [hVe]
    refine grow_chain κ (chain_of ?_)
    intro a b hab x y hxy hz
    have hh := hH a b (infix_iff.mp hab)
    refine ⟨?_, ?_⟩
    · rw [hxy, div_le_iff₀ (by positivity), mul_comm]
      exact hh.1
    · rcases Nat.eq_zero_or_pos (κ (b - a)) with h | h
      · obtain ⟨rfl, rfl⟩ := hz h
        exact Or.inl ⟨hab.subset (by simp), hab.subset (by simp)⟩
      · right
        have := hh.2 (κ (b - a) - 1) (by omega)
        rw [hxy, div_lt_div_iff₀ (by norm_num) (by positivity)]
        have e : (2 : K) ^ κ (b - a) = 2 ^ (κ (b - a) - 1) * 2 := by
          rw [← pow_succ, Nat.sub_add_cancel h]
        rw [e]
        nlinarith
  have hsV : V.Pairwise (· ≤ ·) := hV.pairwise
  -- separation
  have hsep : ∀ x ∈ V, ∀ y ∈ V, x ≠ y → x ∉ U ∨ y ∉ U → dU / 2 < |x - y| := by
    let T : K → K → Prop := fun x y => x ≤ y ∧ (x ∈ U ∧ y ∈ U ∨ dU / 2 < y - x)
    have hT : V.IsChain T := by
      have : ∀ l : List K, l.IsChain (· ≤ ·) →
          l.IsChain (fun x y => y - x ≤ dU ∧ (x ∈ U ∧ y ∈ U ∨ dU / 2 < y - x)) → l.IsChain T := by
        intro l h1 h2
        exact chain_of (fun a b hab => ⟨of_chain h1 hab, (of_chain h2 hab).2⟩)
      exact this V hV hchain
    have : Trans T T T := ⟨by
      rintro a b c ⟨h1, h2⟩ ⟨h3, h4⟩
      refine ⟨h1.trans h3, ?_⟩
      rcases h2 with h2 | h2
      · rcases h4 with h4 | h4
        · exact Or.inl ⟨h2.1, h4.2⟩
        · right; linarith
      · right; linarith⟩
    have hP : V.Pairwise T := hT.pairwise
    let S : K → K → Prop := fun x y => x ≠ y → x ∉ U ∨ y ∉ U → dU / 2 < |x - y|
    have hSs : Std.Symm S := ⟨fun x y h hne ho => by
      rw [abs_sub_comm]; exact h (Ne.symm hne) ho.symm⟩
    have hS : V.Pairwise S := hP.imp (fun {x y} h _ ho => by
      rcases h.2 with h2 | h2
      · rcases ho with ho | ho
        · exact absurd h2.1 ho
        · exact absurd h2.2 ho
      · rw [abs_sub_comm]
        exact lt_of_lt_of_le h2 (le_abs_self _))
    intro x hx y hy
    exact hS.forall_of_forall (fun _ _ h => absurd rfl h) hx hy
  have hin : ∀ x ∈ V, U.head h0 ≤ x ∧ x ≤ U.getLast h0 := by
    intro x hx
    rw [hVe, mem_grow] at hx
    rcases hx with hx | ⟨a, b, hab, hx⟩
    · exact ⟨head_le hs h0 hx, le_getLast hs h0 hx⟩
    · have ha := head_le hs h0 (hab.subset (show a ∈ [a, b] by simp))
      have hb := le_getLast hs h0 (hab.subset (show b ∈ [a, b] by simp))
      have hle : a ≤ b := of_chain hs.isChain hab
      obtain ⟨j, _, j1, rfl⟩ := (mem_inner _ a b x).mp hx
      have hg : 0 ≤ (b - a) / 2 ^ κ (b - a) := div_nonneg (sub_nonneg.mpr hle) (by positivity)
      have h3 : (j : K) ≤ 2 ^ κ (b - a) := by exact_mod_cast j1.le
      have h4 := mul_le_mul_of_nonneg_right h3 hg
      rw [mul_div_cancel₀ _ (by positivity)] at h4
      have h5 : 0 ≤ (j : K) * ((b - a) / 2 ^ κ (b - a)) := mul_nonneg (by positivity) hg
      constructor <;> linarith
  have hstrict : ∀ w ∈ W, w ∉ U ∧ U.head h0 < w ∧ w < U.getLast h0 := by
    intro w hw
    have h := (hmW w).mp hw
    have hb := hin w h.1
    refine ⟨h.2, lt_of_le_of_ne hb.1 ?_, lt_of_le_of_ne hb.2 ?_⟩
    · intro e; exact h.2 (e ▸ List.head_mem h0)
    · intro e; exact h.2 (e ▸ List.getLast_mem h0)
  refine ⟨?_, hstrict, ?_, ?_⟩
  · -- gaps
    have key : ∀ l : List K, l.Pairwise (· ≤ ·) → l.IsChain (fun x y => y - x ≤ dU) →
        ∀ x ∈ l, ∀ z ∈ l, x < z → ∃ y ∈ l, x < y ∧ y - x ≤ dU := by
      intro l
      induction l with
      | nil => intro _ _ x hx; simp at hx
      | cons a l ih =>
        intro hp hc x hx z hz hxz
        rw [List.pairwise_cons] at hp
        have hzl : z ∈ l := by
          rcases List.mem_cons.mp hz with rfl | h
          · rcases List.mem_cons.mp hx with rfl | h
            · exact absurd hxz (lt_irrefl _)
            · exact absurd (hp.1 x h) (not_le.mpr hxz)
          · exact h
        cases l with
        | nil => simp at hzl
        | cons b l =>
          rw [List.isChain_cons_cons] at hc
          have hl : ∀ x ∈ b :: l, x < z → ∃ y ∈ a :: b :: l, x < y ∧ y - x ≤ dU := by
            intro x hx hxz
            obtain ⟨y, hy, h⟩ := ih hp.2 hc.2 x hx z hzl hxz
            exact ⟨y, List.mem_cons_of_mem _ hy, h⟩
          rcases List.mem_cons.mp hx with rfl | h
          · rcases (hp.1 b (by simp)).lt_or_eq with h | h
            · exact ⟨b, by simp, h, hc.1⟩
            · exact hl x (by simp [h]) hxz
          · exact hl x h hxz
    intro x hx hxl
    obtain ⟨y, hy, h⟩ := key V hsV (hchain.imp (fun _ _ h => h.1)) x ((hm x).mp hx) _
      (hUV _ (List.getLast_mem h0)) hxl
    exact ⟨y, (hm y).mpr hy, h⟩
  · intro w hw y hy hne
    exact hsep w ((hmW w).mp hw).1 y ((hm y).mp hy) (Ne.symm hne) (Or.inl ((hmW w).mp hw).2)
  · -- number
    have count : ∀ (l : List K) (c : K), l ≠ [] → l.Pairwise (fun x y => dU / 2 < y - x) →
        (∀ x ∈ l, dU / 2 < x - c) → (∀ x ∈ l, dU / 2 < U.getLast h0 - x) →
        (l.length + 1) * (dU / 2) < U.getLast h0 - c := by
      intro l
      induction l with
      | nil => intro c h; exact absurd rfl h
      | cons w l ih =>
        intro c _ hp h1 h2
        rw [List.pairwise_cons] at hp
        have hw1 := h1 w (by simp)
        have hw2 := h2 w (by simp)
        by_cases hl : l = []
        · subst hl
          simp only [List.length_cons, List.length_nil]
          push_cast
          linarith
        · have := ih w hl hp.2 hp.1 (fun x hx => h2 x (by simp [hx]))
          rw [List.length_cons]
          push_cast
          linarith
    by_cases hW0 : W = []
    · rw [hW0]; simp; omega
    · have hpw : W.Pairwise (fun x y => dU / 2 < y - x) := by
        have h1 : W.Pairwise (fun x y => x < y ∧ x ∈ W ∧ y ∈ W) :=
          hlt.imp_of_mem (fun hx hy h => ⟨h, hx, hy⟩)
        refine h1.imp (fun {x y} h => ?_)
        have := hsep y ((hmW y).mp h.2.2).1 x ((hmW x).mp h.2.1).1 h.1.ne' (Or.inl ((hmW y).mp h.2.2).2)
        rwa [abs_of_pos (sub_pos.mpr h.1)] at this
      have h1 : ∀ x ∈ W, dU / 2 < x - U.head h0 := fun x hx => by
        have hx' := hstrict x hx
        have := hsep x ((hmW x).mp hx).1 _ (hUV _ (List.head_mem h0)) hx'.2.1.ne' (Or.inl hx'.1)
        rwa [abs_of_pos (sub_pos.mpr hx'.2.1)] at this
      have h2 : ∀ x ∈ W, dU / 2 < U.getLast h0 - x := fun x hx => by
        have hx' := hstrict x hx
        have := hsep _ (hUV _ (List.getLast_mem h0)) x ((hmW x).mp hx).1 hx'.2.2.ne' (Or.inr hx'.1)
        rwa [abs_of_pos (sub_pos.mpr hx'.2.2)] at this
      have hc := count W (U.head h0) hW0 hpw h1 h2
      have e : U.getLast h0 - U.head h0 = 2 * n * (dU / 2) := by rw [hdU]; field_simp
      rw [e] at hc
      have hd : 0 ≤ dU / 2 := by linarith
      have := lt_of_mul_lt_mul_right hc hd
      exact_mod_cast this

/-- C95: with a negative number of spans the loop never ends, whatever the knots, unless they are all
equal. -/
theorem C95_negative {tol : K} (ht : 0 ≤ tol) {U : List K} (hs : U.Pairwise (· ≤ ·)) (h0 : U ≠ [])
    (hlt : U.head h0 < U.getLast h0) {n : ℤ} (hn : n < 0) (fuel : ℕ) :
    insertUniformly tol fuel U n = none := by
  obtain ⟨a, b, hab, hle⟩ : ∃ a b, [a, b] <:+: U ∧ a ≤ b := by
    rcases U with _ | ⟨a, _ | ⟨b, l⟩⟩
    · exact absurd rfl h0
    · simp at hlt
    · exact ⟨a, b, ⟨[], l, rfl⟩, (List.pairwise_cons.mp hs).1 b (by simp)⟩
  rw [insert_eq hs h0]
  set big : K → Prop := fun g => n ≠ 0 ∧ (U.getLast h0 - U.head h0) / (n : K) < g with hbig
  have hneg : (U.getLast h0 - U.head h0) / (n : K) < 0 :=
    div_neg_of_pos_of_neg (sub_pos.mpr hlt) (by exact_mod_cast hn)
  have hmids : ∀ r, mids big (grow (lev big r) U) ≠ [] := by
    intro r h
    rw [mids_grow] at h
    exact of_chain h hab
      ⟨hn.ne, lt_of_lt_of_le hneg (div_nonneg (sub_nonneg.mpr hle) (by positivity))⟩
  have : ∀ f r, loop tol big U f (grow (lev big r) U) = none := by
    intro f
    induction f with
    | zero => intro r; rfl
    | succ f ih => intro r; rw [loop_step big ht hs.isChain, if_neg (hmids r)]; exact ih (r + 1)
  have h := this fuel 0
  rw [grow_zero] at h
  rw [h]
  rfl

/-- C95: an empty array is refused, whatever the number of spans and the bound on the rounds. -/
theorem C95_empty (tol : K) (fuel : ℕ) (n : ℤ) : insertUniformly tol fuel [] n = some (.error .value) := rfl

/-- C95: with zero spans nothing is inserted. -/
theorem C95_zero {tol : K} (ht : 0 ≤ tol) {U : List K} (hs : U.Pairwise (· ≤ ·)) (h0 : U ≠ [])
    {fuel : ℕ} (hf : 0 < fuel) : insertUniformly tol fuel U 0 = some (.ok []) := by
  rw [insert_eq hs h0]
  set big : K → Prop := fun g => (0 : ℤ) ≠ 0 ∧ (U.getLast h0 - U.head h0) / ((0 : ℤ) : K) < g with hbig
  have hm : mids big (grow (lev big 0) U) = [] := by
    rw [mids_grow]
    exact chain_of (fun a b _ h => absurd rfl h.1)
  have hl := loop_ok big ht hs.isChain hm 0 0 rfl fuel hf
  rw [grow_zero] at hl
  rw [hl]
  rw [after, List.filter_eq_nil_iff.mpr]
  intro x hx
  rw [mem_npUnique] at hx
  simpa using hx

/-- C95: refining a clamped axis with the knots returned for its knot vector keeps the map and leaves
no knot span longer than `(hi - lo) / n`. -/
theorem C95_refine {d : ℕ} {tol eps : K} (ht : 0 ≤ tol) (heps : 0 < eps) (jk : ℤ → K)
    (je : ℤ → (Fin d → ℤ) → ℕ → K) {N : Nrb K (d + 1)} (hv : N.Valid) {axis : ℤ} {a : Fin (d + 1)}
    (ha : normAxis (d + 1) axis = .ok a) (hcl : N.U a 0 = N.lo a) (hcr : N.U a (N.len a - 1) = N.hi a)
    (hmul : ∀ x, ((mult (N.U a) 1 (N.len a - 2) x : ℕ) : ℤ) ≤ N.degree a)
    {n : ℕ} (hn : 1 ≤ n) (hsep : eps ≤ (N.hi a - N.lo a) / n / 2) :
    ∃ W N', (∀ fuel, Nat.clog 2 n < fuel →
        insertUniformly tol fuel (Nrb.slab (N.U a) 0 (N.len a - 1)) n = some (.ok W)) ∧
      N.refine eps jk je axis W = .ok N' ∧ N'.Valid ∧ N.SameMap N' ∧
      N'.knots a = N.knots a + (W : Multiset K) ∧ (∀ b, b ≠ a → N'.U b = N.U b) ∧
      ∀ x ∈ N'.knots a, x < N.hi a → ∃ y ∈ N'.knots a, x < y ∧ y - x ≤ (N.hi a - N.lo a) / n := by
  obtain ⟨p, hp, hk, e⟩ := deg_nat hv a
  have hlen : 0 < N.len a := by have := hk.le; have := hk.one_le; omega
  set U := Nrb.slab (N.U a) 0 (N.len a - 1) with hU
  have hl : U.length = (N.len a).toNat := by rw [hU, slab_zero_length]; congr 1; ring
  have h0 : U ≠ [] := by intro h; rw [h] at hl; simp at hl; omega
  have hs : U.Pairwise (· ≤ ·) := by
    rw [hU]
    unfold Nrb.slab
    rw [List.pairwise_map]
    refine List.pairwise_lt_range.imp_of_mem (fun {i j} hi hj h => ?_)
    rw [List.mem_range] at hi hj
    exact hk.sorted _ _ (by omega) (by omega) (by omega)
  have hhead : U.head h0 = N.lo a := by
    rw [← hcl, List.head_eq_getElem]
    simp [hU, Nrb.slab]
  have hlast : U.getLast h0 = N.hi a := by
    rw [← hcr, List.getLast_eq_getElem]
    simp only [hU, Nrb.slab, List.getElem_map, List.getElem_range, List.length_map, List.length_range]
    congr 1
    omega
  obtain ⟨W, hW, hlt, -⟩ := C95_insert ht hs h0 hn
  obtain ⟨s1, s2, s3, -⟩ := C95_spans ht hs h0 hn (Nat.lt_succ_self _) (hW _ (Nat.lt_succ_self _))
  rw [hhead, hlast] at s1 s3
  rw [hhead, hlast] at s2
  have hmem : ∀ x, x ∈ U ↔ x ∈ N.knots a := fun x => by
    unfold Nrb.knots
    rw [← Multiset.mem_coe, hU, slab_coe]
    rfl
  obtain ⟨N', r1, r2, r3, -, r5, r6⟩ := C09_refine heps jk je hv ha (values := W)
    (fun x hx => (s2 x hx).2.1) (fun x hx => (s2 x hx).2.2)
    (fun x hx j j1 j2 => by
      right
      have hj : N.U a j ∈ U := by rw [hU, mem_slab]; exact ⟨j, j1, j2, rfl⟩
      exact hsep.trans (s3 x hx _ (List.mem_append_left _ hj) (fun h => (s2 x hx).1 (h ▸ hj))).le)
    (fun x hx y hy => by
      by_cases h : x = y
      · exact Or.inl h
      · exact Or.inr (hsep.trans (s3 x hx y (List.mem_append_right _ hy) (Ne.symm h)).le))
    (fun x => by
      by_cases hx : x ∈ W
      · have hnd : W.Nodup := hlt.imp (fun h => h.ne)
        have h1 : W.count x = 1 := List.count_eq_one_of_mem hnd hx
        have h2 : mult (N.U a) 1 (N.len a - 2) x = 0 := by
          rw [← slab_count, List.count_eq_zero, mem_slab]
          rintro ⟨i, i1, i2, hi⟩
          exact (s2 x hx).1 (by rw [hU, mem_slab]; exact ⟨i, by omega, by omega, hi⟩)
        rw [h1, h2]
        have := hk.one_le
        omega
      · rw [List.count_eq_zero_of_not_mem hx, zero_add]
        exact hmul x)
  refine ⟨W, N', hW, r1, r2, r3, r5, r6, ?_⟩
  have hm' : ∀ x, x ∈ N'.knots a ↔ x ∈ U ++ W := fun x => by
    rw [r5, Multiset.mem_add, List.mem_append, hmem, Multiset.mem_coe]
  intro x hx hxl
  obtain ⟨y, hy, h⟩ := s1 x ((hm' x).mp hx) hxl
  exact ⟨y, (hm' y).mpr hy, h⟩

/-- C95, what the description promises and does not hold: for a knot vector with a single span the
function produces `2 ^ ⌈log₂ n⌉` equal spans, not `n`. -/
theorem C95_single {tol : K} (ht : 0 ≤ tol) {lo hi : K} (hlt : lo < hi) (p : ℕ) {n : ℕ} (hn : 1 ≤ n) :
    ∃ W, (∀ fuel, Nat.clog 2 n < fuel →
      insertUniformly tol fuel (List.replicate (p + 1) lo ++ List.replicate (p + 1) hi) n =
        some (.ok W)) ∧ W.Pairwise (· < ·) ∧
      ∀ w, w ∈ W ↔ ∃ j : ℕ, 0 < j ∧ j < 2 ^ Nat.clog 2 n ∧
        w = lo + j * ((hi - lo) / 2 ^ Nat.clog 2 n) := by
  have hs : (List.replicate (p + 1) lo ++ List.replicate (p + 1) hi).Pairwise (· ≤ ·) := by
    rw [List.pairwise_append]
    refine ⟨List.pairwise_replicate.mpr (Or.inr le_rfl), List.pairwise_replicate.mpr (Or.inr le_rfl), ?_⟩
    intro x hx y hy
    rw [List.eq_of_mem_replicate hx, List.eq_of_mem_replicate hy]
    exact hlt.le
  have h0 : List.replicate (p + 1) lo ++ List.replicate (p + 1) hi ≠ [] := by simp
  have ehead : (List.replicate (p + 1) lo ++ List.replicate (p + 1) hi).head h0 = lo := by
    simp [List.replicate_succ]
  have elast : (List.replicate (p + 1) lo ++ List.replicate (p + 1) hi).getLast h0 = hi := by
    simp
  obtain ⟨W, h1, h2, h3⟩ := C95_insert ht hs h0 hn
  have hnK : (0 : K) < n := by exact_mod_cast hn
  have hg : 0 < (hi - lo) / (n : K) := div_pos (sub_pos.mpr hlt) hnK
  have hkey : ∀ i : ℕ, 2 ^ i * ((hi - lo) / (n : K)) < hi - lo ↔ 2 ^ i < n := by
    intro i
    have e : hi - lo = n * ((hi - lo) / (n : K)) := by field_simp
    constructor
    · intro h
      have h' : 2 ^ i * ((hi - lo) / (n : K)) < n * ((hi - lo) / (n : K)) := by rw [← e]; exact h
      have := lt_of_mul_lt_mul_right h' hg.le
      exact_mod_cast this
    · intro h
      have h' : (2 : K) ^ i < n := by exact_mod_cast h
      have := mul_lt_mul_of_pos_right h' hg
      rw [← e] at this
      exact this
  refine ⟨W, h1, h2, fun w => (h3 w).trans ?_⟩
  rw [ehead, elast]
  constructor
  · rintro ⟨a, b, ⟨A, B, hab⟩, k, hk, j, j0, j1, hw⟩
    have hm : ∀ x, x ∈ List.replicate (p + 1) lo ++ List.replicate (p + 1) hi → x = lo ∨ x = hi := by
      intro x hx
      rcases List.mem_append.mp hx with h | h
      · exact Or.inl (List.eq_of_mem_replicate h)
      · exact Or.inr (List.eq_of_mem_replicate h)
    have hle : a ≤ b := of_chain hs.isChain (infix_iff.mpr ⟨A, B, hab⟩)
    have hne : b - a ≠ 0 := by
      intro h
      rcases Nat.eq_zero_or_pos k with hk0 | hk0
      · rw [hk0] at j1; simp at j1; omega
      · have := hk.2 0 hk0
        rw [h, pow_zero, one_mul] at this
        exact absurd this (not_lt.mpr hg.le)
    have : a = lo ∧ b = hi := by
      rcases hm a (by rw [hab]; simp) with ha | ha <;> rcases hm b (by rw [hab]; simp) with hb | hb
      · exact absurd (by rw [ha, hb, sub_self]) hne
      · exact ⟨ha, hb⟩
      · rw [ha, hb] at hle; exact absurd hlt (not_lt.mpr hle)
      · exact absurd (by rw [ha, hb, sub_self]) hne
    obtain ⟨rfl, rfl⟩ := this
    have e : k = Nat.clog 2 n := by
      apply le_antisymm
      · by_contra h
        have := (hkey _).mp (hk.2 _ (not_le.mp h))
        exact absurd (Nat.le_pow_clog (by norm_num) n) (not_le.mpr this)
      · rw [Nat.clog_le_iff_le_pow (by norm_num)]
        by_contra h
        exact absurd hk.1 (not_le.mpr ((hkey k).mpr (not_le.mp h)))
    subst e
    exact ⟨j, j0, j1, hw⟩
  · rintro ⟨j, j0, j1, hw⟩
    refine ⟨lo, hi, ⟨List.replicate p lo, List.replicate p hi, ?_⟩, Nat.clog 2 n, ⟨?_, ?_⟩, j, j0, j1, hw⟩
    · rw [List.replicate_succ', List.replicate_succ]
      simp
    · by_contra h
      exact absurd (Nat.le_pow_clog (by norm_num) n) (not_le.mpr ((hkey _).mp (not_le.mp h)))
    · intro i hi'
      rw [hkey]
      exact (Nat.lt_clog_iff_pow_lt (by norm_num)).mp hi'

/-! ## Concrete cases -/

namespace Ex

/-- knots with unequal spans and a double knot -/
def uneven : List ℚ := [0, 0, 0, 1, 1, 5, 8, 8, 8]

/-- the hypotheses of `C95_insert` hold and the result is not trivial: the bound is 1, so `[1, 5]` is
cut into four parts and `[5, 8]` into four as well -/
example : uneven.Pairwise (· ≤ ·) ∧ uneven ≠ [] ∧ insertUniformly (1 / 10 ^ 14 : ℚ) 4 uneven 8 =
    some (.ok [2, 3, 4, 23 / 4, 13 / 2, 29 / 4]) := by
  have hs : uneven.Pairwise (· ≤ ·) := by decide +kernel
  have h0 : uneven ≠ [] := by decide
  refine ⟨hs, h0, ?_⟩
  rw [insert_calc (by norm_num) hs h0 (big := fun g => 1 < g) (fun g => by norm_num [uneven]) 3
    (by decide +kernel) (by norm_num)]
  decide +kernel

/-- three spans asked for, four produced -/
example : insertUniformly (1 / 10 ^ 14 : ℚ) 5 [0, 0, 1, 1] 3 = some (.ok [1 / 4, 1 / 2, 3 / 4]) := by
  rw [insert_calc (by norm_num) (by decide +kernel) (by decide) (big := fun g => 1 / 3 < g)
    (fun g => by norm_num) 2 (by decide +kernel) (by norm_num)]
  decide +kernel

/-- a surface meeting the hypotheses of `C95_refine` -/
example := C95_refine (tol := 1 / 10 ^ 14) (eps := 1 / 1000) (by norm_num) (by norm_num) (fun _ => 7)
  (fun _ _ _ => 9) Ex.S_valid (axis := 0) (a := 0) rfl (by decide +kernel) (by decide +kernel)
  (fun x => by
    have := count_le_of_list (l := []) (U := Ex.S.U 0) (m := Ex.S.len 0 - 2) (p := Ex.S.degree 0)
      (by decide +kernel) (by decide +kernel) x
    simpa using this) (n := 7) (by norm_num) (by decide +kernel)

/-- the run with `n = -3` -/
example : insertUniformly (1 / 10 ^ 14 : ℚ) 1000 [0, 0, 1, 1] (-3) = none :=
  C95_negative (by norm_num) (by decide +kernel) (by decide) (by norm_num) (by norm_num) 1000

end Ex

end Igakit
