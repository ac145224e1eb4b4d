import Verif.Model.Uniform
import Verif.Props.Spans
import Mathlib.Data.List.Chain
import Mathlib.Data.List.TakeWhile
import Mathlib.Tactic.Ring
import Mathlib.Tactic.Linarith
import Mathlib.Tactic.FieldSimp

/-!
# Lemmas about the bisection of knot spans (`InsertUniformly`)
-/

namespace Igakit.Unif

variable {K : Type} [Field K] [LinearOrder K] [IsStrictOrderedRing K]

/-! ## Bisection as an insertion -/

/-- the knots with the middles in place -/
def ins (big : K → Prop) [DecidablePred big] : List K → List K
  | a :: b :: l =>
    if big (b - a) then a :: 1 / 2 * (b + a) :: ins big (b :: l) else a :: ins big (b :: l)
  | l => l

variable (big : K → Prop) [DecidablePred big]

theorem ins_cons (a : K) (l : List K) : ∃ R, ins big (a :: l) = a :: R := by
  cases l with
  | nil => exact ⟨[], rfl⟩
  | cons b l => unfold ins; split_ifs <;> exact ⟨_, rfl⟩

theorem ins_perm : ∀ l : List K, (l ++ mids big l).Perm (ins big l)
  | [] => by simp [mids, ins]
  | [a] => by simp [mids, ins]
  | a :: b :: l => by
    have ih := ins_perm (b :: l)
    unfold mids ins
    split_ifs
    · rw [List.cons_append]
      refine List.Perm.cons a ?_
      exact List.perm_middle.trans (List.Perm.cons _ ih)
    · rw [List.cons_append]
      exact List.Perm.cons a ih

theorem ins_sorted : ∀ {l : List K}, l.IsChain (· ≤ ·) → (ins big l).IsChain (· ≤ ·)
  | [], _ => by simp [ins]
  | [a], _ => by simp [ins]
  | a :: b :: l, h => by
    rw [List.isChain_cons_cons] at h
    have ih := ins_sorted h.2
    obtain ⟨R, hR⟩ := ins_cons big b l
    unfold ins
    rw [hR] at ih ⊢
    have h1 := h.1
    split_ifs
    · rw [List.isChain_cons_cons, List.isChain_cons_cons]
      exact ⟨by linarith, by linarith, ih⟩
    · rw [List.isChain_cons_cons]
      exact ⟨h1, ih⟩

theorem sort_mids {l : List K} (h : l.IsChain (· ≤ ·)) :
    (l ++ mids big l).mergeSort (fun x y => decide (x ≤ y)) = ins big l := by
  have h2 : (ins big l).Pairwise (· ≤ ·) := (ins_sorted big h).pairwise
  exact List.Perm.eq_of_pairwise (le := (· ≤ ·)) (fun _ _ _ _ => le_antisymm) (sort_pairwise _) h2
    ((sort_perm _).trans (ins_perm big l))

theorem ins_of_mids_nil : ∀ {l : List K}, mids big l = [] → ins big l = l
  | [], _ => rfl
  | [a], _ => rfl
  | a :: b :: l, h => by
    unfold mids at h
    split_ifs at h with hb
    unfold ins
    rw [if_neg hb, ins_of_mids_nil h]

theorem mids_nil_iff {l : List K} : mids big l = [] ↔ l.IsChain (fun a b => ¬ big (b - a)) := by
  induction l with
  | nil => simp [mids]
  | cons a l ih =>
    cases l with
    | nil => simp [mids]
    | cons b l =>
      rw [List.isChain_cons_cons, ← ih, mids]
      split_ifs with hb <;> simp [hb]

/-! ## Dyadic subdivision -/

/-- the inner points of the subdivision of `[a, b]` into `2^k` parts -/
def inner : ℕ → K → K → List K
  | 0, _, _ => []
  | k + 1, a, b => inner k a (1 / 2 * (b + a)) ++ 1 / 2 * (b + a) :: inner k (1 / 2 * (b + a)) b

/-- every span subdivided into `2^(κ length)` parts -/
def grow (κ : K → ℕ) : List K → List K
  | a :: b :: l => a :: (inner (κ (b - a)) a b ++ grow κ (b :: l))
  | l => l

/-- number of bisections of a span after `r` rounds -/
def lev : ℕ → K → ℕ
  | 0, _ => 0
  | r + 1, g => if big (g / 2 ^ lev r g) then lev r g + 1 else lev r g

theorem ins_inner (k : ℕ) : ∀ (a b : K) (R : List K),
    ins big (a :: (inner k a b ++ b :: R)) =
      if big ((b - a) / 2 ^ k) then a :: (inner (k + 1) a b ++ ins big (b :: R))
      else a :: (inner k a b ++ ins big (b :: R)) := by
  induction k with
  | zero => intro a b R; simp [inner, ins]
  | succ k ih =>
    intro a b R
    have e1 : (1 / 2 * (b + a) - a) / 2 ^ k = (b - a) / 2 ^ (k + 1) := by rw [pow_succ]; field_simp; ring
    have e2 : (b - 1 / 2 * (b + a)) / 2 ^ k = (b - a) / 2 ^ (k + 1) := by rw [pow_succ]; field_simp; ring
    have h1 := ih a (1 / 2 * (b + a)) (inner k (1 / 2 * (b + a)) b ++ b :: R)
    rw [e1, ih (1 / 2 * (b + a)) b R, e2] at h1
    have e : inner (k + 1) a b ++ b :: R =
        inner k a (1 / 2 * (b + a)) ++ 1 / 2 * (b + a) :: (inner k (1 / 2 * (b + a)) b ++ b :: R) := by
      simp [inner]
    rw [e, h1]
    split_ifs
    · rw [show inner (k + 1 + 1) a b = inner (k + 1) a (1 / 2 * (b + a)) ++
        1 / 2 * (b + a) :: inner (k + 1) (1 / 2 * (b + a)) b from rfl]
      simp
    · rw [show inner (k + 1) a b = inner k a (1 / 2 * (b + a)) ++
        1 / 2 * (b + a) :: inner k (1 / 2 * (b + a)) b from rfl]
      simp

theorem grow_cons (κ : K → ℕ) (a : K) (l : List K) : ∃ R, grow κ (a :: l) = a :: R := by
  cases l with
  | nil => exact ⟨[], rfl⟩
  | cons b l => exact ⟨_, rfl⟩

/-- one round of bisection -/
theorem ins_grow (r : ℕ) : ∀ l : List K, ins big (grow (lev big r) l) = grow (lev big (r + 1)) l
  | [] => rfl
  | [a] => rfl
  | a :: b :: l => by
    have ih := ins_grow r (b :: l)
    obtain ⟨R, hR⟩ := grow_cons (lev big r) b l
    rw [hR] at ih
    rw [show grow (lev big r) (a :: b :: l) =
        a :: (inner (lev big r (b - a)) a b ++ grow (lev big r) (b :: l)) from rfl, hR, ins_inner, ih,
      show grow (lev big (r + 1)) (a :: b :: l) =
        a :: (inner (lev big (r + 1) (b - a)) a b ++ grow (lev big (r + 1)) (b :: l)) from rfl,
      show lev big (r + 1) (b - a) = if big ((b - a) / 2 ^ lev big r (b - a))
        then lev big r (b - a) + 1 else lev big r (b - a) from rfl]
    split_ifs <;> rfl

theorem grow_zero : ∀ l : List K, grow (lev big 0) l = l
  | [] => rfl
  | [a] => rfl
  | a :: b :: l => by
    have ih := grow_zero (b :: l)
    unfold grow
    rw [ih]
    rfl

theorem grow_sorted (r : ℕ) {l : List K} (h : l.IsChain (· ≤ ·)) :
    (grow (lev big r) l).IsChain (· ≤ ·) := by
  induction r with
  | zero => rwa [grow_zero]
  | succ r ih => rw [← ins_grow]; exact ins_sorted big ih

/-- the points of the subdivision -/
theorem mem_inner (k : ℕ) : ∀ (a b w : K), w ∈ inner k a b ↔
    ∃ j : ℕ, 0 < j ∧ j < 2 ^ k ∧ w = a + j * ((b - a) / 2 ^ k) := by
  induction k with
  | zero =>
    intro a b w
    simp only [inner, List.not_mem_nil, false_iff]
    rintro ⟨j, h1, h2, _⟩
    simp at h2
    omega
  | succ k ih =>
    intro a b w
    have h2 : (2 : K) ^ k ≠ 0 := pow_ne_zero _ two_ne_zero
    have hk : 0 < 2 ^ k := pow_pos (by norm_num) k
    have e1 : (1 / 2 * (b + a) - a) / 2 ^ k = (b - a) / 2 ^ (k + 1) := by rw [pow_succ]; field_simp; ring
    have e2 : (b - 1 / 2 * (b + a)) / 2 ^ k = (b - a) / 2 ^ (k + 1) := by rw [pow_succ]; field_simp; ring
    have em : 1 / 2 * (b + a) = a + ((2 ^ k : ℕ) : K) * ((b - a) / 2 ^ (k + 1)) := by
      push_cast
      rw [pow_succ]; field_simp; ring
    have hp : 2 ^ (k + 1) = 2 ^ k + 2 ^ k := by rw [pow_succ]; ring
    simp only [inner, List.mem_append, List.mem_cons, ih, e1, e2]
    constructor
    · rintro (⟨j, h1, h3, h4⟩ | h | ⟨j, h1, h3, h4⟩)
      · exact ⟨j, h1, by omega, h4⟩
      · exact ⟨2 ^ k, hk, by omega, h.trans em⟩
      · refine ⟨2 ^ k + j, by omega, by omega, ?_⟩
        rw [h4, em]
        push_cast
        ring
    · rintro ⟨j, h1, h3, h4⟩
      rcases lt_trichotomy j (2 ^ k) with h | h | h
      · exact Or.inl ⟨j, h1, h, h4⟩
      · exact Or.inr (Or.inl (by rw [h4, h, em]))
      · refine Or.inr (Or.inr ⟨j - 2 ^ k, by omega, by omega, ?_⟩)
        rw [h4, em, Nat.cast_sub h.le]
        ring

theorem mem_grow (κ : K → ℕ) : ∀ (l : List K) (w : K), w ∈ grow κ l ↔
    w ∈ l ∨ ∃ a b, [a, b] <:+: l ∧ w ∈ inner (κ (b - a)) a b
  | [], w => by simp [grow]
  | [a], w => by
    simp only [grow, List.mem_singleton]
    constructor
    · exact Or.inl
    · rintro (h | ⟨x, y, h, _⟩)
      · exact h
      · have := h.length_le; simp at this
  | a :: b :: l, w => by
    have ih := mem_grow κ (b :: l) w
    unfold grow
    rw [List.mem_cons, List.mem_append, ih, List.mem_cons (a := w) (b := a)]
    constructor
    · rintro (h | h | h | ⟨x, y, h, h'⟩)
      · exact Or.inl (Or.inl h)
      · exact Or.inr ⟨a, b, ⟨[], l, rfl⟩, h⟩
      · exact Or.inl (Or.inr h)
      · exact Or.inr ⟨x, y, h.trans (List.suffix_cons a _).isInfix, h'⟩
    · rintro ((h | h) | ⟨x, y, h, h'⟩)
      · exact Or.inl h
      · exact Or.inr (Or.inr (Or.inl h))
      · rw [List.infix_cons_iff] at h
        rcases h with h | h
        · rw [List.cons_prefix_cons, List.cons_prefix_cons] at h
          obtain ⟨rfl, rfl, _⟩ := h
          exact Or.inr (Or.inl h')
        · exact Or.inr (Or.inr (Or.inr ⟨x, y, h, h'⟩))

theorem inner_chain (k : ℕ) : ∀ (a b : K),
    (a :: (inner k a b ++ [b])).IsChain (fun x y => y - x = (b - a) / 2 ^ k) := by
  induction k with
  | zero => intro a b; simp [inner]
  | succ k ih =>
    intro a b
    have e1 : (1 / 2 * (b + a) - a) / 2 ^ k = (b - a) / 2 ^ (k + 1) := by rw [pow_succ]; field_simp; ring
    have e2 : (b - 1 / 2 * (b + a)) / 2 ^ k = (b - a) / 2 ^ (k + 1) := by rw [pow_succ]; field_simp; ring
    have h1 := ih a (1 / 2 * (b + a))
    have h2 := ih (1 / 2 * (b + a)) b
    rw [e1] at h1
    rw [e2] at h2
    have := (List.isChain_split (R := fun x y => y - x = (b - a) / 2 ^ (k + 1)) (c := 1 / 2 * (b + a))
      (l₁ := a :: inner k a (1 / 2 * (b + a))) (l₂ := inner k (1 / 2 * (b + a)) b ++ [b])).mpr
      ⟨by simpa using h1, h2⟩
    simpa [inner] using this

/-- a relation between neighbours of the subdivided knots -/
theorem grow_chain {R : K → K → Prop} (κ : K → ℕ) : ∀ {l : List K},
    l.IsChain (fun a b => ∀ x y, y - x = (b - a) / 2 ^ κ (b - a) →
      (κ (b - a) = 0 → x = a ∧ y = b) → R x y) → (grow κ l).IsChain R
  | [], _ => by simp [grow]
  | [a], _ => by simp [grow]
  | a :: b :: l, h => by
    rw [List.isChain_cons_cons] at h
    have ih := grow_chain κ h.2
    obtain ⟨L, hL⟩ := grow_cons κ b l
    unfold grow
    rw [hL] at ih ⊢
    by_cases h0 : κ (b - a) = 0
    · rw [h0]
      simp only [inner, List.nil_append]
      rw [List.isChain_cons_cons]
      exact ⟨h.1 a b (by rw [h0]; simp) (fun _ => ⟨rfl, rfl⟩), ih⟩
    · rw [← List.cons_append, List.isChain_split]
      have hc := (inner_chain (κ (b - a)) a b).imp
        (fun x y hxy => h.1 x y hxy (fun h => absurd h h0))
      exact ⟨by simpa using hc, ih⟩

/-- no middle is missing exactly when no part of any span is too long -/
theorem mids_grow (κ : K → ℕ) : ∀ (l : List K),
    mids big (grow κ l) = [] ↔ l.IsChain (fun a b => ¬ big ((b - a) / 2 ^ κ (b - a))) := by
  intro l
  rw [mids_nil_iff]
  constructor
  · intro h
    induction l with
    | nil => simp
    | cons a l ih =>
      cases l with
      | nil => simp
      | cons b l =>
        obtain ⟨L, hL⟩ := grow_cons κ b l
        unfold grow at h
        rw [hL, ← List.cons_append, List.isChain_split] at h
        rw [hL] at ih
        rw [List.isChain_cons_cons]
        refine ⟨?_, ih h.2⟩
        have h1 := inner_chain (κ (b - a)) a b
        have h2 := h.1
        rw [List.cons_append] at h2
        obtain ⟨c, M, hM⟩ : ∃ c M, inner (κ (b - a)) a b ++ [b] = c :: M :=
          List.exists_cons_of_ne_nil (by simp)
        rw [hM, List.isChain_cons_cons] at h1 h2
        rw [← h1.1]
        exact h2.1
  · intro h
    exact grow_chain κ (h.imp (fun a b hab x y e _ => by rw [e]; exact hab))

/-! ## Smoothing does nothing -/

/-- every entry outside `U0` is half-way between its neighbours -/
def Mid (U0 : List K) (U : List K) : Prop :=
  ∀ i a x b, U[i]? = some a → U[i + 1]? = some x → U[i + 2]? = some b →
    x ∈ U0 ∨ 1 / 2 * (a + b) = x

theorem mid_cons {U0 : List K} {a x b : K} {l : List K} (h : x ∈ U0 ∨ 1 / 2 * (a + b) = x)
    (hl : Mid U0 (x :: b :: l)) : Mid U0 (a :: x :: b :: l) := by
  intro i a' x' b' h1 h2 h3
  cases i with
  | zero =>
    simp at h1 h2 h3
    subst h1 h2 h3
    exact h
  | succ i => exact hl i a' x' b' (by simpa using h1) (by simpa using h2) (by simpa using h3)

theorem mid_of_chain {U0 : List K} {h : K} {b : K} (hb : b ∈ U0) {R : List K} (hR : Mid U0 (b :: R)) :
    ∀ (L : List K) (a : K), (a :: (L ++ [b])).IsChain (fun x y => y - x = h) →
      Mid U0 (a :: (L ++ b :: R))
  | [], a, _ => by
    cases R with
    | nil =>
      intro i a x b h1 h2 h3
      simp at h3
    | cons c R => exact mid_cons (Or.inl hb) hR
  | x :: L, a, hc => by
    rw [List.cons_append, List.isChain_cons_cons] at hc
    have ih := mid_of_chain hb hR L x hc.2
    cases L with
    | nil =>
      refine mid_cons (Or.inr ?_) ih
      have := hc.2
      rw [List.nil_append, List.isChain_cons_cons] at this
      have h1 := this.1
      have h2 := hc.1
      linarith
    | cons y L =>
      refine mid_cons (Or.inr ?_) ih
      have := hc.2
      rw [List.cons_append, List.isChain_cons_cons] at this
      have h1 := this.1
      have h2 := hc.1
      linarith

theorem mid_grow {U0 : List K} (κ : K → ℕ) : ∀ {l : List K}, (∀ x ∈ l, x ∈ U0) → Mid U0 (grow κ l)
  | [], _ => by intro i a x b h; simp [grow] at h
  | [a], _ => by intro i a x b h1 h2; simp [grow] at h2
  | a :: b :: l, h => by
    have ih := mid_grow κ (l := b :: l) (fun x hx => h x (List.mem_cons_of_mem _ hx))
    obtain ⟨R, hR⟩ := grow_cons κ b l
    unfold grow
    rw [hR] at ih ⊢
    exact mid_of_chain (h b (by simp)) ih _ a (inner_chain _ a b)

theorem searchsorted_lt {U0 : List K} {v : K} (h : ∃ u ∈ U0, v ≤ u) :
    searchsorted U0 v < U0.length := by
  obtain ⟨u, hu, hv⟩ := h
  unfold searchsorted
  refine lt_of_le_of_ne (List.takeWhile_prefix _).length_le ?_
  intro he
  have := (List.takeWhile_prefix (l := U0) (fun x => decide (x < v))).eq_of_length he
  rw [← this] at hu
  have := List.mem_takeWhile_imp hu
  simp at this
  exact absurd hv (not_le.mpr this)

theorem searchsorted_self {U0 : List K} (hs : U0.Pairwise (· ≤ ·)) {v : K} (h : v ∈ U0) :
    U0[searchsorted U0 v]? = some v := by
  unfold searchsorted
  induction U0 with
  | nil => simp at h
  | cons a l ih =>
    rw [List.pairwise_cons] at hs
    by_cases ha : a < v
    · rw [List.takeWhile_cons_of_pos (by simpa using ha)]
      have : v ∈ l := by
        rcases List.mem_cons.mp h with h | h
        · exact absurd h.symm ha.ne
        · exact h
      simpa using ih hs.2 this
    · rw [List.takeWhile_cons_of_neg (by simpa using ha)]
      rcases List.mem_cons.mp h with h | h
      · simp [h]
      · have := hs.1 v h
        simp [le_antisymm this (not_lt.mp ha)]

theorem smoothAt_id {tol : K} (ht : 0 ≤ tol) {U0 U : List K} (hs : U0.Pairwise (· ≤ ·))
    (hM : Mid U0 U) (hb : ∀ x ∈ U, ∃ u ∈ U0, x ≤ u) {i : ℕ} (hi : i + 2 < U.length) :
    smoothAt tol U0 U i = .ok U := by
  unfold smoothAt
  have e0 : U[i]? = some U[i] := List.getElem?_eq_getElem (by omega)
  have e1 : U[i + 1]? = some U[i + 1] := List.getElem?_eq_getElem (by omega)
  have e2 : U[i + 2]? = some U[i + 2] := List.getElem?_eq_getElem (by omega)
  rw [e0, e1, e2]
  dsimp only
  have hx := hM i _ _ _ e0 e1 e2
  rcases hx with hx | hx
  · rw [searchsorted_self hs hx]
    dsimp only
    rw [sub_self, abs_zero, if_neg (not_lt.mpr ht)]
  · rw [List.getElem?_eq_getElem (searchsorted_lt (hb _ (List.getElem_mem _)))]
    dsimp only
    rw [hx, List.set_getElem_self]
    split_ifs <;> rfl

theorem foldlM_id {α β : Type} (f : α → β → Res α) (a : α) : ∀ l : List β,
    (∀ x ∈ l, f a x = .ok a) → l.foldlM f a = .ok a
  | [], _ => rfl
  | x :: l, h => by
    rw [List.foldlM_cons, h x (by simp)]
    exact foldlM_id f a l (fun y hy => h y (by simp [hy]))

theorem smooth_id {tol : K} (ht : 0 ≤ tol) {U0 U : List K} (hs : U0.Pairwise (· ≤ ·))
    (hM : Mid U0 U) (hb : ∀ x ∈ U, ∃ u ∈ U0, x ≤ u) : smooth tol U0 U = .ok U := by
  unfold smooth
  refine foldlM_id _ _ _ (fun _ _ => ?_)
  unfold smoothPass
  refine foldlM_id _ _ _ (fun i hi => ?_)
  rw [List.mem_range] at hi
  exact smoothAt_id ht hs hM hb (by omega)

/-! ## The loop -/

theorem grow_ub (κ : K → ℕ) {U0 : List K} (hs : (grow κ U0).IsChain (· ≤ ·)) :
    ∀ x ∈ grow κ U0, ∃ u ∈ U0, x ≤ u := by
  have key : ∀ l : List K, l ≠ [] → ∃ u ∈ l, (grow κ l).getLast? = some u := by
    intro l
    induction l with
    | nil => intro h; exact absurd rfl h
    | cons a l ih =>
      intro _
      cases l with
      | nil => exact ⟨a, by simp, rfl⟩
      | cons b l =>
        obtain ⟨u, hu, h⟩ := ih (by simp)
        refine ⟨u, List.mem_cons_of_mem _ hu, ?_⟩
        obtain ⟨R, hR⟩ := grow_cons κ b l
        unfold grow
        rw [hR] at h ⊢
        rw [← List.cons_append, List.getLast?_append, h]
        rfl
  intro x hx
  have hne : U0 ≠ [] := by rintro rfl; simp [grow] at hx
  obtain ⟨u, hu, h⟩ := key U0 hne
  refine ⟨u, hu, ?_⟩
  have hp : (grow κ U0).Pairwise (· ≤ ·) := hs.pairwise
  obtain ⟨ys, hy⟩ := List.getLast?_eq_some_iff.mp h
  rw [hy] at hx hp
  rw [List.pairwise_append] at hp
  rcases List.mem_append.mp hx with hx | hx
  · exact hp.2.2 x hx u (by simp)
  · simp at hx; exact hx.le

theorem smooth_grow {tol : K} (ht : 0 ≤ tol) {U0 : List K} (hs : U0.IsChain (· ≤ ·)) (r : ℕ) :
    smooth tol U0 (grow (lev big r) U0) = .ok (grow (lev big r) U0) :=
  smooth_id ht hs.pairwise (mid_grow _ (fun _ h => h)) (grow_ub _ (grow_sorted big r hs))

/-- one round -/
theorem loop_step {tol : K} (ht : 0 ≤ tol) {U0 : List K} (hs : U0.IsChain (· ≤ ·)) (r f : ℕ) :
    loop tol big U0 (f + 1) (grow (lev big r) U0) =
      if mids big (grow (lev big r) U0) = [] then some (.ok (grow (lev big r) U0))
      else loop tol big U0 f (grow (lev big (r + 1)) U0) := by
  rw [loop]
  by_cases h : mids big (grow (lev big r) U0) = []
  · have h0 : ¬ 0 < (mids big (grow (lev big r) U0)).length := by simp [h]
    rw [if_neg h0, if_pos h, smooth_grow big ht hs]
    dsimp only
    rw [if_neg h0]
  · have h0 : 0 < (mids big (grow (lev big r) U0)).length := List.length_pos_iff.mpr h
    rw [if_pos h0, if_neg h, sort_mids big (grow_sorted big r hs), ins_grow, smooth_grow big ht hs]
    dsimp only
    rw [if_pos h0]

theorem loop_ok {tol : K} (ht : 0 ≤ tol) {U0 : List K} (hs : U0.IsChain (· ≤ ·)) {m : ℕ}
    (hm : mids big (grow (lev big m) U0) = []) : ∀ (s r : ℕ), s + r = m → ∀ f, s < f →
      loop tol big U0 f (grow (lev big r) U0) = some (.ok (grow (lev big m) U0)) := by
  intro s
  induction s with
  | zero =>
    intro r hr f hf
    obtain ⟨f, rfl⟩ : ∃ g, f = g + 1 := ⟨f - 1, by omega⟩
    have : r = m := by omega
    subst this
    rw [loop_step big ht hs, if_pos hm]
  | succ s ih =>
    intro r hr f hf
    obtain ⟨f, rfl⟩ : ∃ g, f = g + 1 := ⟨f - 1, by omega⟩
    rw [loop_step big ht hs]
    split_ifs with h
    · have : ∀ t, grow (lev big (r + t)) U0 = grow (lev big r) U0 := by
        intro t
        induction t with
        | zero => rfl
        | succ t it => rw [← add_assoc, ← ins_grow, it, ins_of_mids_nil big h]
      rw [← this (s + 1), show r + (s + 1) = m by omega]
    · exact ih (r + 1) (by omega) f (by omega)

end Igakit.Unif
