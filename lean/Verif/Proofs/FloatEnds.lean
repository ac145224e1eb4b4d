import Verif.Proofs.FloatEval
import Verif.Proofs.FloatTrack

/-!
# Basis functions at clamped ends in floating point
-/

set_option linter.unusedSectionVars false

namespace Igakit
open Spec

variable {K : Type} [Field K] [LinearOrder K] [IsStrictOrderedRing K]

/-- zero or one -/
def pickAt (e r : ℤ) : K := if r = e then 1 else 0

theorem pickAt_same (e : ℤ) : (pickAt e e : K) = 1 := if_pos rfl
theorem pickAt_ne {e r : ℤ} (h : r ≠ e) : (pickAt e r : K) = 0 := if_neg h

namespace Fp

variable {rd : K → K} (hz : rd 0 = 0) (hone : rd 1 = 1)
include hz hone

/-- the inner loop at a left end -/
theorem basisInner_left {left right : ℤ → Fp K} {j : ℤ} (hj : 1 ≤ j) {R : ℤ → K} (hL : ∀ i, 1 ≤ i → i ≤ j → left i = some 0)
    (hR : ∀ i, 1 ≤ i → i ≤ j → right i = some (R i)) (hR0 : ∀ i, 1 ≤ i → i ≤ j → R i ≠ 0) (hRf : ∀ i, 1 ≤ i → i ≤ j → rd (R i) = R i)
    (hx : rd (R 1 * rd (1 / R 1)) = 1) {N : ℤ → Fp K} (hN : ∀ r, 0 ≤ r → r < j → N r = some (pickAt 0 r)) :
    (∀ r, 0 ≤ r → r < j → (basisInner rd left right j N).1 r = some (pickAt 0 r)) ∧ (basisInner rd left right j N).2 = some 0 := by
  have key := forUp_inv (fun _ (s : (ℤ → Fp K) × Fp K) => (∀ r, 0 ≤ r → r < j → s.1 r = some (pickAt 0 r)) ∧ s.2 = some 0)
    (lo := 0) (hi := j - 1) (s := (N, some 0))
    (f := fun r (s : (ℤ → Fp K) × Fp K) =>
      let temp := div rd (s.1 r) (add rd (right (r + 1)) (left (j - r)))
      (upd s.1 r (add rd s.2 (mul rd (right (r + 1)) temp)), mul rd (left (j - r)) temp)) (by omega) ⟨hN, rfl⟩ ?_
  · exact key
  · rintro i s a b ⟨k1, k2⟩
    have e1 := hR (i + 1) (by omega) (by omega)
    have e2 := hL (j - i) (by omega) (by omega)
    have e3 : div rd (s.1 i) (add rd (right (i + 1)) (left (j - i))) = some (rd (pickAt 0 i / R (i + 1))) := by
      rw [e1, e2, k1 i a (by omega)]
      show (if rd (R (i + 1) + 0) = 0 then none else some (rd (pickAt 0 i / rd (R (i + 1) + 0)))) = _
      rw [add_zero, hRf _ (by omega) (by omega), if_neg (hR0 _ (by omega) (by omega))]
    dsimp only
    rw [e3, e1, e2, k2]
    refine ⟨fun r r0 r1 => ?_, ?_⟩
    · by_cases hri : r = i
      · rw [upd_eq _ _ hri, hri]
        show some (rd (0 + rd (R (i + 1) * rd (pickAt 0 i / R (i + 1))))) = _
        by_cases hi : i = 0
        · rw [hi, pickAt_same, zero_add, zero_add, hx, hone]
        · rw [pickAt_ne hi, zero_div, hz, mul_zero, hz, zero_add, hz]
      · rw [upd_ne _ _ hri]
        exact k1 r r0 r1
    · show some (rd (0 * rd (pickAt 0 i / R (i + 1)))) = _
      rw [zero_mul, hz]

/-- the inner loop at a right end -/
theorem basisInner_right {left right : ℤ → Fp K} {j : ℤ} (hj : 1 ≤ j) {L : ℤ → K} (hL : ∀ i, 1 ≤ i → i ≤ j → left i = some (L i))
    (hR : ∀ i, 1 ≤ i → i ≤ j → right i = some 0) (hL0 : ∀ i, 1 ≤ i → i ≤ j → L i ≠ 0) (hLf : ∀ i, 1 ≤ i → i ≤ j → rd (L i) = L i)
    (hx : rd (L 1 * rd (1 / L 1)) = 1) {N : ℤ → Fp K} (hN : ∀ r, 0 ≤ r → r < j → N r = some (pickAt (j - 1) r)) :
    (∀ r, 0 ≤ r → r < j → (basisInner rd left right j N).1 r = some 0) ∧ (basisInner rd left right j N).2 = some 1 := by
  have key := forUp_inv (fun i (s : (ℤ → Fp K) × Fp K) => (∀ r, 0 ≤ r → r < i → s.1 r = some 0) ∧
      (∀ r, i ≤ r → r < j → s.1 r = some (pickAt (j - 1) r)) ∧ s.2 = some (pickAt j i))
    (lo := 0) (hi := j - 1) (s := (N, some 0))
    (f := fun r (s : (ℤ → Fp K) × Fp K) =>
      let temp := div rd (s.1 r) (add rd (right (r + 1)) (left (j - r)))
      (upd s.1 r (add rd s.2 (mul rd (right (r + 1)) temp)), mul rd (left (j - r)) temp)) (by omega)
    ⟨fun r a b => by omega, fun r a b => hN r a b, by rw [pickAt_ne (by omega)]⟩ ?_
  · obtain ⟨k1, -, k3⟩ := key
    rw [show j - 1 + 1 = j by ring, pickAt_same] at k3
    exact ⟨fun r a b => k1 r a (by omega), k3⟩
  · rintro i s a b ⟨k1, k2, k3⟩
    have e1 := hR (i + 1) (by omega) (by omega)
    have e2 := hL (j - i) (by omega) (by omega)
    have e3 : div rd (s.1 i) (add rd (right (i + 1)) (left (j - i))) = some (rd (pickAt (j - 1) i / L (j - i))) := by
      rw [e1, e2, k2 i le_rfl (by omega)]
      show (if rd (0 + L (j - i)) = 0 then none else some (rd (pickAt (j - 1) i / rd (0 + L (j - i))))) = _
      rw [zero_add, hLf _ (by omega) (by omega), if_neg (hL0 _ (by omega) (by omega))]
    dsimp only
    rw [e3, e1, e2, k3, pickAt_ne (by omega : i ≠ j)]
    refine ⟨fun r r0 r1 => ?_, fun r r0 r1 => ?_, ?_⟩
    · by_cases hri : r = i
      · rw [upd_eq _ _ hri]
        show some (rd (0 + rd (0 * rd (pickAt (j - 1) i / L (j - i))))) = _
        rw [zero_mul, hz, zero_add, hz]
      · rw [upd_ne _ _ hri]
        exact k1 r r0 (by omega)
    · rw [upd_ne _ _ (by omega)]
      exact k2 r (by omega) r1
    · show some (rd (L (j - i) * rd (pickAt (j - 1) i / L (j - i)))) = _
      by_cases hi : i = j - 1
      · rw [hi, pickAt_same, show j - (j - 1) = 1 by ring, show j - 1 + 1 = j by ring, pickAt_same, hx]
      · rw [pickAt_ne hi, zero_div, hz, mul_zero, hz, pickAt_ne (by omega)]

/-- the basis functions at a clamped left end -/
theorem basisFuns_left (h0 : ∀ x, x ≠ 0 → rd x ≠ 0) (hid : ∀ x, rd (rd x) = rd x) (jk : ℤ → Fp K) {k : ℤ} {u : K} {p : ℕ} {U : ℤ → K}
    (hl : ∀ j : ℤ, 1 ≤ j → j ≤ p → U (k + 1 - j) = u) (hr : ∀ j : ℤ, 1 ≤ j → j ≤ p → U (k + j) ≠ u)
    (hx : rd (rd (U (k + 1) - u) * rd (1 / rd (U (k + 1) - u))) = 1) :
    ∀ r : ℤ, 0 ≤ r → r ≤ p → basisFuns rd jk k u p U r = some (pickAt 0 r) := by
  have key := forUp_inv (fun j (s : BasisSt K) => (∀ r, 0 ≤ r → r < j → s.N r = some (pickAt 0 r)) ∧
      (∀ i, 1 ≤ i → i < j → s.left i = some 0) ∧ (∀ i, 1 ≤ i → i < j → s.right i = some (rd (U (k + i) - u))))
    (lo := 1) (hi := (p : ℤ)) (s := { N := upd jk 0 (some 1), left := jk, right := jk }) (f := basisOuter rd k u U) (by omega)
    ⟨fun r a b => by
      obtain rfl : r = 0 := by omega
      dsimp only
      rw [upd_same, pickAt_same], fun i a b => by omega, fun i a b => by omega⟩ ?_
  · intro r a b
    exact key.1 r a (by omega)
  · rintro j s a b ⟨k1, k2, k3⟩
    have hL : ∀ i, 1 ≤ i → i < j + 1 → upd s.left j (sub rd (some u) (some (U (k + 1 - j)))) i = some 0 := fun i i1 i2 => by
      by_cases e : i = j
      · rw [upd_eq _ _ e]
        show some (rd (u - U (k + 1 - j))) = _
        rw [hl j a b, sub_self, hz]
      · rw [upd_ne _ _ e]
        exact k2 i i1 (by omega)
    have hR : ∀ i, 1 ≤ i → i < j + 1 → upd s.right j (sub rd (some (U (k + j))) (some u)) i = some (rd (U (k + i) - u)) :=
      fun i i1 i2 => by
        by_cases e : i = j
        · rw [upd_eq _ _ e, e]
          rfl
        · rw [upd_ne _ _ e]
          exact k3 i i1 (by omega)
    obtain ⟨q1, q2⟩ := basisInner_left hz hone a (R := fun i => rd (U (k + i) - u)) (fun i i1 i2 => hL i i1 (by omega))
      (fun i i1 i2 => hR i i1 (by omega)) (fun i i1 i2 => h0 _ (sub_ne_zero.2 (hr i i1 (by omega)))) (fun i _ _ => hid _) hx k1
    refine ⟨fun r r0 r1 => ?_, hL, hR⟩
    show upd _ j _ r = _
    by_cases e : r = j
    · rw [upd_eq _ _ e, e, pickAt_ne (by omega)]
      exact q2
    · rw [upd_ne _ _ e]
      exact q1 r r0 (by omega)

/-- the basis functions at a clamped right end -/
theorem basisFuns_right (h0 : ∀ x, x ≠ 0 → rd x ≠ 0) (hid : ∀ x, rd (rd x) = rd x) (jk : ℤ → Fp K) {k : ℤ} {u : K} {p : ℕ} {U : ℤ → K}
    (hl : ∀ j : ℤ, 1 ≤ j → j ≤ p → U (k + 1 - j) ≠ u) (hr : ∀ j : ℤ, 1 ≤ j → j ≤ p → U (k + j) = u)
    (hx : rd (rd (u - U k) * rd (1 / rd (u - U k))) = 1) :
    ∀ r : ℤ, 0 ≤ r → r ≤ p → basisFuns rd jk k u p U r = some (pickAt p r) := by
  have key := forUp_inv (fun j (s : BasisSt K) => (∀ r, 0 ≤ r → r < j → s.N r = some (pickAt (j - 1) r)) ∧
      (∀ i, 1 ≤ i → i < j → s.left i = some (rd (u - U (k + 1 - i)))) ∧ (∀ i, 1 ≤ i → i < j → s.right i = some 0))
    (lo := 1) (hi := (p : ℤ)) (s := { N := upd jk 0 (some 1), left := jk, right := jk }) (f := basisOuter rd k u U) (by omega)
    ⟨fun r a b => by
      obtain rfl : r = 0 := by omega
      dsimp only
      rw [upd_same, show (1 : ℤ) - 1 = 0 by norm_num, pickAt_same], fun i a b => by omega, fun i a b => by omega⟩ ?_
  · intro r a b
    have := key.1 r a (by omega)
    rwa [add_sub_cancel_right] at this
  · rintro j s a b ⟨k1, k2, k3⟩
    have hL : ∀ i, 1 ≤ i → i < j + 1 → upd s.left j (sub rd (some u) (some (U (k + 1 - j)))) i = some (rd (u - U (k + 1 - i))) :=
      fun i i1 i2 => by
        by_cases e : i = j
        · rw [upd_eq _ _ e, e]
          rfl
        · rw [upd_ne _ _ e]
          exact k2 i i1 (by omega)
    have hR : ∀ i, 1 ≤ i → i < j + 1 → upd s.right j (sub rd (some (U (k + j))) (some u)) i = some 0 := fun i i1 i2 => by
      by_cases e : i = j
      · rw [upd_eq _ _ e]
        show some (rd (U (k + j) - u)) = _
        rw [hr j a b, sub_self, hz]
      · rw [upd_ne _ _ e]
        exact k3 i i1 (by omega)
    obtain ⟨q1, q2⟩ := basisInner_right hz hone a (L := fun i => rd (u - U (k + 1 - i))) (fun i i1 i2 => hL i i1 (by omega))
      (fun i i1 i2 => hR i i1 (by omega)) (fun i i1 i2 => h0 _ (sub_ne_zero.2 (hl i i1 (by omega)).symm)) (fun i _ _ => hid _)
      (by simpa using hx) k1
    refine ⟨fun r r0 r1 => ?_, hL, hR⟩
    show upd _ j _ r = _
    rw [add_sub_cancel_right]
    by_cases e : r = j
    · rw [upd_eq _ _ e, e, pickAt_same]
      exact q2
    · rw [upd_ne _ _ e, pickAt_ne e]
      exact q1 r r0 (by omega)

omit hz hone [IsStrictOrderedRing K] [Field K] [LinearOrder K] in
/-- a loop in which one pass matters -/
theorem forUp_pick {σ : Type} {f : ℤ → σ → σ} {lo hi e : ℤ} (I J : σ → Prop) (h1 : lo ≤ e) (h2 : e ≤ hi)
    (hI : ∀ i s, lo ≤ i → i ≤ hi → i ≠ e → I s → I (f i s)) (he : ∀ s, I s → J (f e s))
    (hJ : ∀ i s, lo ≤ i → i ≤ hi → i ≠ e → J s → J (f i s)) {s : σ} (hs : I s) : J (forUp lo hi f s) := by
  have := forUp_inv (fun i s => (i ≤ e → I s) ∧ (e < i → J s)) (lo := lo) (hi := hi) (f := f) (s := s) (by omega)
    ⟨fun _ => hs, fun h => by omega⟩ (fun i s a b h => ⟨fun c => hI i s a b (by omega) (h.1 (by omega)), fun c => by
      by_cases hie : i = e
      · rw [hie]
        exact he s (h.1 (by omega))
      · exact hJ i s a b hie (h.2 (by omega))⟩)
  exact this.2 (by omega)

omit hz hone [IsStrictOrderedRing K] [Field K] [LinearOrder K] in
theorem forUp_keep {σ : Type} {f : ℤ → σ → σ} {lo hi : ℤ} (I : σ → Prop) (h : lo ≤ hi + 1)
    (hI : ∀ i s, lo ≤ i → i ≤ hi → I s → I (f i s)) {s : σ} (hs : I s) : I (forUp lo hi f s) :=
  forUp_inv (fun _ s => I s) h hs (fun i s a b h => hI i s a b h)

omit hone in
theorem accum_zero {P : ℕ → K} {C : ℕ → Fp K} {c : ℕ} {y : K} (hC : C c = some y) (hy : rd y = y) : accum rd (some 0) P C c = some y := by
  unfold accum
  rw [hC]
  show some (rd (y + rd (0 * P c))) = _
  rw [zero_mul, hz, add_zero, hy]

omit hz hone in
theorem accum_one {P : ℕ → K} {C : ℕ → Fp K} {c : ℕ} (hC : C c = some 0) (hP : rd (P c) = P c) : accum rd (some 1) P C c = some (P c) := by
  unfold accum
  rw [hC]
  show some (rd (0 + rd (1 * P c))) = _
  rw [one_mul, zero_add, hP, hP]

theorem mul_pick (a b : K) (ha : a = 0 ∨ a = 1) (hb : b = 0 ∨ b = 1) : mul rd (some a) (some b) = some (a * b) := by
  show some (rd (a * b)) = _
  rcases ha with rfl | rfl <;> rcases hb with rfl | rfl <;> simp [hz, hone]

omit hz hone in
theorem pickAt_cases (e r : ℤ) : (pickAt e r : K) = 0 ∨ (pickAt e r : K) = 1 := by
  unfold pickAt
  split_ifs
  · exact Or.inr rfl
  · exact Or.inl rfl

/-- what the basis functions of an axis do at `u`: they pick control point `j` -/
structure Picks (rd : K → K) (jk : ℤ → Fp K) (n p : ℤ) (U : ℤ → K) (u : K) (j : ℤ) : Prop where
  lower : 0 ≤ j - findSpan n p u U + p
  upper : j ≤ findSpan n p u U
  pick : ∀ r, 0 ≤ r → r ≤ p → basisFuns rd jk (findSpan n p u U) u p U r = some (pickAt (j - findSpan n p u U + p) r)

theorem evaluate1_pick (jk : ℤ → Fp K) (je : ℤ → ℕ → Fp K) {n p : ℤ} {U : ℤ → K} {P : ℤ → ℕ → K} {r : ℤ} {X : ℤ → K} {i j : ℤ} {c : ℕ}
    (hi : 0 ≤ i ∧ i ≤ r) (h : Picks rd jk n p U (X i) j) (hP : rd (P j c) = P j c) :
    evaluate1 rd jk je n p U P r X i c = some (P j c) := by
  unfold evaluate1
  simp only
  rw [Igakit.forUp_fill (fun i => forUp 0 (p : ℤ) (fun j C => accum rd (basisFuns rd jk (findSpan n p (X i) U) (X i) p U j)
    (P (findSpan n p (X i) U - p + j)) C) (fun _ => some 0)), if_pos hi]
  have h1 := h.lower
  have h2 := h.upper
  have h3 := h.pick
  generalize findSpan n p (X i) U = s at *
  refine forUp_pick (lo := 0) (hi := p) (e := j - s + p) (fun C : ℕ → Fp K => C c = some 0) (fun C : ℕ → Fp K => C c = some (P j c)) h1 (by omega) (fun q C a b ne hC => ?_)
    (fun C hC => ?_) (fun q C a b ne hC => ?_) rfl
  · rw [h3 q a b, pickAt_ne ne]
    exact accum_zero hz hC hz
  · rw [h3 _ h1 (by omega), pickAt_same, show s - p + (j - s + p) = j by ring]
    exact accum_one hC hP
  · rw [h3 q a b, pickAt_ne ne]
    exact accum_zero hz hC hP

theorem evaluate2_pick (jk : ℤ → Fp K) (je : ℤ → ℤ → ℕ → Fp K) {nx px ny py : ℤ} {Ux Uy : ℤ → K} {P : ℤ → ℤ → ℕ → K} {rx ry : ℤ}
    {X Y : ℤ → K} {ix iy jx jy : ℤ} {c : ℕ} (hix : 0 ≤ ix ∧ ix ≤ rx) (hiy : 0 ≤ iy ∧ iy ≤ ry) (hx : Picks rd jk nx px Ux (X ix) jx)
    (hy : Picks rd jk ny py Uy (Y iy) jy) (hP : rd (P jx jy c) = P jx jy c) :
    evaluate2 rd jk je nx px Ux ny py Uy P rx X ry Y ix iy c = some (P jx jy c) := by
  obtain ⟨c1, c2⟩ := axisTables_spec (rd := rd) jk nx px Ux rx X ix hix.1 hix.2
  obtain ⟨d1, d2⟩ := axisTables_spec (rd := rd) jk ny py Uy ry Y iy hiy.1 hiy.2
  unfold evaluate2
  simp only
  rw [Igakit.forUp_fill2 (fun ix iy => forUp 0 (px : ℤ) (fun jx C => forUp 0 (py : ℤ) (fun jy C =>
      accum rd (mul rd ((axisTables rd jk nx px Ux rx X).2 ix jx) ((axisTables rd jk ny py Uy ry Y).2 iy jy))
      (P ((axisTables rd jk nx px Ux rx X).1 ix - px + jx)
        ((axisTables rd jk ny py Uy ry Y).1 iy - py + jy)) C) C) (fun _ => some 0)) rx ry je ix iy hix hiy, c1, c2, d1, d2]
  obtain ⟨x1, x2, x3⟩ := hx
  obtain ⟨y1, y2, y3⟩ := hy
  generalize findSpan nx px (X ix) Ux = sx at *
  generalize findSpan ny py (Y iy) Uy = sy at *
  have off : ∀ y, rd y = y → ∀ q C, 0 ≤ q → q ≤ px → q ≠ jx - sx + px → C c = some y →
      (forUp 0 (py : ℤ) (fun jy C => accum rd (mul rd (basisFuns rd jk sx (X ix) px Ux q) (basisFuns rd jk sy (Y iy) py Uy jy))
      (P (sx - px + q) (sy - py + jy)) C) C) c = some y := by
    intro y hy q C a b ne hC
    refine forUp_keep (lo := 0) (hi := py) (fun C : ℕ → Fp K => C c = some y) (by omega) (fun l C a' b' hC => ?_) hC
    rw [x3 q a b, pickAt_ne ne, y3 l a' b', mul_pick hz hone _ _ (Or.inl rfl) (pickAt_cases _ _), zero_mul]
    exact accum_zero hz hC hy
  refine forUp_pick (lo := 0) (hi := px) (e := jx - sx + px) (fun C : ℕ → Fp K => C c = some 0) (fun C : ℕ → Fp K => C c = some (P jx jy c)) x1 (by omega)
    (fun q C a b ne hC => off 0 hz q C a b ne hC) (fun C hC => ?_) (fun q C a b ne hC => off _ hP q C a b ne hC) rfl
  refine forUp_pick (lo := 0) (hi := py) (e := jy - sy + py) (fun C : ℕ → Fp K => C c = some 0) (fun C : ℕ → Fp K => C c = some (P jx jy c)) y1 (by omega) (fun q C a b ne hC => ?_)
    (fun C hC => ?_) (fun q C a b ne hC => ?_) hC
  · rw [y3 q a b, pickAt_ne ne, x3 _ x1 (by omega), mul_pick hz hone _ _ (pickAt_cases _ _) (Or.inl rfl), mul_zero]
    exact accum_zero hz hC hz
  · rw [x3 _ x1 (by omega), y3 _ y1 (by omega), pickAt_same, pickAt_same, mul_pick hz hone _ _ (Or.inr rfl) (Or.inr rfl), mul_one,
      show sx - px + (jx - sx + px) = jx by ring, show sy - py + (jy - sy + py) = jy by ring]
    exact accum_one hC hP
  · rw [y3 q a b, pickAt_ne ne, x3 _ x1 (by omega), mul_pick hz hone _ _ (pickAt_cases _ _) (Or.inl rfl), mul_zero]
    exact accum_zero hz hC hP

theorem evaluate3_pick (jk : ℤ → Fp K) (je : ℤ → ℤ → ℤ → ℕ → Fp K) {nx px ny py nz pz : ℤ} {Ux Uy Uz : ℤ → K} {P : ℤ → ℤ → ℤ → ℕ → K}
    {rx ry rz : ℤ} {X Y Z : ℤ → K} {ix iy iz jx jy jz : ℤ} {c : ℕ} (hix : 0 ≤ ix ∧ ix ≤ rx) (hiy : 0 ≤ iy ∧ iy ≤ ry)
    (hiz : 0 ≤ iz ∧ iz ≤ rz) (hx : Picks rd jk nx px Ux (X ix) jx) (hy : Picks rd jk ny py Uy (Y iy) jy)
    (hzz : Picks rd jk nz pz Uz (Z iz) jz) (hP : rd (P jx jy jz c) = P jx jy jz c) :
    evaluate3 rd jk je nx px Ux ny py Uy nz pz Uz P rx X ry Y rz Z ix iy iz c = some (P jx jy jz c) := by
  obtain ⟨c1, c2⟩ := axisTables_spec (rd := rd) jk nx px Ux rx X ix hix.1 hix.2
  obtain ⟨d1, d2⟩ := axisTables_spec (rd := rd) jk ny py Uy ry Y iy hiy.1 hiy.2
  obtain ⟨g1, g2⟩ := axisTables_spec (rd := rd) jk nz pz Uz rz Z iz hiz.1 hiz.2
  unfold evaluate3
  simp only
  rw [Igakit.forUp_fill3 (fun ix iy iz => forUp 0 (px : ℤ) (fun jx C => forUp 0 (py : ℤ) (fun jy C =>
      forUp 0 (pz : ℤ) (fun jz C =>
      accum rd (mul rd (mul rd ((axisTables rd jk nx px Ux rx X).2 ix jx)
        ((axisTables rd jk ny py Uy ry Y).2 iy jy)) ((axisTables rd jk nz pz Uz rz Z).2 iz jz))
      (P ((axisTables rd jk nx px Ux rx X).1 ix - px + jx)
        ((axisTables rd jk ny py Uy ry Y).1 iy - py + jy)
        ((axisTables rd jk nz pz Uz rz Z).1 iz - pz + jz)) C) C) C) (fun _ => some 0)) rx ry rz je ix iy iz hix hiy hiz,
    c1, c2, d1, d2, g1, g2]
  obtain ⟨x1, x2, x3⟩ := hx
  obtain ⟨y1, y2, y3⟩ := hy
  obtain ⟨z1, z2, z3⟩ := hzz
  generalize findSpan nx px (X ix) Ux = sx at *
  generalize findSpan ny py (Y iy) Uy = sy at *
  generalize findSpan nz pz (Z iz) Uz = sz at *
  have coef : ∀ q l k, 0 ≤ q → q ≤ px → 0 ≤ l → l ≤ py → 0 ≤ k → k ≤ pz →
      mul rd (mul rd (basisFuns rd jk sx (X ix) px Ux q) (basisFuns rd jk sy (Y iy) py Uy l)) (basisFuns rd jk sz (Z iz) pz Uz k) =
        some (pickAt (jx - sx + px) q * pickAt (jy - sy + py) l * pickAt (jz - sz + pz) k) := by
    intro q l k q0 q1 l0 l1 k0 k1
    rw [x3 q q0 q1, y3 l l0 l1, z3 k k0 k1, mul_pick hz hone _ _ (pickAt_cases _ _) (pickAt_cases _ _)]
    refine mul_pick hz hone _ _ ?_ (pickAt_cases _ _)
    rcases pickAt_cases (K := K) (jx - sx + px) q with h | h <;> rcases pickAt_cases (K := K) (jy - sy + py) l with h' | h' <;>
      rw [h, h'] <;> simp
  have hzP : ∀ y, rd y = y → ∀ q l k C, 0 ≤ q → q ≤ px → 0 ≤ l → l ≤ py → 0 ≤ k → k ≤ pz →
      (q ≠ jx - sx + px ∨ l ≠ jy - sy + py ∨ k ≠ jz - sz + pz) → C c = some y →
      accum rd (mul rd (mul rd (basisFuns rd jk sx (X ix) px Ux q) (basisFuns rd jk sy (Y iy) py Uy l))
        (basisFuns rd jk sz (Z iz) pz Uz k)) (P (sx - px + q) (sy - py + l) (sz - pz + k)) C c = some y := by
    intro y hy q l k C q0 q1 l0 l1 k0 k1 ne hC
    rw [coef q l k q0 q1 l0 l1 k0 k1, show (pickAt (jx - sx + px) q * pickAt (jy - sy + py) l * pickAt (jz - sz + pz) k : K) = 0 by
      rcases ne with h | h | h <;> rw [pickAt_ne h] <;> simp]
    exact accum_zero hz hC hy
  have offy : ∀ y, rd y = y → ∀ q l C, 0 ≤ q → q ≤ px → 0 ≤ l → l ≤ py → (q ≠ jx - sx + px ∨ l ≠ jy - sy + py) → C c = some y →
      (forUp 0 (pz : ℤ) (fun jz C => accum rd (mul rd (mul rd (basisFuns rd jk sx (X ix) px Ux q)
        (basisFuns rd jk sy (Y iy) py Uy l)) (basisFuns rd jk sz (Z iz) pz Uz jz))
        (P (sx - px + q) (sy - py + l) (sz - pz + jz)) C) C) c = some y := by
    intro y hy q l C q0 q1 l0 l1 ne hC
    exact forUp_keep (lo := 0) (hi := pz) (fun C : ℕ → Fp K => C c = some y) (by omega) (fun k C a b hC => hzP y hy q l k C q0 q1 l0 l1 a b (by tauto) hC) hC
  have offx : ∀ y, rd y = y → ∀ q C, 0 ≤ q → q ≤ px → q ≠ jx - sx + px → C c = some y →
      (forUp 0 (py : ℤ) (fun jy C => forUp 0 (pz : ℤ) (fun jz C => accum rd (mul rd (mul rd (basisFuns rd jk sx (X ix) px Ux q)
        (basisFuns rd jk sy (Y iy) py Uy jy)) (basisFuns rd jk sz (Z iz) pz Uz jz))
        (P (sx - px + q) (sy - py + jy) (sz - pz + jz)) C) C) C) c = some y := by
    intro y hy q C q0 q1 ne hC
    exact forUp_keep (lo := 0) (hi := py) (fun C : ℕ → Fp K => C c = some y) (by omega) (fun l C a b hC => offy y hy q l C q0 q1 a b (Or.inl ne) hC) hC
  refine forUp_pick (lo := 0) (hi := px) (e := jx - sx + px) (fun C : ℕ → Fp K => C c = some 0) (fun C : ℕ → Fp K => C c = some (P jx jy jz c)) x1 (by omega)
    (fun q C a b ne hC => offx 0 hz q C a b ne hC) (fun C hC => ?_) (fun q C a b ne hC => offx _ hP q C a b ne hC) rfl
  refine forUp_pick (lo := 0) (hi := py) (e := jy - sy + py) (fun C : ℕ → Fp K => C c = some 0) (fun C : ℕ → Fp K => C c = some (P jx jy jz c)) y1 (by omega)
    (fun q C a b ne hC => offy 0 hz _ q C x1 (by omega) a b (Or.inr ne) hC) (fun C hC => ?_)
    (fun q C a b ne hC => offy _ hP _ q C x1 (by omega) a b (Or.inr ne) hC) hC
  refine forUp_pick (lo := 0) (hi := pz) (e := jz - sz + pz) (fun C : ℕ → Fp K => C c = some 0) (fun C : ℕ → Fp K => C c = some (P jx jy jz c)) z1 (by omega)
    (fun q C a b ne hC => hzP 0 hz _ _ q C x1 (by omega) y1 (by omega) a b (Or.inr (Or.inr ne)) hC) (fun C hC => ?_)
    (fun q C a b ne hC => hzP _ hP _ _ q C x1 (by omega) y1 (by omega) a b (Or.inr (Or.inr ne)) hC) hC
  rw [coef _ _ _ x1 (by omega) y1 (by omega) z1 (by omega), pickAt_same, pickAt_same, pickAt_same, mul_one, mul_one,
    show sx - px + (jx - sx + px) = jx by ring, show sy - py + (jy - sy + py) = jy by ring,
    show sz - pz + (jz - sz + pz) = jz by ring]
  exact accum_one hC hP

end Fp
end Igakit
