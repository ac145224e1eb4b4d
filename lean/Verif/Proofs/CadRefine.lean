import Verif.Spec.CadRefine
import Verif.Props.Join
import Mathlib.Data.List.Sort

/-! # Lemmas for `cad.refine` -/

set_option linter.unusedSectionVars false

namespace Igakit
open Spec

variable {K : Type} [Field K] [LinearOrder K] {d : ℕ}

theorem arg_ok {α : Type} {x : PyArg α} {dflt v : Fin d → α} (h : x.Gives dflt v) : Cad.arg x dflt = .ok v := by
  cases x with
  | missing => unfold PyArg.Gives at h; rw [h]; rfl
  | one c => exact congrArg _ (funext fun a => (h a).symm)
  | seq l =>
    obtain ⟨h1, h2⟩ := h
    unfold Cad.arg
    dsimp only
    rw [if_pos h1]
    congr 1
    funext a
    rw [List.getD_eq_getElem?_getD]
    rcases h2 a with h | ⟨h, h'⟩
    · rw [h]; rfl
    · rw [h, h']; rfl

theorem arg_err {α : Type} {l : List (Option α)} (dflt : Fin d → α) (h : l.length ≠ d) :
    Cad.arg (.seq l) dflt = .error .assertion := if_neg h

theorem Factor.fits {F : Factor} {m : ℕ} {f : ℕ → ℤ} (h : F.Gives m f) : F.Fits m := by
  cases F with
  | all n => exact trivial
  | each l => exact h.1

theorem Factor.parts_eq {F : Factor} {m : ℕ} {f : ℕ → ℤ} (h : F.Gives m f) {i : ℕ} (hi : i < m) : F.parts i = f i := by
  cases F with
  | all n => exact (h i hi).symm
  | each l =>
    show l.getD i 1 = _
    rw [List.getD_eq_getElem?_getD, h.2 i hi]; rfl

theorem Factor.pos {F : Factor} {m : ℕ} {f : ℕ → ℤ} (h : F.Gives m f) (hm : 0 < m) (hf : ∀ i, i < m → 0 < f i) : F.Pos := by
  cases F with
  | all n => have := hf 0 hm; rw [h 0 hm] at this; exact this
  | each l =>
    intro n hn
    obtain ⟨i, hi, rfl⟩ := List.mem_iff_getElem.mp hn
    have h1 := h.2 i (by rw [← h.1]; exact hi)
    rw [List.getElem?_eq_getElem hi] at h1
    rw [Option.some.inj h1]
    exact hf i (by rw [← h.1]; exact hi)

/-! ## repetition -/

theorem count_rep {L : List (K × ℤ)} (h : L.Pairwise (fun q r => q.1 < r.1)) :
    (∀ q ∈ L, (L.flatMap (fun q => List.replicate q.2.toNat q.1)).count q.1 = q.2.toNat) ∧
    ∀ y, (∀ q ∈ L, q.1 ≠ y) → (L.flatMap (fun q => List.replicate q.2.toNat q.1)).count y = 0 := by
  induction L with
  | nil => simp
  | cons r L ih =>
    rw [List.pairwise_cons] at h
    obtain ⟨h1, h2⟩ := ih h.2
    refine ⟨fun q hq => ?_, fun y hy => ?_⟩
    · rw [List.flatMap_cons, List.count_append, List.count_replicate]
      rcases List.mem_cons.mp hq with e | e
      · subst e
        rw [h2 q.1 (fun r hr => (h.1 r hr).ne')]
        simp
      · rw [h1 q e]
        have : r.1 ≠ q.1 := (h.1 q e).ne
        simp [this]
    · rw [List.flatMap_cons, List.count_append, List.count_replicate,
        h2 y (fun q hq => hy q (List.mem_cons_of_mem _ hq))]
      have := hy r List.mem_cons_self
      simp [this]

section ord
variable [IsStrictOrderedRing K]

theorem apart_of_pairwise {eps : K} {L : List (K × ℤ)} (h : L.Pairwise (fun q r => q.1 + eps < r.1)) :
    ∀ q ∈ L, ∀ r ∈ L, q = r ∨ eps ≤ |q.1 - r.1| := by
  have : Std.Symm (fun q r : K × ℤ => q = r ∨ eps ≤ |q.1 - r.1|) := ⟨fun q r hqr => by
    rcases hqr with hqr | hqr
    · exact Or.inl hqr.symm
    · exact Or.inr (by rw [abs_sub_comm]; exact hqr)⟩
  intro q hq r hr
  refine List.Pairwise.forall_of_forall (R := fun q r : K × ℤ => q = r ∨ eps ≤ |q.1 - r.1|) (fun q _ => Or.inl rfl)
    (h.imp ?_) hq hr
  intro q r hqr
  right
  rw [abs_sub_comm]
  exact le_trans (by linarith) (le_abs_self _)

/-! ## the knots inserted by `refine` -/

section vals
variable {eps : K} {p C : ℤ} {u : List K} {s : List ℤ} {F : Factor}

theorem mem_elementKnots {i : ℕ} {q : K × ℤ} : q ∈ Cad.elementKnots p C u s F i ↔
    ∃ k : ℕ, (k : ℤ) < F.parts i ∧ q = (u.getD i 0 + k * ((u.getD (i + 1) 0 - u.getD i 0) / F.parts i),
      if k = 0 then max (p - C - s.getD i 0) 0 else p - C) := by
  unfold Cad.elementKnots
  dsimp only
  rw [List.mem_map]
  constructor
  · rintro ⟨k, hk, rfl⟩; exact ⟨k, by rw [List.mem_range] at hk; omega, rfl⟩
  · rintro ⟨k, hk, rfl⟩; exact ⟨k, by rw [List.mem_range]; omega, rfl⟩

theorem element_range (heps : 0 < eps) {i : ℕ} (hF : 0 < F.parts i)
    (hg : eps < (u.getD (i + 1) 0 - u.getD i 0) / F.parts i) {q : K × ℤ} (hq : q ∈ Cad.elementKnots p C u s F i) :
    u.getD i 0 ≤ q.1 ∧ q.1 + eps < u.getD (i + 1) 0 := by
  obtain ⟨k, hk, rfl⟩ := mem_elementKnots.mp hq
  dsimp only
  set D := (u.getD (i + 1) 0 - u.getD i 0) / F.parts i with hD
  have hn : (0 : K) < F.parts i := by exact_mod_cast hF
  have e : u.getD (i + 1) 0 = u.getD i 0 + F.parts i * D := by rw [hD]; field_simp; ring
  have hk0 : (0 : K) ≤ k := Nat.cast_nonneg k
  have hk1 : (k : K) + 1 ≤ F.parts i := by exact_mod_cast hk
  have hD0 : 0 < D := heps.trans hg
  rw [e]
  constructor
  · nlinarith
  · nlinarith

/-- the knots of all elements -/
def allKnots (p C : ℤ) (u : List K) (s : List ℤ) (F : Factor) : List (K × ℤ) :=
  (List.range (u.length - 1)).flatMap (Cad.elementKnots p C u s F)

theorem mem_allKnots {q : K × ℤ} : q ∈ allKnots p C u s F ↔ ∃ i, i + 1 < u.length ∧ q ∈ Cad.elementKnots p C u s F i := by
  unfold allKnots
  rw [List.mem_flatMap]
  constructor
  · rintro ⟨i, hi, h⟩; exact ⟨i, by rw [List.mem_range] at hi; omega, h⟩
  · rintro ⟨i, hi, h⟩; exact ⟨i, by rw [List.mem_range]; omega, h⟩

theorem getD_of_lt {i : ℕ} (hi : i < u.length) : u.getD i 0 = u[i] := by
  rw [List.getD_eq_getElem?_getD, List.getElem?_eq_getElem hi, Option.getD_some]

theorem getD_mono (hu : u.Pairwise (· < ·)) {i j : ℕ} (hij : i ≤ j) (hj : j < u.length) : u.getD i 0 ≤ u.getD j 0 := by
  rw [getD_of_lt hj, getD_of_lt (by omega : i < u.length)]
  rcases hij.eq_or_lt with h | h
  · subst h; exact le_rfl
  · exact (List.pairwise_iff_getElem.mp hu i j _ hj h).le

theorem allKnots_pairwise (heps : 0 < eps) (hu : u.Pairwise (· < ·))
    (hg : ∀ i, i + 1 < u.length → 0 < F.parts i ∧ eps < (u.getD (i + 1) 0 - u.getD i 0) / F.parts i) :
    (allKnots p C u s F).Pairwise (fun q r => q.1 + eps < r.1) := by
  unfold allKnots
  rw [List.pairwise_flatMap]
  refine ⟨fun i hi => ?_, ?_⟩
  · obtain ⟨h1, h2⟩ := hg i (by rw [List.mem_range] at hi; omega)
    unfold Cad.elementKnots
    dsimp only
    rw [List.pairwise_map]
    refine List.pairwise_lt_range.imp (fun {k l} hkl => ?_)
    have : (k : K) + 1 ≤ l := by exact_mod_cast hkl
    dsimp only
    nlinarith
  · refine List.pairwise_lt_range.imp_of_mem (fun {i j} hi hj hij q hq r hr => ?_)
    rw [List.mem_range] at hi hj
    obtain ⟨h1, h2⟩ := hg i (by omega)
    obtain ⟨h3, h4⟩ := hg j (by omega)
    have e1 := (element_range heps h1 h2 hq).2
    have e2 := (element_range heps h3 h4 hr).1
    have e3 := getD_mono hu (show i + 1 ≤ j by omega) (by omega)
    linarith

theorem allKnots_head (hlen : 2 ≤ u.length) (hF : 0 < F.parts 0) :
    ∃ k, allKnots p C u s F = (u.getD 0 0, k) :: (allKnots p C u s F).tail := by
  obtain ⟨m, hm⟩ : ∃ m, u.length - 1 = m + 1 := ⟨u.length - 2, by omega⟩
  obtain ⟨n, hn⟩ : ∃ n, (F.parts 0).toNat = n + 1 := ⟨(F.parts 0).toNat - 1, by omega⟩
  unfold allKnots
  rw [hm, List.range_succ_eq_map, List.flatMap_cons]
  unfold Cad.elementKnots
  dsimp only
  rw [hn, List.range_succ_eq_map, List.map_cons]
  simp

end vals

/-! ## one axis -/

/-- what the knot insertion of `refine` asks of an axis; `l` are its distinct knots -/
structure Ax.Dividable (A : Ax K) (eps : K) (l : List K) (F : Factor) (f : ℕ → ℤ) (C : ℤ) : Prop where
  left : ClampedL A.degree A.U
  right : ClampedR A.n A.degree A.U
  mult : ∀ x, A.lo < x → x < A.hi → (A.mult x : ℤ) ≤ A.degree
  lt : l.Pairwise (· < ·)
  mem : ∀ x, x ∈ l ↔ 0 < A.mult x
  fit : F.Gives (l.length - 1) f
  parts : ∀ (i : ℕ) (y z : K), l[i]? = some y → l[i + 1]? = some z → 0 < f i ∧ eps < (z - y) / f i
  nonneg : 0 ≤ C
  lt_degree : C < A.degree

/-- what it does -/
structure Ax.Divided (A A' : Ax K) (l : List K) (f : ℕ → ℤ) (C : ℤ) : Prop where
  degree : A'.degree = A.degree
  lo : A'.lo = A.lo
  hi : A'.hi = A.hi
  left : ClampedL A'.degree A'.U
  right : ClampedR A'.n A'.degree A'.U
  old : ∀ x, A.lo < x → x < A.hi → 0 < A.mult x → (A'.mult x : ℤ) = max (A.mult x : ℤ) (A.degree - C)
  new : ∀ x, Subdivides l f x → (A'.mult x : ℤ) = A.degree - C
  none : ∀ x, A.mult x = 0 → ¬ Subdivides l f x → A'.mult x = 0

section divide
variable {A : Ax K} {eps : K} {l : List K} {F : Factor} {f : ℕ → ℤ} {C : ℤ}

theorem Ax.Dividable.ends (hA : A.Valid) (h : A.Dividable eps l F f C) :
    2 ≤ l.length ∧ l.getD 0 0 = A.lo ∧ l.getD (l.length - 1) 0 = A.hi := by
  have hlt := Ax.lo_lt_hi hA
  have hp := hA.one_le
  have hn := hA.le
  have hlen := A.len_eq
  have m1 : A.lo ∈ l := (h.mem _).mpr (Ax.mult_pos.mpr ⟨A.degree, by omega, by omega, rfl⟩)
  have m2 : A.hi ∈ l := (h.mem _).mpr (Ax.mult_pos.mpr ⟨A.n + 1, by omega, by omega, rfl⟩)
  have hr : ∀ y ∈ l, A.lo ≤ y ∧ y ≤ A.hi := fun y hy => Ax.mult_range hA h.left h.right ((h.mem y).mp hy)
  obtain ⟨i, hi, e1⟩ := List.mem_iff_getElem.mp m1
  obtain ⟨j, hj, e2⟩ := List.mem_iff_getElem.mp m2
  have hi0 : i = 0 := ((strict_head h.lt m1 (fun y hy => (hr y hy).1)).2 i hi).mp e1
  have hj0 : j = l.length - 1 := ((strict_last h.lt m2 (fun y hy => (hr y hy).2)).2 j hj).mp e2
  have hij : i ≠ j := by
    rintro rfl
    rw [e1] at e2
    exact hlt.ne e2
  subst hi0
  subst hj0
  exact ⟨by omega, by rw [getD_of_lt hi, e1], by rw [getD_of_lt hj, e2]⟩

theorem Ax.Dividable.gap (h : A.Dividable eps l F f C) (i : ℕ) (hi : i + 1 < l.length) :
    0 < F.parts i ∧ eps < (l.getD (i + 1) 0 - l.getD i 0) / F.parts i := by
  rw [Factor.parts_eq h.fit (by omega), getD_of_lt hi, getD_of_lt (by omega : i < l.length)]
  exact h.parts i _ _ (List.getElem?_eq_getElem _) (List.getElem?_eq_getElem hi)

theorem subdivides_iff (hF : F.Gives (l.length - 1) f) {x : K} : Subdivides l f x ↔
    ∃ i k : ℕ, i + 1 < l.length ∧ 0 < k ∧ (k : ℤ) < F.parts i ∧
      x = l.getD i 0 + k * ((l.getD (i + 1) 0 - l.getD i 0) / F.parts i) := by
  constructor
  · rintro ⟨i, y, z, k, h1, h2, h3, h4, h5⟩
    obtain ⟨hi, rfl⟩ := List.getElem?_eq_some_iff.mp h1
    obtain ⟨hi', rfl⟩ := List.getElem?_eq_some_iff.mp h2
    have e : ((k.toNat : ℕ) : ℤ) = k := Int.toNat_of_nonneg h3.le
    refine ⟨i, k.toNat, hi', by omega, by rw [e, Factor.parts_eq hF (by omega)]; exact h4, ?_⟩
    rw [getD_of_lt hi, getD_of_lt hi', h5, Factor.parts_eq hF (by omega)]
    congr 2
    exact_mod_cast congrArg (Int.cast (R := K)) e.symm
  · rintro ⟨i, k, hi, hk, h4, h5⟩
    rw [Factor.parts_eq hF (by omega)] at h4 h5
    rw [getD_of_lt hi, getD_of_lt (by omega : i < l.length)] at h5
    exact ⟨i, _, _, k, List.getElem?_eq_getElem (by omega), List.getElem?_eq_getElem hi, by omega, h4, by
      rw [h5]; simp⟩

/-- points dividing an element lie strictly inside it -/
theorem Ax.Dividable.subdivides_between (heps : 0 < eps) (h : A.Dividable eps l F f C) {x : K} (hx : Subdivides l f x) :
    ∃ i, i + 1 < l.length ∧ l.getD i 0 < x ∧ x < l.getD (i + 1) 0 := by
  obtain ⟨i, k, hi, hk, h4, rfl⟩ := (subdivides_iff h.fit).mp hx
  obtain ⟨g1, g2⟩ := h.gap i hi
  set D := (l.getD (i + 1) 0 - l.getD i 0) / F.parts i with hD
  have hn : (0 : K) < F.parts i := by exact_mod_cast g1
  have e : l.getD (i + 1) 0 = l.getD i 0 + F.parts i * D := by rw [hD]; field_simp; ring
  have hk0 : (0 : K) < k := by exact_mod_cast hk
  have hk1 : (k : K) < F.parts i := by exact_mod_cast h4
  have hD0 : 0 < D := heps.trans g2
  refine ⟨i, hi, by nlinarith, by rw [e]; nlinarith⟩

theorem Ax.Dividable.subdivides_fresh (heps : 0 < eps) (hA : A.Valid) (h : A.Dividable eps l F f C) {x : K}
    (hx : Subdivides l f x) : A.lo < x ∧ x < A.hi ∧ A.mult x = 0 := by
  obtain ⟨i, hi, h1, h2⟩ := h.subdivides_between heps hx
  obtain ⟨e0, e1, e2⟩ := h.ends hA
  have g1 := getD_mono h.lt (Nat.zero_le i) (by omega)
  have g2 := getD_mono h.lt (show i + 1 ≤ l.length - 1 by omega) (by omega)
  rw [e1] at g1
  rw [e2] at g2
  refine ⟨lt_of_le_of_lt g1 h1, lt_of_lt_of_le h2 g2, ?_⟩
  by_contra hc
  obtain ⟨j, hj, e⟩ := List.mem_iff_getElem.mp ((h.mem x).mpr (Nat.pos_of_ne_zero hc))
  rw [← getD_of_lt hj] at e
  rcases Nat.lt_or_ge i j with hij | hij
  · have := getD_mono h.lt (show i + 1 ≤ j by omega) hj
    rw [e] at this
    exact absurd h2 (not_lt.mpr this)
  · have := getD_mono h.lt hij (by omega)
    rw [e] at this
    exact absurd h1 (not_lt.mpr this)

variable {s : List ℤ}

/-- the entries of the list of inserted knots -/
theorem Ax.Dividable.entries (heps : 0 < eps) (hA : A.Valid) (h : A.Dividable eps l F f C)
    (hs : ∀ i, i < l.length → A.lo < l.getD i 0 → l.getD i 0 < A.hi → s.getD i 0 = A.mult (l.getD i 0)) :
    let T := (allKnots A.degree C l s F).tail
    T.Pairwise (fun q r => q.1 + eps < r.1) ∧
    (∀ q ∈ T, A.lo < q.1 ∧ q.1 < A.hi ∧ SepFrom eps q.1 A.U 0 (A.len - 1)) ∧
    (∀ q ∈ T, (0 < A.mult q.1 ∧ q.2 = max (A.degree - C - A.mult q.1) 0) ∨ (Subdivides l f q.1 ∧ q.2 = A.degree - C)) ∧
    (∀ x, A.lo < x → x < A.hi → 0 < A.mult x → ∃ q ∈ T, q.1 = x) ∧
    ∀ x, Subdivides l f x → ∃ q ∈ T, q.1 = x := by
  obtain ⟨e0, e1, e2⟩ := h.ends hA
  have hpw := allKnots_pairwise (p := A.degree) (C := C) (s := s) heps h.lt h.gap
  obtain ⟨k0, hL⟩ := allKnots_head (p := A.degree) (C := C) (s := s) e0 (h.gap 0 (by omega)).1
  rw [e1] at hL
  set L := allKnots A.degree C l s F with hLdef
  dsimp only
  have hsym : ∀ q ∈ L, ∀ r ∈ L, q = r ∨ eps ≤ |q.1 - r.1| := by
    intro q hq r hr
    exact apart_of_pairwise hpw q hq r hr
  have hsub : ∀ q ∈ L.tail, q ∈ L := fun q hq => List.mem_of_mem_tail hq
  have hpw' := hpw
  rw [hL, List.pairwise_cons] at hpw'
  have hmemT : ∀ q ∈ L, q.1 ≠ A.lo → q ∈ L.tail := by
    intro q hq hne
    rw [hL] at hq
    rcases List.mem_cons.mp hq with e | e
    · exact absurd (by rw [e]) hne
    · exact e
  have hhi : ∀ q ∈ L, q.1 + eps < A.hi := by
    intro q hq
    obtain ⟨i, hi, hq⟩ := mem_allKnots.mp hq
    have h1 := (element_range heps (h.gap i hi).1 (h.gap i hi).2 hq).2
    have h2 := getD_mono h.lt (show i + 1 ≤ l.length - 1 by omega) (by omega)
    rw [e2] at h2
    linarith
  have hold : ∀ y, 0 < A.mult y → y = A.hi ∨ ∃ q ∈ L, q.1 = y := by
    intro y hy
    obtain ⟨j, hj, e⟩ := List.mem_iff_getElem.mp ((h.mem y).mpr hy)
    rw [← getD_of_lt hj] at e
    by_cases hj' : j + 1 < l.length
    · right
      refine ⟨_, mem_allKnots.mpr ⟨j, hj', mem_elementKnots.mpr ⟨0, by exact_mod_cast (h.gap j hj').1, rfl⟩⟩, ?_⟩
      rw [← e]; simp
    · left
      rw [← e, ← e2]
      congr 1
      omega
  refine ⟨hpw'.2, fun q hq => ⟨?_, ?_, ?_⟩, fun q hq => ?_, fun x x0 x1 hx => ?_, fun x hx => ?_⟩
  · have := hpw'.1 q hq
    dsimp only at this
    linarith
  · have := hhi q (hsub q hq); linarith
  · intro k k0 k1
    rcases hold (A.U k) (Ax.mult_pos.mpr ⟨k, k0, by omega, rfl⟩) with e | ⟨r, hr, e⟩
    · right
      rw [e, abs_sub_comm]
      have := hhi q (hsub q hq)
      exact le_trans (by linarith) (le_abs_self _)
    · rw [← e]
      rcases hsym q (hsub q hq) r hr with h | h
      · left; rw [h]
      · exact Or.inr h
  · have hq0 : A.lo < q.1 := by have := hpw'.1 q hq; dsimp only at this; linarith
    have hq1 : q.1 < A.hi := by have := hhi q (hsub q hq); linarith
    obtain ⟨i, hi, hq⟩ := mem_allKnots.mp (hsub q hq)
    obtain ⟨k, hk, e⟩ := mem_elementKnots.mp hq
    by_cases hk0 : k = 0
    · left
      subst hk0
      rw [if_pos rfl] at e
      have e' : q.1 = l.getD i 0 := by rw [e]; simp
      have hm : q.1 ∈ l := by rw [e', getD_of_lt (by omega : i < l.length)]; exact List.getElem_mem _
      refine ⟨(h.mem _).mp hm, ?_⟩
      rw [e'] at hq0 hq1 ⊢
      rw [← hs i (by omega) hq0 hq1, e]
    · right
      rw [if_neg hk0] at e
      exact ⟨(subdivides_iff h.fit).mpr ⟨i, k, hi, by omega, hk, by rw [e]⟩, by rw [e]⟩
  · rcases hold x hx with e | ⟨q, hq, e⟩
    · exact absurd e x1.ne
    · exact ⟨q, hmemT q hq (by rw [e]; exact x0.ne'), e⟩
  · obtain ⟨i, k, hi, hk, h4, e⟩ := (subdivides_iff h.fit).mp hx
    have hlo := (h.subdivides_fresh heps hA hx).1
    refine ⟨_, hmemT _ (mem_allKnots.mpr ⟨i, hi, mem_elementKnots.mpr ⟨k, h4, rfl⟩⟩) ?_, e.symm⟩
    dsimp only
    rw [← e]
    exact hlo.ne'

theorem Ax.Dividable.counts (heps : 0 < eps) (hA : A.Valid) (h : A.Dividable eps l F f C)
    (hs : ∀ i, i < l.length → A.lo < l.getD i 0 → l.getD i 0 < A.hi → s.getD i 0 = A.mult (l.getD i 0)) :
    let V := Cad.refineVals A.degree C l s F
    (∀ x, A.lo < x → x < A.hi → 0 < A.mult x → (V.count x : ℤ) = max (A.degree - C - A.mult x) 0) ∧
    (∀ x, Subdivides l f x → (V.count x : ℤ) = A.degree - C) ∧
    (∀ x, A.mult x = 0 → ¬ Subdivides l f x → V.count x = 0) ∧
    (∀ x, ¬(A.lo < x ∧ x < A.hi) → V.count x = 0) := by
  obtain ⟨t1, t2, t3, t4, t5⟩ := h.entries heps hA hs
  have hc := h.lt_degree
  obtain ⟨c1, c2⟩ := count_rep (t1.imp (fun {q r} hqr => by linarith))
  dsimp only
  unfold Cad.refineVals
  change _ ∧ _ ∧ _ ∧ _ at *
  refine ⟨fun x x0 x1 hx => ?_, fun x hx => ?_, fun x hx hx' => ?_, fun x hx => ?_⟩
  · obtain ⟨q, hq, rfl⟩ := t4 x x0 x1 hx
    have := c1 q hq
    unfold allKnots at this
    rw [this]
    rcases t3 q hq with ⟨_, e⟩ | ⟨e, _⟩
    · rw [e]; omega
    · have := (h.subdivides_fresh heps hA e).2.2; omega
  · obtain ⟨q, hq, rfl⟩ := t5 x hx
    have := c1 q hq
    unfold allKnots at this
    rw [this]
    rcases t3 q hq with ⟨e, _⟩ | ⟨_, e⟩
    · have := (h.subdivides_fresh heps hA hx).2.2; omega
    · rw [e]; omega
  · refine c2 x (fun q hq e => ?_)
    rcases t3 q hq with ⟨g, _⟩ | ⟨g, _⟩
    · rw [e] at g; omega
    · rw [e] at g; exact hx' g
  · refine c2 x (fun q hq e => hx ?_)
    have := t2 q hq
    rw [e] at this
    exact ⟨this.1, this.2.1⟩

theorem Ax.Dividable.refinable (heps : 0 < eps) (hA : A.Valid) (h : A.Dividable eps l F f C)
    (hs : ∀ i, i < l.length → A.lo < l.getD i 0 → l.getD i 0 < A.hi → s.getD i 0 = A.mult (l.getD i 0)) :
    A.Refinable eps (Cad.refineVals A.degree C l s F) := by
  obtain ⟨t1, t2, t3, t4, t5⟩ := h.entries heps hA hs
  obtain ⟨n1, n2, n3, n4⟩ := h.counts heps hA hs
  have hmem : ∀ x ∈ Cad.refineVals A.degree C l s F, ∃ q ∈ (allKnots A.degree C l s F).tail, q.1 = x := by
    intro x hx
    unfold Cad.refineVals at hx
    obtain ⟨q, hq, hx⟩ := List.mem_flatMap.mp hx
    exact ⟨q, hq, (List.eq_of_mem_replicate hx).symm⟩
  refine ⟨fun x hx => ?_, fun x hx => ?_, fun x hx => ?_, fun x hx y hy => ?_, fun x => ?_⟩
  · obtain ⟨q, hq, rfl⟩ := hmem x hx; exact (t2 q hq).1
  · obtain ⟨q, hq, rfl⟩ := hmem x hx; exact (t2 q hq).2.1
  · obtain ⟨q, hq, rfl⟩ := hmem x hx; exact (t2 q hq).2.2
  · obtain ⟨q, hq, rfl⟩ := hmem x hx
    obtain ⟨r, hr, rfl⟩ := hmem y hy
    rcases apart_of_pairwise t1 q hq r hr with e | e
    · left; rw [e]
    · exact Or.inr e
  · obtain ⟨g1, g2⟩ := Ax.inner_le hA h.left h.right h.mult x
    have hc := h.nonneg
    by_cases hx : A.lo < x ∧ x < A.hi
    · have h3 := h.mult x hx.1 hx.2
      by_cases hm : 0 < A.mult x
      · have := n1 x hx.1 hx.2 hm
        push_cast
        omega
      · by_cases hd : Subdivides l f x
        · have := n2 x hd
          push_cast
          omega
        · have := n3 x (by omega) hd
          push_cast
          omega
    · have := n4 x hx
      push_cast
      omega

theorem Ax.Dividable.divided (heps : 0 < eps) (hA : A.Valid) (h : A.Dividable eps l F f C)
    (hs : ∀ i, i < l.length → A.lo < l.getD i 0 → l.getD i 0 < A.hi → s.getD i 0 = A.mult (l.getD i 0))
    {A' : Ax K} (hR : A.Refined A' (Cad.refineVals A.degree C l s F)) : A.Divided A' l f C := by
  obtain ⟨n1, n2, n3, n4⟩ := h.counts heps hA hs
  have hp := hR.valid.one_le
  have hn := hR.valid.le
  have hlen := A'.len_eq
  have hrange : ∀ k, 0 ≤ k → k < A'.len → A.lo ≤ A'.U k ∧ A'.U k ≤ A.hi := by
    intro k k0 k1
    have hpos : 0 < A'.mult (A'.U k) := Ax.mult_pos.mpr ⟨k, k0, k1, rfl⟩
    by_cases hc : A.lo < A'.U k ∧ A'.U k < A.hi
    · exact ⟨hc.1.le, hc.2.le⟩
    · rw [hR.mult, n4 _ hc, add_zero] at hpos
      exact Ax.mult_range hA h.left h.right hpos
  refine ⟨hR.degree, hR.lo, hR.hi, ?_, ?_, fun x x0 x1 hx => ?_, fun x hx => ?_, fun x hx hx' => ?_⟩
  · intro k k0 k1
    refine le_antisymm (hR.valid.sorted _ _ k0 k1 (by omega)) ?_
    show A'.lo ≤ _
    rw [hR.lo]
    exact (hrange k k0 (by omega)).1
  · intro k k0 k1
    refine le_antisymm ?_ (hR.valid.sorted _ _ (by omega) k0 (by omega))
    show _ ≤ A'.hi
    rw [hR.hi]
    exact (hrange k (by omega) (by omega)).2
  · have := n1 x x0 x1 hx
    rw [hR.mult]
    push_cast
    omega
  · have h1 := n2 x hx
    have h2 := (h.subdivides_fresh heps hA hx).2.2
    rw [hR.mult, h2, zero_add]
    exact h1
  · rw [hR.mult, hx, n3 x hx hx']

end divide

end ord
end Igakit
