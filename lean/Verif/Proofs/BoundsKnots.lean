import Verif.Proofs.Bounds

set_option linter.unusedSectionVars false

/-!
# Checked corner cutting, knot insertion, clamping, unclamping
-/

namespace Igakit
open Spec

variable {K : Type} [Field K] [LinearOrder K]
variable {E : Type} [AddCommGroup E] [Module K E]

theorem findMult_pos [IsStrictOrderedRing K] {eps : K} (heps : 0 < eps) {i j p : ℤ} {u : K} {U : ℤ → K} (h1 : -p ≤ j) (h2 : j ≤ p + 1)
    (h : U (i + j) = u) : 1 ≤ findMult eps i u p U := by
  unfold findMult
  rw [forUp_count (fun j => |u - U (i + j)| < eps)]
  have : 0 < ((Finset.Icc (-p) (p + 1)).filter (fun j => |u - U (i + j)| < eps)).card := by
    refine Finset.card_pos.mpr ⟨j, ?_⟩
    rw [Finset.mem_filter, Finset.mem_Icc]
    exact ⟨⟨h1, h2⟩, by simpa [h] using heps⟩
  omega

theorem curvePntByCornerCutC_ok [IsStrictOrderedRing K] {eps : K} (heps : 0 < eps) {n p : ℤ} (h1 : 1 ≤ p) (hpn : p ≤ n) (je : ℤ → E) (U : ℤ → K)
    (Pw : ℤ → E) (x : K) :
    curvePntByCornerCutC eps je n p ⟨0, n + p + 1, U⟩ ⟨0, n, Pw⟩ x = .ok (curvePntByCornerCut eps je n p U Pw x) := by
  unfold curvePntByCornerCutC curvePntByCornerCut
  rw [Arr.arg_ok le_rfl, ok_bind, Arr.arg_ok le_rfl, ok_bind, Arr.get_ok (by omega) (by omega), ok_bind]
  by_cases c1 : x ≤ U p
  · rw [if_pos c1, if_pos c1, findMultC_ok (by omega) le_rfl (by omega), ok_bind]
    dsimp only
    by_cases c2 : findMult eps p (U p) p U ≥ p
    · rw [if_pos c2, if_pos c2, Arr.get_ok (by omega) (by omega)]
    · rw [if_neg c2, if_neg c2]
      have := findMult_nonneg eps p (U p) p U
      exact cornerCutTailC_ok this (not_le.mp c2) le_rfl (by omega) (by omega) je U Pw _
  rw [if_neg c1, if_neg c1, Arr.get_ok (by omega) (by omega), ok_bind]
  by_cases c2 : x ≥ U (n + 1)
  · rw [if_pos c2, if_pos c2, findMultC_ok (by omega) hpn (by omega), ok_bind]
    dsimp only
    by_cases c3 : findMult eps n (U (n + 1)) p U ≥ p
    · rw [if_pos c3, if_pos c3, Arr.get_ok (by omega) (by omega)]
    · rw [if_neg c3, if_neg c3]
      have := findMult_pos heps (i := n) (j := 1) (p := p) (U := U) (by omega) (by omega) rfl
      exact cornerCutTailC_ok (by omega) (not_le.mp c3) (by omega) (by omega) (by omega) je U Pw _
  · have hr := findSpan_range (U := U) x (by omega) hpn
    rw [if_neg c2, if_neg c2, findSpanC_ok (by omega) hpn le_rfl, ok_bind, findMultC_ok (by omega) hr.1 (by omega), ok_bind]
    dsimp only
    by_cases c3 : findMult eps (findSpan n p x U) x p U ≥ p
    · rw [if_pos c3, if_pos c3, Arr.get_ok (by omega) (by omega)]
    · rw [if_neg c3, if_neg c3]
      have := findMult_nonneg eps (findSpan n p x U) x p U
      exact cornerCutTailC_ok this (not_le.mp c3) hr.1 (by omega) (by omega) je U Pw _

theorem insertKnotVC_ok {n p k r : ℤ} (hk0 : 0 ≤ k) (hkn : k ≤ n) (hp : 0 ≤ p) (hr : 0 ≤ r) (jk : ℤ → K) (U : ℤ → K) (uu : K) :
    insertKnotVC n p ⟨0, n + p + 1, U⟩ uu k r ⟨0, n + p + 1 + r, jk⟩ =
      .ok ⟨0, n + p + 1 + r, insertKnotV jk n p U uu k r⟩ := by
  unfold insertKnotVC
  rw [fillC_ok U (fun i a b => Arr.get_ok a (by omega)) (by intro; omega) (by intro; omega), ok_bind,
    fillC_ok (fun _ => uu) (fun i a b => rfl) (by intro; omega) (by intro; omega), ok_bind,
    fillC_ok U (fun i a b => Arr.get_ok (by omega) (by omega)) (by intro; omega) (by intro; omega)]
  rfl

theorem insertKnotQC_ok {n p k s r : ℤ} (hpk : p ≤ k) (hkn : k ≤ n) (hs : 0 ≤ s) (hr : 0 ≤ r) (hsr : s + r ≤ p)
    (je : ℤ → E) (U : ℤ → K) (Pw : ℤ → E) (uu : K) :
    insertKnotQC je n p ⟨0, n + p + 1, U⟩ ⟨0, n, Pw⟩ uu k s r ⟨0, n + r, je⟩ =
      .ok ⟨0, n + r, insertKnotQ je n p U Pw uu k s r⟩ := by
  unfold insertKnotQC
  rw [fillC_ok Pw (fun i a b => Arr.get_ok a (by omega)) (by intro; omega) (by intro; omega), ok_bind,
    fillC_ok Pw (fun i a b => Arr.get_ok (by omega) (by omega)) (by intro; omega) (by intro; omega), ok_bind,
    fillC_ok (fun i => Pw (k - p + i)) (fun i a b => Arr.get_ok (by omega) (by omega)) (by intro; omega)
      (by intro; omega), ok_bind]
  have e1 := forUpC_eq (fun RQ : (ℤ → E) × (ℤ → E) => ((⟨0, p, RQ.1⟩ : Arr E), (⟨0, n + r, RQ.2⟩ : Arr E))) (lo := 1) (hi := r)
    (s := (fillRange je 0 (p - s) 0 (fun i => Pw (k - p + i)),
      fillRange (fillRange je 0 (k - p) 0 (fun i => Pw i)) (k - s) n r (fun i => Pw i)))
    (f := fun j (RQ : (ℤ → E) × (ℤ → E)) =>
      let Rw := cutPass U uu k (k - p + j) (p - j - s) RQ.1
      (Rw, upd (upd RQ.2 (k - p + j) (Rw 0)) (k + r - j - s) (Rw (p - j - s))))
    (fC := fun j (RQ : Arr E × Arr E) => do
      let Rw ← cutPassC ⟨0, n + p + 1, U⟩ uu k (k - p + j) (p - j - s) RQ.1
      let R0 ← Rw.get 0
      let Qw ← RQ.2.set (k - p + j) R0
      let R1 ← Rw.get (p - j - s)
      let Qw ← Qw.set (k + r - j - s) R1
      .ok (Rw, Qw))
    (by
      intro j t a b
      dsimp only
      rw [cutPassC_ok (by intro; omega), ok_bind, Arr.get_ok (by omega) (by omega), ok_bind,
        Arr.set_ok (by omega) (by omega), ok_bind, Arr.get_ok (by omega) (by omega), ok_bind,
        Arr.set_ok (by omega) (by omega), ok_bind])
  dsimp only at e1
  rw [e1, ok_bind]
  refine forUpC_eq (fun Qw : ℤ → E => (⟨0, n + r, Qw⟩ : Arr E)) (fun j t a b => ?_)
  rw [Arr.get_ok (by omega) (by omega), ok_bind, Arr.set_ok (by omega) (by omega)]

theorem insertKnotC_ok {n p k s r : ℤ} (hpk : p ≤ k) (hkn : k ≤ n) (hs : 0 ≤ s) (hr : 0 ≤ r) (hsr : s + r ≤ p)
    (jk : ℤ → K) (je : ℤ → E) (U : ℤ → K) (Pw : ℤ → E) (uu : K) :
    insertKnotC je n p ⟨0, n + p + 1, U⟩ ⟨0, n, Pw⟩ uu k s r ⟨0, n + p + 1 + r, jk⟩ ⟨0, n + r, je⟩ =
      .ok (⟨0, n + p + 1 + r, (insertKnot jk je n p U Pw uu k s r).1⟩, ⟨0, n + r, (insertKnot jk je n p U Pw uu k s r).2⟩) := by
  unfold insertKnotC
  rw [Arr.arg_ok le_rfl, ok_bind, Arr.arg_ok le_rfl, ok_bind, Arr.arg_ok le_rfl, ok_bind, Arr.arg_ok le_rfl, ok_bind,
    insertKnotVC_ok (by omega) hkn (by omega) hr, ok_bind, insertKnotQC_ok hpk hkn hs hr hsr, ok_bind]
  rfl

theorem kntInsC_ok {n p k r : ℤ} (hr : 1 ≤ r) (hrp : r ≤ p) (hpn : p ≤ n) (hk : p ≤ k) (hkn : k - p + r ≤ n)
    (je : ℤ → E) (U : ℤ → K) (Pw : ℤ → E) (uu : K) :
    kntInsC je n p ⟨0, n + p + 1, U⟩ ⟨0, n, Pw⟩ uu k r = .ok ⟨0, n, kntIns je n p U Pw uu k r⟩ := by
  unfold kntInsC kntIns
  rw [Arr.arg_ok le_rfl, ok_bind, Arr.arg_ok le_rfl, ok_bind, Arr.get_ok (by omega) (by omega), ok_bind,
    Arr.set_ok (by omega) (by omega), ok_bind,
    fillC_ok (fun i => Pw (k - p + i)) (fun i a b => Arr.get_ok (by omega) (by omega)) (by intro; omega)
      (by intro; omega), ok_bind]
  have e1 := forUpC_eq (fun RQ : (ℤ → E) × (ℤ → E) => ((⟨0, r, RQ.1⟩ : Arr E), (⟨0, r + r - 1, RQ.2⟩ : Arr E))) (lo := 1) (hi := r)
    (s := (fillRange je 0 r 0 (fun i => Pw (k - p + i)), upd je 0 (Pw (k - p))))
    (f := fun j (RQ : (ℤ → E) × (ℤ → E)) =>
      let Rw := cutPass U uu k (k - p + j) (r - j) RQ.1
      (Rw, upd (upd RQ.2 j (Rw 0)) (r + r - j) (Rw (r - j))))
    (fC := fun j (RQ : Arr E × Arr E) => do
      let Rw ← cutPassC ⟨0, n + p + 1, U⟩ uu k (k - p + j) (r - j) RQ.1
      let R0 ← Rw.get 0
      let Qw ← RQ.2.set j R0
      let R1 ← Rw.get (r - j)
      let Qw ← Qw.set (r + r - j) R1
      .ok (Rw, Qw))
    (by
      intro j t a b
      dsimp only
      rw [cutPassC_ok (by intro; omega), ok_bind, Arr.get_ok (by omega) (by omega), ok_bind,
        Arr.set_ok (by omega) (by omega), ok_bind, Arr.get_ok (by omega) (by omega), ok_bind,
        Arr.set_ok (by omega) (by omega), ok_bind])
  dsimp only at e1 ⊢
  rw [e1, ok_bind]
  by_cases h : k = p
  · rw [if_pos h, if_pos h]
    exact fillC_ok _ (fun i a b => Arr.get_ok (by omega) (by omega)) (by intro; omega) (by intro; omega)
  · rw [if_neg h, if_neg h]
    exact fillC_ok _ (fun i a b => Arr.get_ok (by omega) (by omega)) (by intro; omega) (by intro; omega)

theorem clampLeftC_ok [IsStrictOrderedRing K] {eps : K} (heps : 0 < eps) {n p : ℤ} (h1 : 1 ≤ p) (hpn : p ≤ n) (je : ℤ → E) (U : ℤ → K) (Pw : ℤ → E) :
    clampLeftC eps je n p ⟨0, n + p + 1, U⟩ ⟨0, n, Pw⟩ =
      .ok (⟨0, n + p + 1, (clampLeft eps je n p U Pw).1⟩, ⟨0, n, (clampLeft eps je n p U Pw).2⟩) := by
  unfold clampLeftC clampLeft
  have hs := findMult_pos heps (i := p) (j := 0) (p := p) (U := U) (by omega) (by omega) (by rw [add_zero])
  rw [Arr.get_ok (by omega) (by omega), ok_bind, findMultC_ok (by omega) le_rfl (by omega), ok_bind]
  have e : (if findMult eps p (U p) p U < p then
      kntInsC je n p ⟨0, n + p + 1, U⟩ ⟨0, n, Pw⟩ (U p) p (p - findMult eps p (U p) p U) else .ok ⟨0, n, Pw⟩) =
      (.ok ⟨0, n, if findMult eps p (U p) p U < p then
        kntIns je n p U Pw (U p) p (p - findMult eps p (U p) p U) else Pw⟩ : Chk (Arr E)) := by
    by_cases h : findMult eps p (U p) p U < p
    · rw [if_pos h, if_pos h]
      exact kntInsC_ok (by omega) (by omega) hpn le_rfl (by omega) je U Pw _
    · rw [if_neg h, if_neg h]
  rw [e, ok_bind, ok_bind, fillC_ok (fun _ => U p) (fun i a b => rfl) (by intro; omega) (by intro; omega), ok_bind]

theorem clampRightC_ok [IsStrictOrderedRing K] {eps : K} (heps : 0 < eps) {n p : ℤ} (h1 : 1 ≤ p) (hpn : p ≤ n) (je : ℤ → E) (U : ℤ → K) (Pw : ℤ → E) :
    clampRightC eps je n p ⟨0, n + p + 1, U⟩ ⟨0, n, Pw⟩ =
      .ok (⟨0, n + p + 1, (clampRight eps je n p U Pw).1⟩, ⟨0, n, (clampRight eps je n p U Pw).2⟩) := by
  unfold clampRightC clampRight
  have hs := findMult_pos heps (i := n) (j := 1) (p := p) (U := U) (by omega) (by omega) rfl
  rw [Arr.get_ok (by omega) (by omega), ok_bind, findMultC_ok (by omega) hpn (by omega), ok_bind]
  have e : (if findMult eps n (U (n + 1)) p U < p then
      kntInsC je n p ⟨0, n + p + 1, U⟩ ⟨0, n, Pw⟩ (U (n + 1)) (n + findMult eps n (U (n + 1)) p U)
        (p - findMult eps n (U (n + 1)) p U) else .ok ⟨0, n, Pw⟩) =
      (.ok ⟨0, n, if findMult eps n (U (n + 1)) p U < p then
        kntIns je n p U Pw (U (n + 1)) (n + findMult eps n (U (n + 1)) p U) (p - findMult eps n (U (n + 1)) p U)
        else Pw⟩ : Chk (Arr E)) := by
    by_cases h : findMult eps n (U (n + 1)) p U < p
    · rw [if_pos h, if_pos h]
      exact kntInsC_ok (by omega) (by omega) hpn (by omega) (by omega) je U Pw _
    · rw [if_neg h, if_neg h]
  rw [e, ok_bind, ok_bind, fillC_ok (fun _ => U (n + 1)) (fun i a b => rfl) (by intro; omega) (by intro; omega), ok_bind]

theorem clampKnotC_ok [IsStrictOrderedRing K] {eps : K} (heps : 0 < eps) {n p : ℤ} (h1 : 1 ≤ p) (hpn : p ≤ n) (je : ℤ → E) (U : ℤ → K) (Pw : ℤ → E)
    (l r : Bool) :
    clampKnotC eps je n p ⟨0, n + p + 1, U⟩ ⟨0, n, Pw⟩ l r =
      .ok (⟨0, n + p + 1, (clampKnot eps je n p U Pw l r).1⟩, ⟨0, n, (clampKnot eps je n p U Pw l r).2⟩) := by
  unfold clampKnotC clampKnot
  rw [Arr.arg_ok le_rfl, ok_bind, Arr.arg_ok le_rfl, ok_bind]
  cases l <;> cases r <;>
    simp [clampLeftC_ok heps h1 hpn, clampRightC_ok heps h1 hpn, ok_bind]

theorem unclampLeftC_ok {n p C : ℤ} (hC : C < p) (hpn : p ≤ n) (hC0 : 0 ≤ C) (U : ℤ → K) (Pw : ℤ → E) :
    unclampLeftC n p ⟨0, n + p + 1, U⟩ ⟨0, n, Pw⟩ C =
      .ok (⟨0, n + p + 1, (unclampLeft n p U Pw C).1⟩, ⟨0, n, (unclampLeft n p U Pw C).2⟩) := by
  unfold unclampLeftC unclampLeft
  have e1 := forUpC_eq (fun U : ℤ → K => (⟨0, n + p + 1, U⟩ : Arr K)) (lo := 0) (hi := C) (s := U)
    (f := fun i U => upd U (C - i) (U p - U (n + 1) + U (n - i)))
    (fC := fun i U => do
      let x ← Arr.get U p
      let y ← U.get (n + 1)
      let z ← U.get (n - i)
      U.set (C - i) (x - y + z))
    (by
      intro i U a b
      rw [Arr.get_ok (by omega) (by omega), ok_bind, Arr.get_ok (by omega) (by omega), ok_bind,
        Arr.get_ok (by omega) (by omega), ok_bind, Arr.set_ok (by omega) (by omega)])
  dsimp only at e1 ⊢
  rw [e1, ok_bind]
  generalize forUp 0 C (fun i U => upd U (C - i) (U p - U (n + 1) + U (n - i))) U = V
  have e2 := forUpC_eq (fun P : ℤ → E => (⟨0, n, P⟩ : Arr E)) (lo := p - C - 1) (hi := p - 2) (s := Pw)
    (f := fun i Pw =>
    forDown i 0 (fun j Pw =>
      upd Pw j ((1 - (V p - V (p + j - i - 1)) / (V (p + j + 1) - V (p + j - i - 1)))⁻¹ •
        (Pw j - ((V p - V (p + j - i - 1)) / (V (p + j + 1) - V (p + j - i - 1))) • Pw (j + 1)))) Pw)
    (fC := fun i Pw =>
    forDownC i 0 (fun j Pw => do
      let x ← (Arr.mk 0 (n + p + 1) V).get p
      let y ← (Arr.mk 0 (n + p + 1) V).get (p + j - i - 1)
      let z ← (Arr.mk 0 (n + p + 1) V).get (p + j + 1)
      let alpha := (x - y) / (z - y)
      let P0 ← Arr.get Pw j
      let P1 ← Pw.get (j + 1)
      Pw.set j ((1 - alpha)⁻¹ • (P0 - alpha • P1))) Pw)
    (by
      intro i P a b
      refine forDownC_eq (fun P : ℤ → E => (⟨0, n, P⟩ : Arr E)) (fun j P c d => ?_)
      dsimp only
      rw [Arr.get_ok (by omega) (by omega), ok_bind, Arr.get_ok (by omega) (by omega), ok_bind,
        Arr.get_ok (by omega) (by omega), ok_bind, Arr.get_ok (by omega) (by omega), ok_bind,
        Arr.get_ok (by omega) (by omega), ok_bind, Arr.set_ok (by omega) (by omega)])
  dsimp only at e2
  rw [e2, ok_bind]

theorem unclampRightC_ok {n p C : ℤ} (hC : C < p) (hpn : p ≤ n) (hC0 : 0 ≤ C) (U : ℤ → K) (Pw : ℤ → E) :
    unclampRightC n p ⟨0, n + p + 1, U⟩ ⟨0, n, Pw⟩ C =
      .ok (⟨0, n + p + 1, (unclampRight n p U Pw C).1⟩, ⟨0, n, (unclampRight n p U Pw C).2⟩) := by
  unfold unclampRightC unclampRight
  have e1 := forUpC_eq (fun U : ℤ → K => (⟨0, n + p + 1, U⟩ : Arr K)) (lo := 0) (hi := C) (s := U)
    (f := fun i U => upd U (n + p + 1 - C + i) (U (n + 1) - U p + U (p + i + 1)))
    (fC := fun i U => do
      let x ← Arr.get U (n + 1)
      let y ← U.get p
      let z ← U.get (p + i + 1)
      U.set (n + p + 1 - C + i) (x - y + z))
    (by
      intro i U a b
      rw [Arr.get_ok (by omega) (by omega), ok_bind, Arr.get_ok (by omega) (by omega), ok_bind,
        Arr.get_ok (by omega) (by omega), ok_bind, Arr.set_ok (by omega) (by omega)])
  dsimp only at e1 ⊢
  rw [e1, ok_bind]
  generalize forUp 0 C (fun i U => upd U (n + p + 1 - C + i) (U (n + 1) - U p + U (p + i + 1))) U = V
  have e2 := forUpC_eq (fun P : ℤ → E => (⟨0, n, P⟩ : Arr E)) (lo := p - C - 1) (hi := p - 2) (s := Pw)
    (f := fun i Pw =>
    forDown i 0 (fun j Pw =>
      upd Pw (n - j) (((V (n + 1) - V (n - j)) / (V (n - j + i + 2) - V (n - j)))⁻¹ •
        (Pw (n - j) - (1 - (V (n + 1) - V (n - j)) / (V (n - j + i + 2) - V (n - j))) • Pw (n - j - 1)))) Pw)
    (fC := fun i Pw =>
    forDownC i 0 (fun j Pw => do
      let x ← (Arr.mk 0 (n + p + 1) V).get (n + 1)
      let y ← (Arr.mk 0 (n + p + 1) V).get (n - j)
      let z ← (Arr.mk 0 (n + p + 1) V).get (n - j + i + 2)
      let alpha := (x - y) / (z - y)
      let P0 ← Arr.get Pw (n - j)
      let P1 ← Pw.get (n - j - 1)
      Pw.set (n - j) (alpha⁻¹ • (P0 - (1 - alpha) • P1))) Pw)
    (by
      intro i P a b
      refine forDownC_eq (fun P : ℤ → E => (⟨0, n, P⟩ : Arr E)) (fun j P c d => ?_)
      dsimp only
      rw [Arr.get_ok (by omega) (by omega), ok_bind, Arr.get_ok (by omega) (by omega), ok_bind,
        Arr.get_ok (by omega) (by omega), ok_bind, Arr.get_ok (by omega) (by omega), ok_bind,
        Arr.get_ok (by omega) (by omega), ok_bind, Arr.set_ok (by omega) (by omega)])
  dsimp only at e2
  rw [e2, ok_bind]

theorem unclampKnotC_ok {n p C : ℤ} (hC : C < p) (hpn : p ≤ n) (hC0 : 0 ≤ C) (U : ℤ → K) (Pw : ℤ → E) (l r : Bool) :
    unclampKnotC n p ⟨0, n + p + 1, U⟩ ⟨0, n, Pw⟩ C l r =
      .ok (⟨0, n + p + 1, (unclampKnot n p U Pw C l r).1⟩, ⟨0, n, (unclampKnot n p U Pw C l r).2⟩) := by
  unfold unclampKnotC unclampKnot
  rw [Arr.arg_ok le_rfl, ok_bind, Arr.arg_ok le_rfl, ok_bind]
  cases l <;> cases r <;>
    simp [unclampLeftC_ok hC hpn hC0, unclampRightC_ok hC hpn hC0, ok_bind]

end Igakit
