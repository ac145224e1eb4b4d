import Verif.Model.BoundsEval
import Verif.Proofs.Bounds

set_option linter.unusedSectionVars false

/-!
# Checked evaluation, derivatives of the basis, spans, Greville abscissae, knot vectors
-/

namespace Igakit
open Spec

theorem BSp.upd2_eq {α : Type} (A : ℤ → ℤ → α) (i j : ℤ) (v : α) : BSp.upd2 A i j v = Igakit.upd2 A i j v := by
  funext x y
  unfold BSp.upd2 Igakit.upd2
  by_cases hx : x = i
  · subst hx
    rw [upd_same]
    by_cases hy : y = j
    · subst hy; rw [upd_same, if_pos ⟨rfl, rfl⟩]
    · rw [upd_ne _ _ hy, if_neg (fun h => hy h.2)]
  · rw [upd_ne _ _ hx, if_neg (fun h => hx h.1)]

theorem Arr3.get_ok {α : Type} {l1 h1 l2 h2 l3 h3 : ℤ} {f : ℤ → ℤ → ℤ → α} {i j k : ℤ} (a : l1 ≤ i) (b : i ≤ h1)
    (c : l2 ≤ j) (d : j ≤ h2) (e : l3 ≤ k) (g : k ≤ h3) : (Arr3.mk l1 h1 l2 h2 l3 h3 f).get i j k = .ok (f i j k) := by
  unfold Arr3.get; rw [if_pos ⟨a, b, c, d, e, g⟩]

theorem Arr3.set_ok {α : Type} {l1 h1 l2 h2 l3 h3 : ℤ} {f : ℤ → ℤ → ℤ → α} {i j k : ℤ} {v : α} (a : l1 ≤ i)
    (b : i ≤ h1) (c : l2 ≤ j) (d : j ≤ h2) (e : l3 ≤ k) (g : k ≤ h3) :
    (Arr3.mk l1 h1 l2 h2 l3 h3 f).set i j k v = .ok ⟨l1, h1, l2, h2, l3, h3, BSp.upd3 f i j k v⟩ := by
  unfold Arr3.set; rw [if_pos ⟨a, b, c, d, e, g⟩]

/-- a loop over the first index of a column -/
theorem forUp_col {α : Type} (g : ℤ → α → α) (lo hi k : ℤ) (A : ℤ → ℤ → α) :
    forUp lo hi (fun x (A : ℤ → ℤ → α) => Igakit.upd2 A x k (g x (A x k))) A =
      fun x y => if lo ≤ x ∧ x ≤ hi ∧ y = k then g x (A x y) else A x y := by
  funext x y
  by_cases h : lo ≤ hi + 1
  · have := forUp_inv (f := fun x (A : ℤ → ℤ → α) => Igakit.upd2 A x k (g x (A x k)))
      (fun i C => ∀ x y, C x y = if lo ≤ x ∧ x < i ∧ y = k then g x (A x y) else A x y) (lo := lo) (hi := hi) (s := A) h
      (by intro x y; rw [if_neg (by omega)])
      (by
        intro i C h1 h2 ih x y
        unfold Igakit.upd2
        by_cases hx : x = i ∧ y = k
        · obtain ⟨rfl, rfl⟩ := hx
          rw [if_pos ⟨rfl, rfl⟩, if_pos ⟨h1, by omega, rfl⟩, ih, if_neg (by omega)]
        · rw [if_neg hx, ih]
          by_cases hc : lo ≤ x ∧ x < i ∧ y = k
          · rw [if_pos hc, if_pos (by omega)]
          · rw [if_neg hc, if_neg (by omega)])
    rw [this x y]
    by_cases hc : lo ≤ x ∧ x ≤ hi ∧ y = k
    · rw [if_pos hc, if_pos (by omega)]
    · rw [if_neg hc, if_neg (by omega)]
  · rw [forUp_empty (by omega), if_neg (by omega)]

variable {K : Type} [Field K] [LinearOrder K]
variable {E : Type} [AddCommGroup E] [Module K E]

theorem nduTableC_ok {i p : ℤ} (h0 : 0 ≤ p) (hpi : p ≤ i) (jk : ℤ → K) (j2 : ℤ → ℤ → K) (uu : K) (U : ℤ → K) :
    nduTableC i uu p ⟨0, i + p, U⟩ ⟨0, p, 0, p, j2⟩ ⟨1, p, jk⟩ ⟨1, p, jk⟩ =
      .ok ⟨0, p, 0, p, nduTable jk j2 i uu p U⟩ := by
  unfold nduTableC
  rw [Arr2.set_ok le_rfl h0 le_rfl h0, ok_bind]
  have key := forUpC_eq (fun s : NduSt K => ((⟨0, p, 0, p, s.ndu⟩, ⟨1, p, s.left⟩, ⟨1, p, s.right⟩) : Arr2 K × Arr K × Arr K))
    (lo := 1) (hi := p) (s := { ndu := upd2 j2 0 0 1, left := jk, right := jk }) (f := nduOuter i uu U)
    (fC := fun j (s : Arr2 K × Arr K × Arr K) => do
      let x ← (Arr.mk 0 (i + p) U).get (i + 1 - j)
      let left ← s.2.1.set j (uu - x)
      let y ← (Arr.mk 0 (i + p) U).get (i + j)
      let right ← s.2.2.set j (y - uu)
      let ns ← forUpC 0 (j - 1) (fun r (ns : Arr2 K × K) => do
        let rt ← right.get (r + 1)
        let lt ← left.get (j - r)
        let ndu ← ns.1.set j r (rt + lt)
        let x ← ndu.get r (j - 1)
        let y ← ndu.get j r
        let temp := x / y
        let ndu ← ndu.set r j (ns.2 + rt * temp)
        .ok (ndu, lt * temp)) (s.1, 0)
      let ndu ← ns.1.set j j ns.2
      .ok (ndu, left, right))
    (by
      intro j s a b
      dsimp only
      rw [Arr.get_ok (by omega) (by omega), ok_bind, Arr.set_ok a b, ok_bind, Arr.get_ok (by omega) (by omega), ok_bind,
        Arr.set_ok a b, ok_bind]
      have inner := forUpC_eq (fun s : (ℤ → ℤ → K) × K => ((⟨0, p, 0, p, s.1⟩, s.2) : Arr2 K × K))
        (lo := 0) (hi := j - 1) (s := (s.ndu, 0))
        (f := fun r (ns : (ℤ → ℤ → K) × K) =>
          let ndu := upd2 ns.1 j r (upd s.right j (U (i + j) - uu) (r + 1) + upd s.left j (uu - U (i + 1 - j)) (j - r))
          let temp := ndu r (j - 1) / ndu j r
          (upd2 ndu r j (ns.2 + upd s.right j (U (i + j) - uu) (r + 1) * temp),
            upd s.left j (uu - U (i + 1 - j)) (j - r) * temp))
        (fC := fun r (ns : Arr2 K × K) => do
          let rt ← (Arr.mk 1 p (upd s.right j (U (i + j) - uu))).get (r + 1)
          let lt ← (Arr.mk 1 p (upd s.left j (uu - U (i + 1 - j)))).get (j - r)
          let ndu ← ns.1.set j r (rt + lt)
          let x ← ndu.get r (j - 1)
          let y ← ndu.get j r
          let temp := x / y
          let ndu ← ndu.set r j (ns.2 + rt * temp)
          .ok (ndu, lt * temp))
        (by
          intro r ns c d
          dsimp only
          rw [Arr.get_ok (by omega) (by omega), ok_bind, Arr.get_ok (by omega) (by omega), ok_bind,
            Arr2.set_ok (by omega) (by omega) (by omega) (by omega), ok_bind,
            Arr2.get_ok (by omega) (by omega) (by omega) (by omega), ok_bind,
            Arr2.get_ok (by omega) (by omega) (by omega) (by omega), ok_bind,
            Arr2.set_ok (by omega) (by omega) (by omega) (by omega), ok_bind])
      refine (congrArg (· >>= _) inner).trans ?_
      rw [ok_bind]
      dsimp only
      rw [Arr2.set_ok (by omega) (by omega) (by omega) (by omega), ok_bind]
      rfl)
  refine (congrArg (· >>= _) key).trans ?_
  rfl

theorem dersKC_ok {p n r k : ℤ} (hr0 : 0 ≤ r) (hrp : r ≤ p) (hk1 : 1 ≤ k) (hkn : k ≤ n) (ndu : ℤ → ℤ → K)
    (st : DersSt K) (hs : (st.s1 = 0 ∧ st.s2 = 1) ∨ (st.s1 = 1 ∧ st.s2 = 0)) :
    dersKC ⟨0, p, 0, p, ndu⟩ p r k ⟨⟨0, 1, 0, p, st.a⟩, st.s1, st.s2, ⟨0, p, 0, n, st.ders⟩⟩ =
      .ok ⟨⟨0, 1, 0, p, (dersK ndu p r k st).a⟩, (dersK ndu p r k st).s1, (dersK ndu p r k st).s2,
        ⟨0, p, 0, n, (dersK ndu p r k st).ders⟩⟩ := by
  have h1 : dersFirstC ⟨0, p, 0, p, ndu⟩ p r k ⟨⟨0, 1, 0, p, st.a⟩, st.s1, st.s2, ⟨0, p, 0, n, st.ders⟩⟩ =
      .ok (⟨0, 1, 0, p, (dersFirst ndu p r k st).1⟩, (dersFirst ndu p r k st).2) := by
    unfold dersFirstC dersFirst
    dsimp only
    by_cases hc : r ≥ k
    · simp only [if_pos hc]
      rw [Arr2.get_ok (by omega) (by omega) (by omega) (by omega), ok_bind,
        Arr2.get_ok (by omega) (by omega) (by omega) (by omega), ok_bind,
        Arr2.set_ok (by omega) (by omega) (by omega) (by omega), ok_bind,
        Arr2.get_ok (by omega) (by omega) (by omega) (by omega), ok_bind,
        Arr2.get_ok (by omega) (by omega) (by omega) (by omega), ok_bind]
    · simp only [if_neg hc]
  have h2 : ∀ ad : (ℤ → ℤ → K) × K, dersMidC ⟨0, p, 0, p, ndu⟩ p r k st.s1 st.s2 (⟨0, 1, 0, p, ad.1⟩, ad.2) =
      .ok (⟨0, 1, 0, p, (dersMid ndu p r k st.s1 st.s2 ad).1⟩, (dersMid ndu p r k st.s1 st.s2 ad).2) := by
    intro ad
    refine forUpC_eq (fun s : (ℤ → ℤ → K) × K => ((⟨0, 1, 0, p, s.1⟩, s.2) : Arr2 K × K)) ?_
    intro j ad a b
    have b1 : 1 ≤ j ∧ 0 ≤ r - k + j := by
      by_cases h : r - k > -1
      · rw [if_pos h] at a; omega
      · rw [if_neg h] at a; omega
    have b2 : j ≤ p ∧ r - k + j ≤ p ∧ k ≤ p := by
      by_cases h : r - 1 ≤ p - k
      · rw [if_pos h] at b
        by_cases h : r - k > -1
        · rw [if_pos h] at a; omega
        · rw [if_neg h] at a; omega
      · rw [if_neg h] at b
        by_cases h : r - k > -1
        · rw [if_pos h] at a; omega
        · rw [if_neg h] at a; omega
    dsimp only
    rw [Arr2.get_ok (by omega) (by omega) (by omega) (by omega), ok_bind,
      Arr2.get_ok (by omega) (by omega) (by omega) (by omega), ok_bind,
      Arr2.get_ok (by omega) (by omega) (by omega) (by omega), ok_bind,
      Arr2.set_ok (by omega) (by omega) (by omega) (by omega), ok_bind,
      Arr2.get_ok (by omega) (by omega) (by omega) (by omega), ok_bind,
      Arr2.get_ok (by omega) (by omega) (by omega) (by omega), ok_bind]
  have h3 : ∀ ad : (ℤ → ℤ → K) × K, dersLastC ⟨0, p, 0, p, ndu⟩ p r k st.s1 st.s2 (⟨0, 1, 0, p, ad.1⟩, ad.2) =
      .ok (⟨0, 1, 0, p, (dersLast ndu p r k st.s1 st.s2 ad).1⟩, (dersLast ndu p r k st.s1 st.s2 ad).2) := by
    intro ad
    unfold dersLastC dersLast
    dsimp only
    by_cases hc : r ≤ p - k
    · simp only [if_pos hc]
      rw [Arr2.get_ok (by omega) (by omega) (by omega) (by omega), ok_bind,
        Arr2.get_ok (by omega) (by omega) (by omega) (by omega), ok_bind,
        Arr2.set_ok (by omega) (by omega) (by omega) (by omega), ok_bind,
        Arr2.get_ok (by omega) (by omega) (by omega) (by omega), ok_bind,
        Arr2.get_ok (by omega) (by omega) (by omega) (by omega), ok_bind]
    · simp only [if_neg hc]
  unfold dersKC
  rw [h1, ok_bind]
  dsimp only
  rw [h2, ok_bind, h3, ok_bind]
  dsimp only
  rw [Arr2.set_ok (by omega) (by omega) (by omega) (by omega), ok_bind]
  rfl

/-- the encoding of the state of the second part of `DersBasisFuns` -/
abbrev DersSt.enc (p n : ℤ) (st : DersSt K) : DersStC K :=
  ⟨⟨0, 1, 0, p, st.a⟩, st.s1, st.s2, ⟨0, p, 0, n, st.ders⟩⟩

theorem dersRC_ok {p n r : ℤ} (hr0 : 0 ≤ r) (hrp : r ≤ p) (ndu : ℤ → ℤ → K) (st : DersSt K) :
    dersRC ⟨0, p, 0, p, ndu⟩ p n r (st.enc p n) = .ok ((dersR ndu p n r st).enc p n) := by
  unfold dersRC
  dsimp only
  rw [Arr2.set_ok (by omega) (by omega) (by omega) (by omega), ok_bind]
  exact forUpC_inv (DersSt.enc p n) (s := { a := upd2 st.a 0 0 1, s1 := 0, s2 := 1, ders := st.ders })
    (fun _ st => (st.s1 = 0 ∧ st.s2 = 1) ∨ (st.s1 = 1 ∧ st.s2 = 0)) (Or.inl ⟨rfl, rfl⟩)
    (by
      intro k st a b hs
      refine ⟨dersKC_ok hr0 hrp a b ndu st hs, ?_⟩
      unfold dersK
      dsimp only
      tauto)

theorem dersScaleC_ok {p n : ℤ} (ders : ℤ → ℤ → K) :
    dersScaleC p n ⟨0, p, 0, n, ders⟩ = .ok ((dersScale p n ders).1, ⟨0, p, 0, n, (dersScale p n ders).2⟩) := by
  refine forUpC_eq (fun s : ℤ × (ℤ → ℤ → K) => ((s.1, ⟨0, p, 0, n, s.2⟩) : ℤ × Arr2 K)) (s := (p, ders)) ?_
  rintro k ⟨r, D⟩ a b
  dsimp only
  have := forUpC_eq (fun D : ℤ → ℤ → K => (⟨0, p, 0, n, D⟩ : Arr2 K)) (lo := 0) (hi := p) (s := D)
    (f := fun x D => upd2 D x k (D x k * (r : K)))
    (fC := fun x D => do
      let v ← Arr2.get D x k
      D.set x k (v * (r : K)))
    (by
      intro x D c d
      rw [Arr2.get_ok (by omega) (by omega) (by omega) (by omega), ok_bind,
        Arr2.set_ok (by omega) (by omega) (by omega) (by omega)])
  rw [forUp_col (fun _ v => v * (r : K))] at this
  rw [this, ok_bind]

theorem dersBasisFunsC_ok {i p n m : ℤ} (h0 : 0 ≤ p) (hpi : p ≤ i) (hm : i + p ≤ m) (hn : 0 ≤ n) (jk : ℤ → K)
    (j2 ja jd : ℤ → ℤ → K) (uu : K) (U : ℤ → K) :
    dersBasisFunsC jk j2 ja i uu p n ⟨0, m, U⟩ ⟨0, p, 0, n, jd⟩ =
      .ok ⟨0, p, 0, n, dersBasisFuns jk j2 ja jd i uu p n U⟩ := by
  unfold dersBasisFunsC
  rw [Arr.arg_ok hm, ok_bind, nduTableC_ok h0 hpi, ok_bind]
  have h1 := forUpC_eq (fun D : ℤ → ℤ → K => (⟨0, p, 0, n, D⟩ : Arr2 K)) (lo := 0) (hi := p) (s := jd)
    (f := fun x D => upd2 D x 0 (nduTable jk j2 i uu p U x p))
    (fC := fun x D => do
      let v ← (Arr2.mk 0 p 0 p (nduTable jk j2 i uu p U)).get x p
      Arr2.set D x 0 v)
    (by
      intro x D c d
      rw [Arr2.get_ok (by omega) (by omega) (by omega) (by omega), ok_bind,
        Arr2.set_ok (by omega) (by omega) (by omega) (by omega)])
  rw [forUp_col (fun x _ => nduTable jk j2 i uu p U x p)] at h1
  rw [h1, ok_bind]
  have h2 := forUpC_eq (DersSt.enc p n) (lo := 0) (hi := p)
    (s := { a := ja, s1 := 0, s2 := 1,
            ders := fun x y => if 0 ≤ x ∧ x ≤ p ∧ y = 0 then nduTable jk j2 i uu p U x p else jd x y })
    (f := dersR (nduTable jk j2 i uu p U) p n) (fC := dersRC ⟨0, p, 0, p, nduTable jk j2 i uu p U⟩ p n)
    (fun r st a b => dersRC_ok a b _ st)
  refine (congrArg (· >>= _) h2).trans ?_
  rw [ok_bind]
  dsimp only [DersSt.enc]
  rw [dersScaleC_ok, ok_bind]
  rfl

theorem evaluate1C_ok {n p r m : ℤ} (h0 : 0 ≤ p) (hpn : p ≤ n) (hm : n + p + 1 ≤ m) (jk : ℤ → K) (je : ℤ → E) (U : ℤ → K)
    (Pw : ℤ → E) (X : ℤ → K) :
    evaluate1C jk n p ⟨0, m, U⟩ ⟨0, n, Pw⟩ r ⟨0, r, X⟩ ⟨0, r, je⟩ =
      .ok ⟨0, r, BSp.evaluate1 jk je n p U Pw r X⟩ := by
  unfold evaluate1C
  rw [Arr.arg_ok hm, ok_bind, Arr.arg_ok le_rfl, ok_bind, Arr.arg_ok le_rfl, ok_bind, Arr.arg_ok le_rfl, ok_bind]
  refine forUpC_eq (fun C : ℤ → E => (⟨0, r, C⟩ : Arr E)) ?_
  intro i Cw a b
  obtain ⟨s1, s2⟩ := findSpan_range (U := U) (X i) h0 hpn
  rw [Arr.get_ok a b, ok_bind, findSpanC_ok h0 hpn le_rfl, ok_bind,
    basisFunsC_ok h0 s1 (by omega) le_rfl, ok_bind]
  have inner := forUpC_eq (id : E → E) (lo := 0) (hi := p) (s := 0)
    (f := fun j C => C + basisFuns jk (findSpan n p (X i) U) (X i) p U j • Pw (findSpan n p (X i) U - p + j))
    (fC := fun j C => do
      let b ← (Arr.mk 0 p (basisFuns jk (findSpan n p (X i) U) (X i) p U)).get j
      let P ← (Arr.mk 0 n Pw).get (findSpan n p (X i) U - p + j)
      .ok (C + b • P))
    (by
      intro j C c d
      rw [Arr.get_ok c d, ok_bind, Arr.get_ok (by omega) (by omega), ok_bind]
      rfl)
  refine (congrArg (· >>= _) inner).trans ?_
  rw [ok_bind, Arr.set_ok a b]
  rfl

theorem axisTables_span {n p r : ℤ} (hr : -1 ≤ r) (jk : ℤ → K) (U X : ℤ → K) :
    ∀ ix, 0 ≤ ix → ix ≤ r → (BSp.axisTables jk n p U r X).1 ix = findSpan n p (X ix) U := by
  have := forUp_inv (f := fun ix (t : (ℤ → ℤ) × (ℤ → ℤ → K)) =>
    let span := upd t.1 ix (findSpan n p (X ix) U)
    (span, upd t.2 ix (basisFuns jk (span ix) (X ix) p U)))
    (fun i t => ∀ ix, 0 ≤ ix → ix < i → t.1 ix = findSpan n p (X ix) U) (lo := 0) (hi := r)
    (s := (fun _ => 0, fun _ => jk)) (by omega) (by intro ix h1 h2; omega)
    (by
      intro i t h1 h2 ih ix a b
      dsimp only
      by_cases h : ix = i
      · subst h; rw [upd_same]
      · rw [upd_ne _ _ h]; exact ih ix a (by omega))
  intro ix a b
  exact this ix a (by omega)

theorem axisTablesC_ok {n p r m : ℤ} (h0 : 0 ≤ p) (hpn : p ≤ n) (hm : n + p + 1 ≤ m) (jk : ℤ → K) (U X : ℤ → K) :
    axisTablesC jk n p ⟨0, m, U⟩ r ⟨0, r, X⟩ =
      .ok (⟨0, r, (BSp.axisTables jk n p U r X).1⟩, ⟨0, r, fun ix => ⟨0, p, (BSp.axisTables jk n p U r X).2 ix⟩⟩) := by
  refine forUpC_eq (fun t : (ℤ → ℤ) × (ℤ → ℤ → K) =>
    ((⟨0, r, t.1⟩, ⟨0, r, fun ix => ⟨0, p, t.2 ix⟩⟩) : Arr ℤ × Arr (Arr K))) (s := (fun _ => 0, fun _ => jk)) ?_
  intro ix t a b
  obtain ⟨s1, s2⟩ := findSpan_range (U := U) (X ix) h0 hpn
  dsimp only
  rw [Arr.get_ok a b, ok_bind, findSpanC_ok h0 hpn hm, ok_bind, Arr.set_ok a b, ok_bind, Arr.get_ok a b, ok_bind,
    Arr.get_ok a b, ok_bind, upd_same, basisFunsC_ok h0 s1 (by omega) le_rfl, ok_bind, Arr.set_ok a b, ok_bind]
  congr 3
  funext x
  by_cases hx : x = ix
  · subst hx; rw [upd_same, upd_same]
  · rw [upd_ne _ _ hx, upd_ne _ _ hx]

theorem evaluate2C_ok {nx px rx mx ny py ry my : ℤ} (hx0 : 0 ≤ px) (hxn : px ≤ nx) (hmx : nx + px + 1 ≤ mx) (hy0 : 0 ≤ py)
    (hyn : py ≤ ny) (hmy : ny + py + 1 ≤ my) (jk : ℤ → K) (je : ℤ → ℤ → E) (Ux Uy : ℤ → K) (Pw : ℤ → ℤ → E) (X Y : ℤ → K) :
    evaluate2C jk nx px ⟨0, mx, Ux⟩ ny py ⟨0, my, Uy⟩ ⟨0, nx, 0, ny, Pw⟩ rx ⟨0, rx, X⟩ ry ⟨0, ry, Y⟩
        ⟨0, rx, 0, ry, je⟩ =
      .ok ⟨0, rx, 0, ry, BSp.evaluate2 jk je nx px Ux ny py Uy Pw rx X ry Y⟩ := by
  unfold evaluate2C
  rw [axisTablesC_ok hx0 hxn hmx, ok_bind, axisTablesC_ok hy0 hyn hmy, ok_bind]
  refine forUpC_eq (fun C : ℤ → ℤ → E => (⟨0, rx, 0, ry, C⟩ : Arr2 E)) ?_
  intro ix Cw a b
  obtain ⟨s1, s2⟩ := findSpan_range (U := Ux) (X ix) hx0 hxn
  have ex := axisTables_span (n := nx) (p := px) (by omega : -1 ≤ rx) jk Ux X ix a b
  rw [← ex] at s1 s2
  rw [Arr.get_ok a b, ok_bind]
  refine forUpC_eq (fun C : ℤ → ℤ → E => (⟨0, rx, 0, ry, C⟩ : Arr2 E)) ?_
  intro iy Cw c d
  obtain ⟨t1, t2⟩ := findSpan_range (U := Uy) (Y iy) hy0 hyn
  have ey := axisTables_span (n := ny) (p := py) (by omega : -1 ≤ ry) jk Uy Y iy c d
  rw [← ey] at t1 t2
  rw [Arr.get_ok c d, ok_bind]
  have inner := forUpC_eq (id : E → E) (lo := 0) (hi := px) (s := 0)
    (f := fun jx C => forUp 0 py (fun jy C =>
          C + ((BSp.axisTables jk nx px Ux rx X).2 ix jx * (BSp.axisTables jk ny py Uy ry Y).2 iy jy) •
            Pw ((BSp.axisTables jk nx px Ux rx X).1 ix - px + jx) ((BSp.axisTables jk ny py Uy ry Y).1 iy - py + jy)) C)
    (fC := fun jx C => forUpC 0 py (fun jy C => do
          let bx ← (Arr.mk 0 rx fun ix => Arr.mk 0 px ((BSp.axisTables jk nx px Ux rx X).2 ix)).get ix
          let bx ← bx.get jx
          let bY ← (Arr.mk 0 ry fun iy => Arr.mk 0 py ((BSp.axisTables jk ny py Uy ry Y).2 iy)).get iy
          let bY ← bY.get jy
          let P ← (Arr2.mk 0 nx 0 ny Pw).get ((BSp.axisTables jk nx px Ux rx X).1 ix - px + jx)
            ((BSp.axisTables jk ny py Uy ry Y).1 iy - py + jy)
          .ok (C + (bx * bY) • P)) C)
    (by
      intro jx C e f
      refine forUpC_eq (id : E → E) ?_
      intro jy C g h
      rw [Arr.get_ok a b, ok_bind, Arr.get_ok e f, ok_bind, Arr.get_ok c d, ok_bind, Arr.get_ok g h, ok_bind,
        Arr2.get_ok (by omega) (by omega) (by omega) (by omega), ok_bind]
      rfl)
  refine (congrArg (· >>= _) inner).trans ?_
  rw [ok_bind, Arr2.set_ok a b c d, ← BSp.upd2_eq]
  rfl

theorem evaluate3C_ok {nx px rx mx ny py ry my nz pz rz mz : ℤ} (hx0 : 0 ≤ px) (hxn : px ≤ nx) (hmx : nx + px + 1 ≤ mx)
    (hy0 : 0 ≤ py) (hyn : py ≤ ny) (hmy : ny + py + 1 ≤ my) (hz0 : 0 ≤ pz) (hzn : pz ≤ nz) (hmz : nz + pz + 1 ≤ mz)
    (jk : ℤ → K) (je : ℤ → ℤ → ℤ → E) (Ux Uy Uz : ℤ → K) (Pw : ℤ → ℤ → ℤ → E) (X Y Z : ℤ → K) :
    evaluate3C jk nx px ⟨0, mx, Ux⟩ ny py ⟨0, my, Uy⟩ nz pz ⟨0, mz, Uz⟩ ⟨0, nx, 0, ny, 0, nz, Pw⟩ rx ⟨0, rx, X⟩ ry
        ⟨0, ry, Y⟩ rz ⟨0, rz, Z⟩ ⟨0, rx, 0, ry, 0, rz, je⟩ =
      .ok ⟨0, rx, 0, ry, 0, rz, BSp.evaluate3 jk je nx px Ux ny py Uy nz pz Uz Pw rx X ry Y rz Z⟩ := by
  unfold evaluate3C
  rw [axisTablesC_ok hx0 hxn hmx, ok_bind, axisTablesC_ok hy0 hyn hmy, ok_bind, axisTablesC_ok hz0 hzn hmz, ok_bind]
  refine forUpC_eq (fun C : ℤ → ℤ → ℤ → E => (⟨0, rx, 0, ry, 0, rz, C⟩ : Arr3 E)) ?_
  intro ix Cw a b
  obtain ⟨s1, s2⟩ := findSpan_range (U := Ux) (X ix) hx0 hxn
  have ex := axisTables_span (n := nx) (p := px) (by omega : -1 ≤ rx) jk Ux X ix a b
  rw [← ex] at s1 s2
  rw [Arr.get_ok a b, ok_bind]
  refine forUpC_eq (fun C : ℤ → ℤ → ℤ → E => (⟨0, rx, 0, ry, 0, rz, C⟩ : Arr3 E)) ?_
  intro iy Cw c d
  obtain ⟨t1, t2⟩ := findSpan_range (U := Uy) (Y iy) hy0 hyn
  have ey := axisTables_span (n := ny) (p := py) (by omega : -1 ≤ ry) jk Uy Y iy c d
  rw [← ey] at t1 t2
  rw [Arr.get_ok c d, ok_bind]
  refine forUpC_eq (fun C : ℤ → ℤ → ℤ → E => (⟨0, rx, 0, ry, 0, rz, C⟩ : Arr3 E)) ?_
  intro iz Cw c' d'
  obtain ⟨z1, z2⟩ := findSpan_range (U := Uz) (Z iz) hz0 hzn
  have ez := axisTables_span (n := nz) (p := pz) (by omega : -1 ≤ rz) jk Uz Z iz c' d'
  rw [← ez] at z1 z2
  rw [Arr.get_ok c' d', ok_bind]
  have inner := forUpC_eq (id : E → E) (lo := 0) (hi := px) (s := 0)
    (f := fun jx C => forUp 0 py (fun jy C => forUp 0 pz (fun jz C =>
          C + ((BSp.axisTables jk nx px Ux rx X).2 ix jx * (BSp.axisTables jk ny py Uy ry Y).2 iy jy *
            (BSp.axisTables jk nz pz Uz rz Z).2 iz jz) •
            Pw ((BSp.axisTables jk nx px Ux rx X).1 ix - px + jx) ((BSp.axisTables jk ny py Uy ry Y).1 iy - py + jy)
              ((BSp.axisTables jk nz pz Uz rz Z).1 iz - pz + jz)) C) C)
    (fC := fun jx C => forUpC 0 py (fun jy C => forUpC 0 pz (fun jz C => do
          let bx ← (Arr.mk 0 rx fun ix => Arr.mk 0 px ((BSp.axisTables jk nx px Ux rx X).2 ix)).get ix
          let bx ← bx.get jx
          let bY ← (Arr.mk 0 ry fun iy => Arr.mk 0 py ((BSp.axisTables jk ny py Uy ry Y).2 iy)).get iy
          let bY ← bY.get jy
          let bz ← (Arr.mk 0 rz fun iz => Arr.mk 0 pz ((BSp.axisTables jk nz pz Uz rz Z).2 iz)).get iz
          let bz ← bz.get jz
          let P ← (Arr3.mk 0 nx 0 ny 0 nz Pw).get ((BSp.axisTables jk nx px Ux rx X).1 ix - px + jx)
            ((BSp.axisTables jk ny py Uy ry Y).1 iy - py + jy) ((BSp.axisTables jk nz pz Uz rz Z).1 iz - pz + jz)
          .ok (C + (bx * bY * bz) • P)) C) C)
    (by
      intro jx C e f
      refine forUpC_eq (id : E → E) ?_
      intro jy C g h
      refine forUpC_eq (id : E → E) ?_
      intro jz C k l
      rw [Arr.get_ok a b, ok_bind, Arr.get_ok e f, ok_bind, Arr.get_ok c d, ok_bind, Arr.get_ok g h, ok_bind,
        Arr.get_ok c' d', ok_bind, Arr.get_ok k l, ok_bind,
        Arr3.get_ok (by omega) (by omega) (by omega) (by omega) (by omega) (by omega), ok_bind]
      rfl)
  refine (congrArg (· >>= _) inner).trans ?_
  rw [ok_bind, Arr3.set_ok a b c d c' d']
  rfl

theorem spanIndexC_ok {p m r : ℤ} (h0 : 0 ≤ p) (hr : 1 ≤ r) (eps : K) (U : ℤ → K) (ji : ℤ → ℤ) :
    spanIndexC eps p m ⟨0, m, U⟩ r ⟨1, r, ji⟩ =
      .ok ((spanIndexLoop eps p m U r ji).s, ⟨1, r, (spanIndexLoop eps p m U r ji).I⟩,
        (spanIndexLoop eps p m U r ji).done) := by
  refine forUpC_inv (fun st : SpanIdxSt => ((st.s, ⟨1, r, st.I⟩, st.done) : ℤ × Arr ℤ × Bool))
    (s := { s := 1, I := ji, done := false }) (fun _ st => 1 ≤ st.s ∧ (st.done = false → st.s ≤ r)) ⟨le_rfl, fun _ => hr⟩ ?_
  rintro k ⟨s, I, done⟩ a b ⟨h1, h2⟩
  dsimp only at h1 h2 ⊢
  cases done with
  | true => simp only [if_true]; exact ⟨trivial, h1, by simp⟩
  | false =>
    simp only [Bool.false_eq_true, if_false]
    rw [Arr.get_ok (by omega) (by omega), ok_bind, Arr.get_ok (by omega) (by omega), ok_bind]
    by_cases hc : |U k - U (k + 1)| > eps
    · simp only [if_pos hc]
      rw [Arr.set_ok h1 (h2 rfl), ok_bind]
      refine ⟨rfl, by omega, ?_⟩
      intro h
      simp only [decide_eq_false_iff_not, not_lt, gt_iff_lt] at h
      exact h
    · simp only [if_neg hc]
      exact ⟨trivial, h1, fun _ => h2 rfl⟩

theorem grevilleC_ok {p m : ℤ} (h0 : 0 ≤ p) (U jk : ℤ → K) :
    grevilleC p m ⟨0, m, U⟩ ⟨0, m - (p + 1), jk⟩ =
      .ok ⟨0, m - (p + 1), fillRange jk 0 (m - (p + 1)) 0 (greville p U)⟩ := by
  unfold grevilleC
  have := forUpC_eq (fun X : ℤ → K => (⟨0, m - (p + 1), X⟩ : Arr K)) (lo := 0) (hi := m - (p + 1)) (s := jk)
    (f := fun i X => upd X (i + 0) (greville p U i))
    (fC := fun i X => do
      let s ← forUpC (i + 1) (i + p) (fun j s => do
        let x ← (Arr.mk 0 m U).get j
        .ok (s + x)) 0
      Arr.set X i (s / (p : K)))
    (by
      intro i X a b
      have inner := forUpC_eq (id : K → K) (lo := i + 1) (hi := i + p) (s := 0)
        (f := fun j s => s + U j)
        (fC := fun j s => do
          let x ← (Arr.mk 0 m U).get j
          .ok (s + x))
        (by
          intro j s c d
          rw [Arr.get_ok (by omega) (by omega), ok_bind]
          rfl)
      refine (congrArg (· >>= _) inner).trans ?_
      rw [ok_bind, Arr.set_ok a b, add_zero]
      rfl)
  rw [forUp_fillRange] at this
  exact this

theorem knotVectorInner_aux {E p C : ℤ} (hE : 1 ≤ E) (hC : C ≤ p) (Ui dU : K) (jk : ℤ → K) (h0 : 0 ≤ p) :
    forUpC 1 (E - 1) (fun i s => forUpC 1 (p - C) (fun _ (s : ℤ × Arr K) => do
      let U ← s.2.set s.1 (Ui + (i : K) * dU)
      .ok (s.1 + 1, U)) s) (p + 1, ⟨0, knotVectorM E p C, jk⟩) =
    .ok ((knotVectorInner jk E p C Ui dU).1, ⟨0, knotVectorM E p C, (knotVectorInner jk E p C Ui dU).2⟩) := by
  have hm : ∀ i, 1 ≤ i → i ≤ E → p + 1 + (i - 1) * (p - C) + p ≤ knotVectorM E p C := by
    intro i h1 h2
    unfold knotVectorM
    nlinarith
  refine forUpC_inv (fun s : ℤ × (ℤ → K) => ((s.1, ⟨0, knotVectorM E p C, s.2⟩) : ℤ × Arr K)) (s := (p + 1, jk))
    (fun i s => s.1 = p + 1 + (i - 1) * (p - C)) (by simp) ?_
  intro i s a b hs
  have hi := hm i a (by omega)
  have hi' := hm (i + 1) (by omega) (by omega)
  have e : (i + 1 - 1) * (p - C) = (i - 1) * (p - C) + (p - C) := by ring
  have e0 : 0 ≤ (i - 1) * (p - C) := mul_nonneg (by omega) (by omega)
  rw [e] at hi'
  constructor
  · refine forUpC_inv (fun s : ℤ × (ℤ → K) => ((s.1, ⟨0, knotVectorM E p C, s.2⟩) : ℤ × Arr K)) (s := s)
      (fun j s => s.1 = p + 1 + (i - 1) * (p - C) + (j - 1)) (by rw [hs]; ring) ?_
    intro j s c d hs
    dsimp only
    rw [Arr.set_ok (by omega) (by omega), ok_bind]
    exact ⟨rfl, by rw [hs]; ring⟩
  · have := forUp_inv (f := fun _ (s : ℤ × (ℤ → K)) => (s.1 + 1, upd s.2 s.1 (Ui + (i : K) * dU)))
      (fun j s => s.1 = p + 1 + (i - 1) * (p - C) + (j - 1)) (lo := 1) (hi := p - C) (s := s) (by omega) (by rw [hs]; ring)
      (by intro j s c d hs; dsimp only; rw [hs]; ring)
    rw [this]; ring

theorem knotVectorC_ok {E p C : ℤ} (hE : 1 ≤ E) (hp : 1 ≤ p) (hC0 : 0 ≤ C) (hC : C < p) (jk : ℤ → K) (Ui Uf : K)
    (wrap : Bool) :
    ∃ V, iga_KnotVector jk E p C Ui Uf wrap = .ok V ∧
      knotVectorC E p C Ui Uf wrap (knotVectorM E p C) ⟨0, knotVectorM E p C, jk⟩ = .ok ⟨0, knotVectorM E p C, V⟩ := by
  unfold iga_KnotVector
  rw [if_pos ⟨hE, hp, hC0, hC⟩]
  refine ⟨_, rfl, ?_⟩
  have hm : 2 * p + 1 ≤ knotVectorM E p C := by
    unfold knotVectorM
    have : 0 ≤ (E - 1) * (p - C) := mul_nonneg (by omega) (by omega)
    omega
  unfold knotVectorC
  dsimp only
  rw [knotVectorInner_aux hE hC.le _ _ _ (by omega), ok_bind]
  dsimp only
  have h2 := forUpC_eq (fun U : ℤ → K => (⟨0, knotVectorM E p C, U⟩ : Arr K)) (lo := 0) (hi := p)
    (s := (knotVectorInner jk E p C Ui ((Uf - Ui) / (E : K))).2)
    (f := fun k U => upd (upd U k Ui) (knotVectorM E p C - k) Uf)
    (fC := fun k U => do
      let U ← Arr.set U k Ui
      U.set (knotVectorM E p C - k) Uf)
    (by
      intro k U a b
      rw [Arr.set_ok (by omega) (by omega), ok_bind, Arr.set_ok (by omega) (by omega)])
  rw [h2, ok_bind]
  cases wrap with
  | false => rfl
  | true =>
    simp only [if_true]
    refine forUpC_eq (fun U : ℤ → K => (⟨0, knotVectorM E p C, U⟩ : Arr K)) ?_
    intro k U a b
    rw [Arr.get_ok (by omega) (by omega), ok_bind, Arr.set_ok (by omega) (by omega), ok_bind,
      Arr.get_ok (by omega) (by omega), ok_bind, Arr.set_ok (by omega) (by omega)]

theorem skipEqualC_ok {n m : ℤ} (hm : n + 1 ≤ m) (U : ℤ → K) :
    ∀ (fuel : ℕ) (i : ℤ), 0 ≤ i → n + 1 - i ≤ fuel → skipEqualC n ⟨0, m, U⟩ fuel i = .ok (skipEqual n U fuel i) := by
  intro fuel
  induction fuel with
  | zero =>
    intro i h0 hf
    unfold skipEqualC skipEqual
    rw [if_neg (by push_cast at hf; omega)]
  | succ k ih =>
    intro i h0 hf
    unfold skipEqualC skipEqual
    by_cases hi : i ≤ n
    · rw [if_pos hi, Arr.get_ok h0 (by omega), ok_bind, Arr.get_ok (by omega) (by omega), ok_bind]
      by_cases hU : U i = U (i + 1)
      · rw [if_pos hU, if_pos ⟨hi, hU⟩, ih (i + 1) (by omega) (by push_cast at hf; omega)]
      · rw [if_neg hU, if_neg (fun h => hU h.2)]
    · rw [if_neg hi, if_neg (fun h => hi h.1)]

theorem skipEqual_ge (n : ℤ) (U : ℤ → K) : ∀ (fuel : ℕ) (i : ℤ), i ≤ skipEqual n U fuel i := by
  intro fuel
  induction fuel with
  | zero => intro i; exact le_rfl
  | succ k ih =>
    intro i
    unfold skipEqual
    split_ifs
    · have := ih (i + 1); omega
    · exact le_rfl

theorem countSpansC_ok {n p m : ℤ} (h0 : 0 ≤ p) (hm : n + 1 ≤ m) (U : ℤ → K) :
    countSpansC n p ⟨0, m, U⟩ = .ok (countSpans n p U) := by
  have main : ∀ (fuel : ℕ) (i s : ℤ), 0 ≤ i → n + 1 - i ≤ fuel →
      countSpansLoopC n ⟨0, m, U⟩ fuel i s = .ok (countSpansLoop n U fuel i s) := by
    intro fuel
    induction fuel with
    | zero =>
      intro i s h0 hf
      unfold countSpansLoopC countSpansLoop
      rw [if_neg (by push_cast at hf; omega)]
    | succ k ih =>
      intro i s h0 hf
      unfold countSpansLoopC countSpansLoop
      by_cases hi : i ≤ n
      · rw [if_pos hi, if_pos hi, skipEqualC_ok hm U _ i h0 (by omega), ok_bind]
        have := skipEqual_ge n U (n + 1 - i).toNat i
        exact ih _ _ (by omega) (by push_cast at hf; omega)
      · rw [if_neg hi, if_neg hi]
  exact main _ _ _ h0 (by omega)

end Igakit
