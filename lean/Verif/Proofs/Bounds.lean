import Verif.Model.Bounds
import Verif.Proofs.FindSpan
import Verif.Proofs.FindMult

set_option linter.unusedSectionVars false

/-!
# Checked loops and routines agree with the unchecked ones
-/

namespace Igakit
open Spec

section gen
variable {α σ τ : Type}

theorem ok_bind {β : Type} (a : α) (f : α → Chk β) : ((.ok a : Chk α) >>= f) = f a := rfl

theorem err_bind {β : Type} (e : Fault) (f : α → Chk β) : ((.error e : Chk α) >>= f) = .error e := rfl

theorem Arr.get_ok {lo hi : ℤ} {f : ℤ → α} {i : ℤ} (h1 : lo ≤ i) (h2 : i ≤ hi) :
    (Arr.mk lo hi f).get i = .ok (f i) := by
  unfold Arr.get; rw [if_pos ⟨h1, h2⟩]

theorem Arr.set_ok {lo hi : ℤ} {f : ℤ → α} {i : ℤ} {v : α} (h1 : lo ≤ i) (h2 : i ≤ hi) :
    (Arr.mk lo hi f).set i v = .ok ⟨lo, hi, upd f i v⟩ := by
  unfold Arr.set; rw [if_pos ⟨h1, h2⟩]

theorem Arr.arg_ok {hi hi' : ℤ} {f : ℤ → α} (h : hi' ≤ hi) : (Arr.mk 0 hi f).arg hi' = .ok ⟨0, hi', f⟩ := by
  unfold Arr.arg; rw [if_pos ⟨rfl, h⟩]

theorem Arr.get_err {A : Arr α} {i : ℤ} (h : ¬ (A.lo ≤ i ∧ i ≤ A.hi)) : A.get i = .error .oob := by
  unfold Arr.get; rw [if_neg h]

theorem Arr.set_err {A : Arr α} {i : ℤ} {v : α} (h : ¬ (A.lo ≤ i ∧ i ≤ A.hi)) : A.set i v = .error .oob := by
  unfold Arr.set; rw [if_neg h]

theorem Arr2.get_ok {l1 h1 l2 h2 : ℤ} {f : ℤ → ℤ → α} {i j : ℤ} (a : l1 ≤ i) (b : i ≤ h1) (c : l2 ≤ j) (d : j ≤ h2) :
    (Arr2.mk l1 h1 l2 h2 f).get i j = .ok (f i j) := by
  unfold Arr2.get; rw [if_pos ⟨a, b, c, d⟩]

theorem Arr2.set_ok {l1 h1 l2 h2 : ℤ} {f : ℤ → ℤ → α} {i j : ℤ} {v : α} (a : l1 ≤ i) (b : i ≤ h1) (c : l2 ≤ j)
    (d : j ≤ h2) : (Arr2.mk l1 h1 l2 h2 f).set i j v = .ok ⟨l1, h1, l2, h2, upd2 f i j v⟩ := by
  unfold Arr2.set; rw [if_pos ⟨a, b, c, d⟩]

theorem iterUpC_eq (enc : σ → τ) {fC : ℤ → τ → Chk τ} {f : ℤ → σ → σ} (I : ℤ → σ → Prop) (k : ℕ) :
    ∀ (lo : ℤ) (s : σ), I lo s →
      (∀ i s, lo ≤ i → i < lo + k → I i s → fC i (enc s) = .ok (enc (f i s)) ∧ I (i + 1) (f i s)) →
      iterUp (fun i (o : Chk τ) => o >>= fC i) k lo (.ok (enc s)) = .ok (enc (iterUp f k lo s)) := by
  induction k with
  | zero => intro lo s _ _; rfl
  | succ k ih =>
    intro lo s h step
    obtain ⟨h1, h2⟩ := step lo s le_rfl (by push_cast; omega) h
    simp only [iterUp]
    rw [ok_bind, h1]
    exact ih (lo + 1) (f lo s) h2 (fun i s a b => step i s (by omega) (by push_cast; omega))

/-- a checked ascending loop, with an invariant of the unchecked one -/
theorem forUpC_inv (enc : σ → τ) {fC : ℤ → τ → Chk τ} {f : ℤ → σ → σ} (I : ℤ → σ → Prop) {lo hi : ℤ} {s : σ}
    (h0 : I lo s)
    (step : ∀ i s, lo ≤ i → i ≤ hi → I i s → fC i (enc s) = .ok (enc (f i s)) ∧ I (i + 1) (f i s)) :
    forUpC lo hi fC (enc s) = .ok (enc (forUp lo hi f s)) :=
  iterUpC_eq enc I _ lo s h0 (fun i s a b => step i s a (by omega))

/-- a checked ascending loop -/
theorem forUpC_eq (enc : σ → τ) {fC : ℤ → τ → Chk τ} {f : ℤ → σ → σ} {lo hi : ℤ} {s : σ}
    (step : ∀ i s, lo ≤ i → i ≤ hi → fC i (enc s) = .ok (enc (f i s))) :
    forUpC lo hi fC (enc s) = .ok (enc (forUp lo hi f s)) :=
  forUpC_inv enc (fun _ _ => True) trivial (fun i s a b _ => ⟨step i s a b, trivial⟩)

theorem iterDownC_eq (enc : σ → τ) {fC : ℤ → τ → Chk τ} {f : ℤ → σ → σ} (I : ℤ → σ → Prop) (k : ℕ) :
    ∀ (hi : ℤ) (s : σ), I hi s →
      (∀ i s, hi - k < i → i ≤ hi → I i s → fC i (enc s) = .ok (enc (f i s)) ∧ I (i - 1) (f i s)) →
      iterDown (fun i (o : Chk τ) => o >>= fC i) k hi (.ok (enc s)) = .ok (enc (iterDown f k hi s)) := by
  induction k with
  | zero => intro lo s _ _; rfl
  | succ k ih =>
    intro hi s h step
    obtain ⟨h1, h2⟩ := step hi s (by push_cast; omega) le_rfl h
    simp only [iterDown]
    rw [ok_bind, h1]
    exact ih (hi - 1) (f hi s) h2 (fun i s a b => step i s (by push_cast; omega) (by omega))

/-- a checked descending loop, with an invariant of the unchecked one -/
theorem forDownC_inv (enc : σ → τ) {fC : ℤ → τ → Chk τ} {f : ℤ → σ → σ} (I : ℤ → σ → Prop) {lo hi : ℤ} {s : σ}
    (h0 : I hi s)
    (step : ∀ i s, lo ≤ i → i ≤ hi → I i s → fC i (enc s) = .ok (enc (f i s)) ∧ I (i - 1) (f i s)) :
    forDownC hi lo fC (enc s) = .ok (enc (forDown hi lo f s)) :=
  iterDownC_eq enc I _ hi s h0 (fun i s a b => step i s (by omega) b)

/-- a checked descending loop -/
theorem forDownC_eq (enc : σ → τ) {fC : ℤ → τ → Chk τ} {f : ℤ → σ → σ} {lo hi : ℤ} {s : σ}
    (step : ∀ i s, lo ≤ i → i ≤ hi → fC i (enc s) = .ok (enc (f i s))) :
    forDownC hi lo fC (enc s) = .ok (enc (forDown hi lo f s)) :=
  forDownC_inv enc (fun _ _ => True) trivial (fun i s a b _ => ⟨step i s a b, trivial⟩)

/-- a checked `do while` -/
theorem whileC_eq (enc : σ → τ) {cC : τ → Chk Bool} {bC : τ → Chk τ} {c : σ → Bool} {b : σ → σ} (I : σ → Prop)
    (step : ∀ s, I s → cC (enc s) = .ok (c s) ∧ (c s = true → bC (enc s) = .ok (enc (b s)) ∧ I (b s))) :
    ∀ (fuel : ℕ) (s s' : σ), I s → whileFuel c b fuel s = some s' → whileC cC bC fuel (enc s) = .ok (enc s') := by
  intro fuel
  induction fuel with
  | zero =>
    intro s s' hI h
    cases hc : c s with
    | true => simp [whileFuel, hc] at h
    | false =>
      simp only [whileFuel, hc, Bool.false_eq_true, if_false, Option.some.injEq] at h
      subst h
      unfold whileC
      rw [(step s hI).1, ok_bind, hc, if_neg Bool.false_ne_true]
  | succ k ih =>
    intro s s' hI h
    unfold whileC
    rw [(step s hI).1, ok_bind]
    cases hc : c s with
    | false =>
      simp only [whileFuel, hc, Bool.false_eq_true, if_false, Option.some.injEq] at h
      subst h
      rw [if_neg Bool.false_ne_true]
    | true =>
      simp only [whileFuel, hc, if_true] at h
      obtain ⟨h1, h2⟩ := (step s hI).2 hc
      rw [if_pos rfl, h1, ok_bind]
      exact ih _ _ h2 h

/-- an ascending loop that copies is a filled range -/
theorem forUp_fillRange (g : ℤ → α) (lo hi sh : ℤ) (A : ℤ → α) :
    forUp lo hi (fun i A => upd A (i + sh) (g i)) A = fillRange A lo hi sh g := by
  funext j
  by_cases h : lo ≤ hi + 1
  · have := forUp_inv (f := fun i (C : ℤ → α) => upd C (i + sh) (g i))
      (fun i C' => ∀ j, C' j = if lo ≤ j - sh ∧ j - sh < i then g (j - sh) else A j) (lo := lo) (hi := hi) (s := A) h
      (by intro j; rw [if_neg (by omega)])
      (by
        intro i C' h1 h2 ih j
        by_cases hj : j = i + sh
        · subst hj; rw [upd_same, if_pos (by omega)]; congr 1; omega
        · rw [upd_ne _ _ hj, ih j]
          by_cases hc : lo ≤ j - sh ∧ j - sh < i
          · rw [if_pos hc, if_pos (by omega)]
          · rw [if_neg hc, if_neg (by omega)])
    rw [this j]
    unfold fillRange
    by_cases hc : lo ≤ j - sh ∧ j - sh ≤ hi
    · rw [if_pos hc, if_pos (by omega)]
    · rw [if_neg hc, if_neg (by omega)]
  · rw [forUp_empty (by omega)]
    unfold fillRange
    rw [if_neg (by omega)]

/-- a checked array section -/
theorem fillC_ok {l h : ℤ} {A : ℤ → α} {lo hi sh : ℤ} {gC : ℤ → Chk α} (g : ℤ → α)
    (hg : ∀ i, lo ≤ i → i ≤ hi → gC i = .ok (g i)) (hl : lo ≤ hi → l ≤ lo + sh) (hh : lo ≤ hi → hi + sh ≤ h) :
    fillC ⟨l, h, A⟩ lo hi sh gC = .ok ⟨l, h, fillRange A lo hi sh g⟩ := by
  have := forUpC_eq (fun A : ℤ → α => (⟨l, h, A⟩ : Arr α)) (lo := lo) (hi := hi) (s := A)
    (f := fun i A => upd A (i + sh) (g i))
    (fC := fun i A => do
      let v ← gC i
      Arr.set A (i + sh) v)
    (by
      intro i A a b
      have := hl (by omega)
      have := hh (by omega)
      rw [hg i a b, ok_bind, Arr.set_ok (by omega) (by omega)])
  rw [forUp_fillRange] at this
  exact this

/-- a checked assignment of whole arrays -/
theorem copyC_ok {h : ℤ} {A B : ℤ → α} : copyC ⟨0, h, A⟩ ⟨0, h, B⟩ = .ok ⟨0, h, fillRange A 0 h 0 B⟩ := by
  unfold copyC
  rw [if_pos rfl]
  refine fillC_ok B (fun i a b => ?_) (by intro; simp) (by intro; simp)
  rw [Arr.get_ok (by simpa using a) (by simpa using b)]
  simp

end gen

variable {K : Type} [Field K] [LinearOrder K]
variable {E : Type} [AddCommGroup E] [Module K E]

theorem findSpanC_ok {n p m : ℤ} (h0 : 0 ≤ p) (hpn : p ≤ n) (hm : n + p + 1 ≤ m) (uu : K) (U : ℤ → K) :
    findSpanC n p uu ⟨0, m, U⟩ = .ok (findSpan n p uu U) := by
  unfold findSpanC
  rw [Arr.arg_ok hm, ok_bind, Arr.get_ok (by omega) (by omega), ok_bind]
  by_cases h1 : uu ≥ U (n + 1)
  · rw [if_pos h1, findSpan_ge h1]
  rw [if_neg h1, Arr.get_ok (by omega) (by omega), ok_bind]
  by_cases h2 : uu ≤ U p
  · rw [if_pos h2, findSpan_le (not_le.mp h1) h2]
  rw [if_neg h2]
  obtain ⟨s, hs, -⟩ := findSpanLoop_spec (n + 1 - p).toNat n p uu U h0 hpn (not_le.mp h2) (not_le.mp h1) (le_refl _)
  have key := whileC_eq (id : SpanSt → SpanSt)
    (cC := fun s : SpanSt => do
          let x ← (Arr.mk 0 (n + p + 1) U).get s.span
          let y ← (Arr.mk 0 (n + p + 1) U).get (s.span + 1)
          .ok (decide (uu < x) || decide (uu ≥ y)))
    (bC := fun s : SpanSt => do
          let x ← (Arr.mk 0 (n + p + 1) U).get s.span
          .ok (if uu < x then { low := s.low, high := s.span, span := (s.low + s.span).tdiv 2 }
            else { low := s.span, high := s.high, span := (s.span + s.high).tdiv 2 }))
    (c := findSpanCond uu U) (b := findSpanBody uu U)
    (fun s => p ≤ s.low ∧ s.low < s.high ∧ s.high ≤ n + 1 ∧ U s.low ≤ uu ∧ uu < U s.high ∧
      s.span = (s.low + s.high) / 2)
    (by
      rintro ⟨low, high, span⟩ ⟨a1, a2, a3, a4, a5, a6⟩
      simp only at a1 a2 a3 a4 a5 a6
      dsimp only [id]
      rw [Arr.get_ok (by omega) (by omega), ok_bind, Arr.get_ok (by omega) (by omega), ok_bind]
      refine ⟨rfl, fun hc => ⟨rfl, ?_⟩⟩
      simp only [findSpanCond, Bool.or_eq_true, decide_eq_true_eq] at hc
      unfold findSpanBody
      by_cases hlt : uu < U span
      · have hne : span ≠ low := by
          rintro rfl; exact absurd hlt (not_lt.mpr a4)
        rw [if_pos hlt]
        dsimp only
        refine ⟨a1, by omega, by omega, a4, hlt, ?_⟩
        rw [Int.tdiv_eq_ediv_of_nonneg (by omega)]
      · rw [if_neg hlt]
        dsimp only
        have hge : uu ≥ U (span + 1) := by
          rcases hc with hc | hc
          · exact absurd hc hlt
          · exact hc
        have hne : span + 1 ≠ high := by
          intro he; rw [he] at hge; exact absurd a5 (not_lt.mpr hge)
        refine ⟨by omega, by omega, by omega, not_lt.mp hlt, a5, ?_⟩
        rw [Int.tdiv_eq_ediv_of_nonneg (by omega)])
    (n + 1 - p).toNat { low := p, high := n + 1, span := (p + (n + 1)).tdiv 2 } s
    (by
      refine ⟨le_refl _, by simp only; omega, le_refl _, (not_le.mp h2).le, not_le.mp h1, ?_⟩
      rw [Int.tdiv_eq_ediv_of_nonneg (by omega)]) hs
  unfold findSpan
  rw [if_neg h1, if_neg h2, hs]
  dsimp only [id] at key ⊢
  rw [key]
  rfl

theorem findMultC_ok {i p m : ℤ} (h0 : 0 ≤ p) (hpi : p ≤ i) (hm : i + p + 1 ≤ m) (eps uu : K) (U : ℤ → K) :
    findMultC eps i uu p ⟨0, m, U⟩ = .ok (findMult eps i uu p U) := by
  unfold findMultC
  rw [Arr.arg_ok hm, ok_bind]
  refine forUpC_eq (id : ℤ → ℤ) (fun j s a b => ?_)
  rw [Arr.get_ok (by omega) (by omega), ok_bind]
  rfl

/-- the state of `BasisFuns` with the bounds of its arrays -/
def BasisSt.enc (p : ℤ) (s : BasisSt K) : Arr K × Arr K × Arr K := (⟨0, p, s.N⟩, ⟨1, p, s.left⟩, ⟨1, p, s.right⟩)

theorem basisFunsC_ok {i p m pN : ℤ} (h0 : 0 ≤ p) (hpi : p ≤ i) (hm : i + p ≤ m) (hN : p ≤ pN) (jk : ℤ → K)
    (uu : K) (U : ℤ → K) :
    basisFunsC jk i uu p ⟨0, m, U⟩ ⟨0, pN, jk⟩ = .ok ⟨0, p, basisFuns jk i uu p U⟩ := by
  unfold basisFunsC
  rw [Arr.arg_ok hm, ok_bind, Arr.arg_ok hN, ok_bind, Arr.set_ok le_rfl h0, ok_bind]
  have key := forUpC_eq (BasisSt.enc p) (lo := 1) (hi := p) (f := basisOuter i uu U)
    (s := { N := upd jk 0 1, left := jk, right := jk })
    (fC := fun j (s : Arr K × Arr K × Arr K) => do
      let x ← (Arr.mk 0 (i + p) U).get (i + 1 - j)
      let left ← s.2.1.set j (uu - x)
      let y ← (Arr.mk 0 (i + p) U).get (i + j)
      let right ← s.2.2.set j (y - uu)
      let ns ← forUpC 0 (j - 1) (fun r (ns : Arr K × K) => do
        let Nr ← ns.1.get r
        let rt ← right.get (r + 1)
        let lt ← left.get (j - r)
        let temp := Nr / (rt + lt)
        let N ← ns.1.set r (ns.2 + rt * temp)
        .ok (N, lt * temp)) (s.1, 0)
      let N ← ns.1.set j ns.2
      .ok (N, left, right))
    (by
      intro j s a b
      dsimp only [BasisSt.enc]
      rw [Arr.get_ok (by omega) (by omega), ok_bind, Arr.set_ok a b, ok_bind, Arr.get_ok (by omega) (by omega),
        ok_bind, Arr.set_ok a b, ok_bind]
      have inner := forUpC_eq (fun ns : (ℤ → K) × K => ((⟨0, p, ns.1⟩ : Arr K), ns.2)) (lo := 0) (hi := j - 1)
        (s := (s.N, 0))
        (f := fun r (t : (ℤ → K) × K) =>
          let temp := t.1 r / (upd s.right j (U (i + j) - uu) (r + 1) + upd s.left j (uu - U (i + 1 - j)) (j - r))
          (upd t.1 r (t.2 + upd s.right j (U (i + j) - uu) (r + 1) * temp),
            upd s.left j (uu - U (i + 1 - j)) (j - r) * temp))
        (fC := fun r (ns : Arr K × K) => do
          let Nr ← ns.1.get r
          let rt ← (Arr.mk 1 p (upd s.right j (U (i + j) - uu))).get (r + 1)
          let lt ← (Arr.mk 1 p (upd s.left j (uu - U (i + 1 - j)))).get (j - r)
          let temp := Nr / (rt + lt)
          let N ← ns.1.set r (ns.2 + rt * temp)
          .ok (N, lt * temp))
        (by
          intro r t c d
          dsimp only
          rw [Arr.get_ok (by omega) (by omega), ok_bind, Arr.get_ok (by omega) (by omega), ok_bind,
            Arr.get_ok (by omega) (by omega), ok_bind, Arr.set_ok (by omega) (by omega), ok_bind])
      dsimp only at inner
      rw [inner, ok_bind, Arr.set_ok (by omega) (by omega), ok_bind]
      rfl)
  dsimp only [BasisSt.enc] at key
  rw [key, ok_bind]
  rfl

theorem curvePointC_ok {n p : ℤ} (h0 : 0 ≤ p) (hpn : p ≤ n) (jk : ℤ → K) (U : ℤ → K) (Pw : ℤ → E) (uu : K) :
    curvePointC jk n p ⟨0, n + p + 1, U⟩ ⟨0, n, Pw⟩ uu = .ok (curvePoint jk n p U Pw uu) := by
  have hr := findSpan_range (U := U) uu h0 hpn
  unfold curvePointC
  rw [Arr.arg_ok le_rfl, ok_bind, Arr.arg_ok le_rfl, ok_bind, findSpanC_ok h0 hpn le_rfl, ok_bind,
    basisFunsC_ok h0 hr.1 (by omega) le_rfl, ok_bind]
  refine forUpC_eq (id : E → E) (fun j s a b => ?_)
  rw [Arr.get_ok (by omega) (by omega), ok_bind, Arr.get_ok (by omega) (by omega), ok_bind]
  rfl

theorem cutPassC_ok {m q k idx hi : ℤ} (h1 : 0 ≤ hi → 0 ≤ idx ∧ idx + hi ≤ m ∧ 0 ≤ k + 1 ∧ hi + k + 1 ≤ m ∧ hi + 1 ≤ q)
    (U : ℤ → K) (uu : K) (Rw : ℤ → E) :
    cutPassC ⟨0, m, U⟩ uu k idx hi ⟨0, q, Rw⟩ = .ok ⟨0, q, cutPass U uu k idx hi Rw⟩ := by
  unfold cutPassC
  refine forUpC_eq (fun Rw : ℤ → E => (⟨0, q, Rw⟩ : Arr E)) (fun j s a b => ?_)
  obtain ⟨c1, c2, c3, c4, c5⟩ := h1 (by omega)
  rw [Arr.get_ok (by omega) (by omega), ok_bind, Arr.get_ok (by omega) (by omega), ok_bind,
    Arr.get_ok (by omega) (by omega), ok_bind, Arr.get_ok (by omega) (by omega), ok_bind,
    Arr.set_ok (by omega) (by omega)]

theorem cornerCutTailC_ok {m nP p k s : ℤ} (hs0 : 0 ≤ s) (hsp : s < p) (hk : p ≤ k) (hkP : k - s ≤ nP) (hkm : k + p - s ≤ m)
    (je : ℤ → E) (U : ℤ → K) (Pw : ℤ → E) (uu : K) :
    cornerCutTailC je p ⟨0, m, U⟩ ⟨0, nP, Pw⟩ uu k s = .ok (cornerCutTail je p U Pw uu k s) := by
  unfold cornerCutTailC
  have e1 := forUpC_eq (fun Rw : ℤ → E => (⟨0, p, Rw⟩ : Arr E)) (lo := 0) (hi := p - s) (s := je)
    (f := fun i Rw => upd Rw i (Pw (k - p + i)))
    (fC := fun i Rw => do
      let P ← (Arr.mk 0 nP Pw).get (k - p + i)
      Arr.set Rw i P)
    (fun j t a b => by
      rw [Arr.get_ok (by omega) (by omega), ok_bind, Arr.set_ok (by omega) (by omega)])
  dsimp only at e1 ⊢
  rw [e1, ok_bind]
  have e2 := forUpC_eq (fun Rw : ℤ → E => (⟨0, p, Rw⟩ : Arr E)) (lo := 1) (hi := p - s)
    (s := forUp 0 (p - s) (fun i Rw => upd Rw i (Pw (k - p + i))) je)
    (f := fun j Rw => cutPass U uu k (k - p + j) (p - s - j) Rw)
    (fC := fun j Rw => cutPassC ⟨0, m, U⟩ uu k (k - p + j) (p - s - j) Rw)
    (fun j t a b => cutPassC_ok (by intro; omega) U uu t)
  rw [e2, ok_bind, Arr.get_ok le_rfl (by omega)]
  rfl

end Igakit
