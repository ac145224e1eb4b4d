import Verif.Proofs.BoundsKnots
import Verif.Proofs.Remove

set_option linter.unusedSectionVars false

/-!
# Checked knot removal
-/

namespace Igakit
open Spec

/-- a checked `do while` and a recursion with fuel -/
theorem whileC_rec {σ τ : Type} (enc : σ → τ) {cC : τ → Chk Bool} {bC : τ → Chk τ} (c : σ → Prop) [DecidablePred c]
    (b : σ → σ) (F : ℕ → σ → σ) (h0 : ∀ s, F 0 s = s) (hF : ∀ k s, F (k + 1) s = if c s then F k (b s) else s)
    (I : σ → Prop) (μ : σ → ℕ)
    (step : ∀ s, I s → cC (enc s) = .ok (decide (c s)) ∧
      (c s → bC (enc s) = .ok (enc (b s)) ∧ I (b s) ∧ μ (b s) < μ s)) :
    ∀ (fuel : ℕ) (s : σ), I s → μ s ≤ fuel →
      whileC cC bC fuel (enc s) = .ok (enc (F fuel s)) ∧ I (F fuel s) ∧ ¬ c (F fuel s) := by
  intro fuel
  induction fuel with
  | zero =>
    intro s hI hm
    obtain ⟨h1, h2⟩ := step s hI
    have hc : ¬ c s := fun hc => by have := (h2 hc).2.2; omega
    unfold whileC
    rw [h1, ok_bind, h0, if_neg (by simpa using hc)]
    exact ⟨rfl, hI, hc⟩
  | succ k ih =>
    intro s hI hm
    obtain ⟨h1, h2⟩ := step s hI
    unfold whileC
    rw [h1, ok_bind, hF]
    by_cases hc : c s
    · obtain ⟨h3, h4, h5⟩ := h2 hc
      rw [if_pos (by simpa using hc), h3, ok_bind, if_pos hc]
      exact ih _ h4 (by omega)
    · rw [if_neg (by simpa using hc), if_neg hc]
      exact ⟨rfl, hI, hc⟩

variable {K : Type} [Field K] [LinearOrder K]
variable {E : Type} [AddCommGroup E] [Module K E]

/-- the state of `RemoveKnot` with the bounds of `temp` -/
def RemSt.enc (p : ℤ) (s : RemSt E) : RemStC E := ⟨⟨0, 2 * p, s.temp⟩, s.i, s.ii, s.j, s.jj⟩

/-- the indices of `RemoveKnot` in round `t` -/
structure RemIx (r s p t : ℤ) (q : RemSt E) : Prop where
  ij : q.i + q.j = 2 * r - p - s
  lo : r - p - t ≤ q.i
  ii : q.ii = q.i - (r - p - t - 1)
  jj : q.jj = q.j - (r - p - t - 1)
  ge : t - 1 ≤ q.j - q.i

theorem remSolvedC_ok {n p r s t : ℤ} (hp : 1 ≤ p) (hsp : s ≤ p) (ht : 0 ≤ t) (hts : t < s) (hr : p + t < r) (hrn : r ≤ n)
    (U : ℤ → K) (uu : K) (Pw temp : ℤ → E) :
    remSolvedC ⟨0, n + p + 1, U⟩ uu p t (r - p - t) (r - s + t) ⟨0, n, Pw⟩ ⟨0, 2 * p, temp⟩ =
      .ok ((remSolved U uu p t (r - p - t) (r - s + t) Pw temp).enc p) ∧
    RemIx r s p t (remSolved U uu p t (r - p - t) (r - s + t) Pw temp) ∧
    (remSolved U uu p t (r - p - t) (r - s + t) Pw temp).j - (remSolved U uu p t (r - p - t) (r - s + t) Pw temp).i ≤ t := by
  unfold remSolvedC remSolved
  dsimp only
  rw [Arr.get_ok (by omega) (by omega), ok_bind, Arr.set_ok (by omega) (by omega), ok_bind,
    Arr.get_ok (by omega) (by omega), ok_bind, Arr.set_ok (by omega) (by omega), ok_bind]
  have key := whileC_rec (RemSt.enc p) (cC := fun s : RemStC E => .ok (decide (s.j - s.i > t)))
    (bC := remBodyC ⟨0, n + p + 1, U⟩ uu p t ⟨0, n, Pw⟩) (fun q : RemSt E => q.j - q.i > t) (remBody U uu p t Pw)
    (remSolve U uu p t Pw) (fun q => rfl) (fun k q => rfl) (RemIx r s p t) (fun q => (q.j + 1 - q.i).toNat)
    (by
      intro q hq
      refine ⟨rfl, fun hc => ?_⟩
      obtain ⟨c1, c2, c3, c4, c5⟩ := hq
      refine ⟨?_, ⟨?_, ?_, ?_, ?_, ?_⟩, ?_⟩
      · unfold remBodyC remBody remAlfiC remAlfjC remAlfi remAlfj
        dsimp only [RemSt.enc]
        rw [Arr.get_ok (by omega) (by omega), ok_bind, Arr.get_ok (by omega) (by omega), ok_bind, ok_bind,
          Arr.get_ok (by omega) (by omega), ok_bind, Arr.get_ok (by omega) (by omega), ok_bind, ok_bind,
          Arr.get_ok (by omega) (by omega), ok_bind, Arr.get_ok (by omega) (by omega), ok_bind,
          Arr.set_ok (by omega) (by omega), ok_bind, Arr.get_ok (by omega) (by omega), ok_bind,
          Arr.get_ok (by omega) (by omega), ok_bind, Arr.set_ok (by omega) (by omega), ok_bind]
      all_goals
        simp only [remBody]
        omega)
    (r - s + t + 1 - (r - p - t)).toNat
    ⟨upd (upd temp 0 (Pw (r - p - t - 1))) (r - s + t + 1 - (r - p - t - 1)) (Pw (r - s + t + 1)), r - p - t, 1, r - s + t,
      r - s + t - (r - p - t - 1)⟩
    ⟨by dsimp only; omega, by dsimp only; omega, by dsimp only; omega, by dsimp only, by dsimp only; omega⟩ le_rfl
  exact ⟨key.1, key.2.1, by have := key.2.2; omega⟩

theorem remFlagC_ok {n p r s t : ℤ} (hp : 1 ≤ p) (hsp : s ≤ p) (ht : 0 ≤ t) (hts : t < s) (hr : p + t < r) (hrn : r ≤ n)
    (U : ℤ → K) (uu : K) (near : E → E → Prop) [DecidableRel near] (Pw : ℤ → E) {q : RemSt E} (hq : RemIx r s p t q)
    (hle : q.j - q.i ≤ t) [Decidable (remFlag U uu p t near Pw q)] :
    remFlagC ⟨0, n + p + 1, U⟩ uu p t near ⟨0, n, Pw⟩ (q.enc p) = .ok (decide (remFlag U uu p t near Pw q)) := by
  obtain ⟨c1, c2, c3, c4, c5⟩ := hq
  unfold remFlagC remAlfiC
  have e : ∀ P [Decidable P], (remFlag U uu p t near Pw q ↔ P) →
      (Except.ok (decide P) : Chk Bool) = .ok (decide (remFlag U uu p t near Pw q)) := by
    intro P _ h
    congr 1
    exact (decide_eq_decide.2 h).symm
  by_cases hc : q.j - q.i < t
  · rw [if_pos (show (q.enc p).j - (q.enc p).i < t from hc)]
    dsimp only [RemSt.enc]
    rw [Arr.get_ok (by omega) (by omega), ok_bind, Arr.get_ok (by omega) (by omega), ok_bind]
    refine e _ ?_
    unfold remFlag
    rw [if_pos hc]
  · rw [if_neg (show ¬ (q.enc p).j - (q.enc p).i < t from hc)]
    dsimp only [RemSt.enc]
    rw [Arr.get_ok (by omega) (by omega), ok_bind, Arr.get_ok (by omega) (by omega), ok_bind, ok_bind,
      Arr.get_ok (by omega) (by omega), ok_bind, Arr.get_ok (by omega) (by omega), ok_bind,
      Arr.get_ok (by omega) (by omega), ok_bind]
    refine e _ ?_
    unfold remFlag
    rw [if_neg hc]
    rfl

theorem remStoreC_ok {n p r s t : ℤ} (hp : 1 ≤ p) (hsp : s ≤ p) (ht : 0 ≤ t) (hts : t < s) (hr : p + t < r) (hrn : r ≤ n)
    (temp : ℤ → E) : ∀ (fuel : ℕ) (i j : ℤ) (Pw : ℤ → E), i + j = 2 * r - p - s → r - p - t ≤ i →
      (j + 1 - i).toNat ≤ fuel →
    ∃ i' j', remStoreC t (r - p - t - 1) ⟨0, 2 * p, temp⟩ fuel i j ⟨0, n, Pw⟩ =
      .ok (i', j', ⟨0, n, remStore t (r - p - t - 1) temp fuel i j Pw⟩) := by
  intro fuel
  induction fuel with
  | zero =>
    intro i j Pw h1 h2 h3
    unfold remStoreC whileC remStore
    rw [ok_bind, if_neg (by simpa using by omega)]
    exact ⟨_, _, rfl⟩
  | succ k ih =>
    intro i j Pw h1 h2 h3
    unfold remStoreC whileC remStore
    dsimp only
    by_cases hc : j - i > t
    · rw [ok_bind, if_pos (by simpa using hc), if_pos hc, Arr.get_ok (by omega) (by omega), ok_bind,
        Arr.set_ok (by omega) (by omega), ok_bind, Arr.get_ok (by omega) (by omega), ok_bind,
        Arr.set_ok (by omega) (by omega), ok_bind, ok_bind]
      exact ih (i + 1) (j - 1) _ (by omega) (by omega) (by omega)
    · rw [ok_bind, if_neg (by simpa using hc), if_neg hc]
      exact ⟨_, _, rfl⟩

theorem remLoopC_ok {n p r s : ℤ} (hp : 1 ≤ p) (hsp : s ≤ p) (hrn : r ≤ n) (U : ℤ → K) (uu : K) (near : E → E → Prop)
    [DecidableRel near] : ∀ (k : ℕ) (t : ℤ) (Pw temp : ℤ → E), 0 ≤ t → t + k ≤ s → p + t + k ≤ r →
    remLoopC ⟨0, n + p + 1, U⟩ uu p near k t (r - p - t) (r - s + t) ⟨0, n, Pw⟩ ⟨0, 2 * p, temp⟩ =
      .ok ((remLoop U uu p near k t (r - p - t) (r - s + t) Pw temp).1,
        ⟨0, n, (remLoop U uu p near k t (r - p - t) (r - s + t) Pw temp).2⟩) ∧
    t ≤ (remLoop U uu p near k t (r - p - t) (r - s + t) Pw temp).1 ∧
    (remLoop U uu p near k t (r - p - t) (r - s + t) Pw temp).1 ≤ t + k := by
  intro k
  induction k with
  | zero =>
    intro t Pw temp h1 h2 h3
    unfold remLoopC remLoop
    exact ⟨rfl, le_rfl, by simp⟩
  | succ k ih =>
    intro t Pw temp h1 h2 h3
    push_cast at h2 h3
    obtain ⟨e1, e2, e3⟩ := remSolvedC_ok (n := n) hp hsp h1 (by omega) (by omega) hrn U uu Pw temp
    unfold remLoopC remLoop
    dsimp only
    rw [e1, ok_bind]
    generalize remSolved U uu p t (r - p - t) (r - s + t) Pw temp = q at e2 e3 ⊢
    classical
    rw [remFlagC_ok hp hsp h1 (by omega) (by omega) hrn U uu near Pw e2 e3, ok_bind]
    by_cases hc : remFlag U uu p t near Pw q
    · rw [if_pos (by simpa using hc), if_pos hc]
      obtain ⟨i', j', e4⟩ := remStoreC_ok (n := n) (s := s) hp hsp h1 (by omega) (by omega) hrn q.temp (r - s + t + 1 - (r - p - t)).toNat
        (r - p - t) (r - s + t) Pw (by omega) le_rfl le_rfl
      dsimp only [RemSt.enc]
      rw [e4, ok_bind]
      have := ih (t + 1) (remStore t (r - p - t - 1) q.temp (r - s + t + 1 - (r - p - t)).toNat (r - p - t) (r - s + t) Pw) q.temp
        (by omega) (by omega) (by omega)
      rw [show r - p - (t + 1) = r - p - t - 1 by ring, show r - s + (t + 1) = r - s + t + 1 by ring] at this
      exact ⟨this.1, by omega, by push_cast; omega⟩
    · rw [if_neg (by simpa using hc), if_neg hc]
      exact ⟨rfl, le_rfl, by push_cast; omega⟩

theorem remShiftC_ok {n : ℤ} (ij : ℤ × ℤ) (h0 : 0 ≤ ij.2) (hij : ij.2 ≤ ij.1) (Pw : ℤ → E) :
    remShiftC n ij ⟨0, n, Pw⟩ = .ok ⟨0, n, remShift n ij Pw⟩ := by
  unfold remShiftC remShift
  rw [forUpC_inv (fun s : (ℤ → E) × ℤ => ((⟨0, n, s.1⟩ : Arr E), s.2))
    (fun k s => s.2 = ij.2 + (k - (ij.1 + 1))) (f := fun k (s : (ℤ → E) × ℤ) => (upd s.1 s.2 (s.1 k), s.2 + 1))
    (s := (Pw, ij.2)) (by dsimp only; omega) (by
      intro k s c1 c2 hs
      dsimp only
      rw [Arr.get_ok (by omega) (by omega), ok_bind, Arr.set_ok (by omega) (by omega), ok_bind]
      exact ⟨rfl, by omega⟩), ok_bind]

theorem removeKnotC_ok {n p r s num : ℤ} (hp : 1 ≤ p) (hns : num ≤ s) (hsp : s ≤ p) (hr : p + num ≤ r) (hrn : r ≤ n)
    (hnum : 0 ≤ num) (jt : ℤ → E) (near : E → E → Prop) [DecidableRel near] (U : ℤ → K) (Pw : ℤ → E) (uu : K) :
    removeKnotC jt near n p ⟨0, n + p + 1, U⟩ ⟨0, n, Pw⟩ uu r s num =
      .ok ((removeKnot jt near n p U Pw uu r s num).1, ⟨0, n + p + 1, (removeKnot jt near n p U Pw uu r s num).2.1⟩,
        ⟨0, n, (removeKnot jt near n p U Pw uu r s num).2.2⟩) := by
  unfold removeKnotC removeKnot
  rw [Arr.arg_ok le_rfl, ok_bind, Arr.arg_ok le_rfl, ok_bind]
  dsimp only
  have key := remLoopC_ok (n := n) hp hsp hrn U uu near num.toNat 0 Pw jt le_rfl (by omega) (by omega)
  rw [show r - p - 0 = r - p by ring, show r - s + 0 = r - s by ring] at key
  rw [key.1, ok_bind]
  obtain ⟨-, k1, k2⟩ := key
  generalize remLoop U uu p near num.toNat 0 (r - p) (r - s) Pw jt = tP at k1 k2 ⊢
  dsimp only
  by_cases h0 : tP.1 = 0
  · rw [if_pos h0, if_pos h0]
  · rw [if_neg h0, if_neg h0]
    rw [forUpC_eq (fun U : ℤ → K => (⟨0, n + p + 1, U⟩ : Arr K)) (f := fun k U => upd U (k - tP.1) (U k)) (by
      intro k U c1 c2
      rw [Arr.get_ok (by omega) (by omega), ok_bind, Arr.set_ok (by omega) (by omega)]), ok_bind]
    have e : 0 ≤ 2 * r - s - p := by omega
    rw [Int.tdiv_eq_ediv_of_nonneg e, remIdx_eq _ (by omega), remShiftC_ok _ (by dsimp only; omega) (by dsimp only; omega),
      ok_bind]

end Igakit
