import Verif.Proofs.BoundsRemove
import Verif.Props.Spans

set_option linter.unusedSectionVars false

/-!
# Checked degree elevation
-/

namespace Igakit
open Spec

variable {K : Type} [Field K] [LinearOrder K] [IsStrictOrderedRing K]
variable {E : Type} [AddCommGroup E] [Module K E]

theorem elevBezC_ok {p t : ℤ} (hp : 0 ≤ p) (ht : 0 ≤ t) (jb : ℤ → ℤ → K) :
    elevBezC jb p t = .ok ⟨0, p + t, 0, p, elevBez jb p t⟩ := by
  unfold elevBezC elevBez
  dsimp only
  rw [Arr2.set_ok (by omega) (by omega) (by omega) (by omega), ok_bind,
    Arr2.set_ok (by omega) (by omega) (by omega) (by omega), ok_bind]
  rw [forUpC_eq (fun b : ℤ → ℤ → K => (⟨0, p + t, 0, p, b⟩ : Arr2 K))
    (f := fun i bz => forUp (max 0 (i - t)) (min p i)
      (fun j bz => upd2 bz i j ((elevBin p j : K) * elevBin t (i - j) / elevBin (p + t) i)) bz) (by
      intro i bz h1 h2
      refine forUpC_eq (fun b : ℤ → ℤ → K => (⟨0, p + t, 0, p, b⟩ : Arr2 K)) (fun j bz h3 h4 => ?_)
      rw [Arr2.set_ok (by omega) (by omega) (by omega) (by omega)]), ok_bind]
  refine forUpC_eq (fun b : ℤ → ℤ → K => (⟨0, p + t, 0, p, b⟩ : Arr2 K)) (fun i bz h1 h2 => ?_)
  refine forUpC_eq (fun b : ℤ → ℤ → K => (⟨0, p + t, 0, p, b⟩ : Arr2 K)) (fun j bz h3 h4 => ?_)
  rw [Arr2.get_ok (by omega) (by omega) (by omega) (by omega), ok_bind,
    Arr2.set_ok (by omega) (by omega) (by omega) (by omega)]

theorem elevRunC_ok (eps : K) {m : ℤ} (U : ℤ → K) : ∀ (fuel : ℕ) (b : ℤ), 0 ≤ b → (m - b).toNat ≤ fuel →
    elevRunC eps m ⟨0, m, U⟩ fuel b = .ok (elevRun eps m U fuel b) := by
  intro fuel
  induction fuel with
  | zero =>
    intro b h0 h
    unfold elevRunC elevRun
    rw [if_neg (by omega)]
  | succ k ih =>
    intro b h0 h
    unfold elevRunC elevRun
    by_cases hb : b < m
    · rw [if_pos hb, if_pos hb, Arr.get_ok (by omega) (by omega), ok_bind, Arr.get_ok (by omega) (by omega), ok_bind]
      by_cases hc : |U b - U (b + 1)| > eps
      · rw [if_pos hc, if_pos hc]
      · rw [if_neg hc, if_neg hc]
        exact ih (b + 1) (by omega) (by omega)
    · rw [if_neg hb, if_neg hb]

theorem elevRun_range (eps : K) {m : ℤ} (U : ℤ → K) : ∀ (fuel : ℕ) (b : ℤ), b ≤ m → (m - b).toNat ≤ fuel →
    b ≤ elevRun eps m U fuel b ∧ elevRun eps m U fuel b ≤ m ∧
    (elevRun eps m U fuel b < m → eps < |U (elevRun eps m U fuel b) - U (elevRun eps m U fuel b + 1)|) ∧
    ∀ j, b ≤ j → j < elevRun eps m U fuel b → |U j - U (j + 1)| ≤ eps := by
  intro fuel
  induction fuel with
  | zero =>
    intro b h0 h
    unfold elevRun
    exact ⟨le_rfl, h0, fun h => by omega, fun j h1 h2 => by omega⟩
  | succ k ih =>
    intro b h0 h
    unfold elevRun
    by_cases hb : b < m
    · rw [if_pos hb]
      by_cases hc : |U b - U (b + 1)| > eps
      · rw [if_pos hc]
        exact ⟨le_rfl, h0, fun _ => hc, fun j h1 h2 => by omega⟩
      · rw [if_neg hc]
        obtain ⟨a1, a2, a3, a4⟩ := ih (b + 1) (by omega) (by omega)
        refine ⟨by omega, a2, a3, fun j h1 h2 => ?_⟩
        rcases eq_or_lt_of_le h1 with rfl | h1
        · exact not_lt.1 hc
        · exact a4 j (by omega) h2
    · rw [if_neg hb]
      exact ⟨le_rfl, h0, fun h => by omega, fun j h1 h2 => by omega⟩

theorem elevAlfsC_ok {n p mul a : ℤ} (hm : 1 ≤ mul) (ha : 0 ≤ a) (han : a ≤ n + 1) (U : ℤ → K) (ua ub : K) (alfs : ℤ → K) :
    elevAlfsC ⟨0, n + p + 1, U⟩ p mul a ua ub ⟨0, p - 2, alfs⟩ = .ok ⟨0, p - 2, elevAlfs U p mul a ua ub alfs⟩ := by
  unfold elevAlfsC elevAlfs
  refine forDownC_eq (fun A : ℤ → K => (⟨0, p - 2, A⟩ : Arr K)) (fun k A h1 h2 => ?_)
  rw [Arr.get_ok (by omega) (by omega), ok_bind, Arr.set_ok (by omega) (by omega)]

theorem elevCutC_ok {p mul r : ℤ} (hm : 1 ≤ mul) (hr : r = p - mul) (alfs : ℤ → K) (s : (ℤ → E) × (ℤ → E)) :
    elevCutC p mul r ⟨0, p - 2, alfs⟩ (⟨0, p, s.1⟩, ⟨0, p - 2, s.2⟩) =
      .ok (⟨0, p, (elevCut p mul r alfs s).1⟩, ⟨0, p - 2, (elevCut p mul r alfs s).2⟩) := by
  unfold elevCutC elevCut
  refine forUpC_eq (fun s : (ℤ → E) × (ℤ → E) => ((⟨0, p, s.1⟩ : Arr E), (⟨0, p - 2, s.2⟩ : Arr E))) (fun j s h1 h2 => ?_)
  dsimp only
  rw [forDownC_eq (fun A : ℤ → E => (⟨0, p, A⟩ : Arr E)) (f := fun k (b : ℤ → E) =>
      upd b k (alfs (k - (mul + j)) • b k + (1 - alfs (k - (mul + j))) • b (k - 1))) (by
      intro k b h3 h4
      rw [Arr.get_ok (by omega) (by omega), ok_bind, Arr.get_ok (by omega) (by omega), ok_bind,
        Arr.get_ok (by omega) (by omega), ok_bind, Arr.set_ok (by omega) (by omega)]), ok_bind,
    Arr.get_ok (by omega) (by omega), ok_bind, Arr.set_ok (by omega) (by omega), ok_bind]

theorem elevPtsC_ok {p t lbz : ℤ} (hl : 0 ≤ lbz) (bz : ℤ → ℤ → K) (bpts ebpts : ℤ → E) :
    elevPtsC ⟨0, p + t, 0, p, bz⟩ p t lbz ⟨0, p, bpts⟩ ⟨0, p + t, ebpts⟩ =
      .ok ⟨0, p + t, elevPts bz p t lbz bpts ebpts⟩ := by
  unfold elevPtsC elevPts
  refine forUpC_eq (fun A : ℤ → E => (⟨0, p + t, A⟩ : Arr E)) (fun i e h1 h2 => ?_)
  rw [Arr.set_ok (by omega) (by omega), ok_bind]
  refine forUpC_eq (fun A : ℤ → E => (⟨0, p + t, A⟩ : Arr E)) (fun j e h3 h4 => ?_)
  rw [Arr.get_ok (by omega) (by omega), ok_bind,
    Arr2.get_ok (by omega) (by omega) (by omega) (by omega), ok_bind,
    Arr.get_ok (by omega) (by omega), ok_bind, Arr.set_ok (by omega) (by omega)]

/-- the state of the knot removal with the bounds of its arrays -/
def ElevRem.enc (nh ph : ℤ) (s : ElevRem E) : ElevRemC E := ⟨⟨0, nh, s.Qw⟩, ⟨0, ph, s.ebpts⟩, s.i, s.j, s.kj⟩

/-- the indices of the knot removal -/
structure ElevIx (kind tr : ℤ) (s : ElevRem E) : Prop where
  ij : s.i + s.j = 2 * (kind - 1)
  lo : kind - 1 - tr ≤ s.i
  kj : s.kj = s.j - kind + 1

theorem elevRemInC_ok {nh p ph oldr kind cind lbz tr : ℤ} (htr : 1 ≤ tr) (hto : tr < oldr) (hop : oldr < p) (hph : p ≤ ph)
    (hk : ph < kind) (hkn : kind ≤ nh + ph + 2) (hc : cind ≤ nh + 1) (Uh : ℤ → K) (ua ub den bet : K) :
    ∀ (fuel : ℕ) (s : ElevRem E), ElevIx kind tr s → (s.j - s.i).toNat ≤ fuel →
    elevRemInC ⟨0, nh + ph + 1, Uh⟩ ua ub den bet ph oldr kind cind lbz tr fuel (s.enc nh ph) =
      .ok ((elevRemIn Uh ua ub den bet ph oldr kind cind lbz tr fuel s).enc nh ph) := by
  intro fuel s hs hf
  unfold elevRemInC
  refine (whileC_rec (ElevRem.enc nh ph) (fun s : ElevRem E => s.j - s.i > tr)
    (elevRemBody Uh ua ub den bet ph oldr kind cind lbz tr) (elevRemIn Uh ua ub den bet ph oldr kind cind lbz tr)
    (fun _ => rfl) (fun _ _ => rfl) (ElevIx kind tr) (fun s => (s.j - s.i).toNat) (fun s hs => ⟨rfl, fun hlt => ?_⟩)
    fuel s hs hf).1
  obtain ⟨c1, c2, c3⟩ := hs
  refine ⟨?_, ⟨?_, ?_, ?_⟩, ?_⟩
  · have q1 : elevRemQC ⟨0, nh + ph + 1, Uh⟩ ua ub cind s.i ⟨0, nh, s.Qw⟩ =
        .ok ⟨0, nh, if s.i < cind then
          upd s.Qw s.i (((ub - Uh s.i) / (ua - Uh s.i)) • s.Qw s.i + (1 - (ub - Uh s.i) / (ua - Uh s.i)) • s.Qw (s.i - 1))
          else s.Qw⟩ := by
      unfold elevRemQC
      by_cases h : s.i < cind
      · rw [if_pos h, if_pos h, Arr.get_ok (by omega) (by omega), ok_bind]
        dsimp only
        rw [Arr.get_ok (by omega) (by omega), ok_bind, Arr.get_ok (by omega) (by omega), ok_bind,
          Arr.set_ok (by omega) (by omega)]
      · rw [if_neg h, if_neg h]
    have q2 : elevRemEC ⟨0, nh + ph + 1, Uh⟩ ub den bet ph oldr kind lbz tr s.j s.kj ⟨0, ph, s.ebpts⟩ =
        .ok ⟨0, ph, if s.j ≥ lbz then
          if s.j - tr ≤ kind - ph + oldr then
            upd s.ebpts s.kj (((ub - Uh (s.j - tr)) / den) • s.ebpts s.kj +
              (1 - (ub - Uh (s.j - tr)) / den) • s.ebpts (s.kj + 1))
          else upd s.ebpts s.kj (bet • s.ebpts s.kj + (1 - bet) • s.ebpts (s.kj + 1))
        else s.ebpts⟩ := by
      unfold elevRemEC
      by_cases h : s.j ≥ lbz
      · rw [if_pos h, if_pos h]
        by_cases h' : s.j - tr ≤ kind - ph + oldr
        · rw [if_pos h', if_pos h', Arr.get_ok (by omega) (by omega), ok_bind]
          dsimp only
          rw [Arr.get_ok (by omega) (by omega), ok_bind, Arr.get_ok (by omega) (by omega), ok_bind,
            Arr.set_ok (by omega) (by omega)]
        · rw [if_neg h', if_neg h', Arr.get_ok (by omega) (by omega), ok_bind, Arr.get_ok (by omega) (by omega), ok_bind,
            Arr.set_ok (by omega) (by omega)]
      · rw [if_neg h, if_neg h]
    dsimp only [ElevRem.enc]
    rw [q1, ok_bind, q2, ok_bind]
    rfl
  all_goals
    simp only [elevRemBody]
    omega

theorem elevRemAllC_ok {nh p ph oldr kind cind lbz : ℤ} (hop : oldr < p) (hph : p ≤ ph)
    (hk : ph < kind) (hkn : kind ≤ nh + ph + 2) (hc : cind ≤ nh + 1) (Uh : ℤ → K) (ua ub : K) (Qe : (ℤ → E) × (ℤ → E)) :
    elevRemAllC ⟨0, nh + ph + 1, Uh⟩ ua ub ph oldr kind cind lbz (⟨0, nh, Qe.1⟩, ⟨0, ph, Qe.2⟩) =
      .ok (⟨0, nh, (elevRem Uh ua ub ph oldr kind cind lbz Qe).1⟩, ⟨0, ph, (elevRem Uh ua ub ph oldr kind cind lbz Qe).2⟩) := by
  unfold elevRemAllC elevRem
  by_cases h : oldr > 1
  · rw [if_pos h, if_pos h, Arr.get_ok (by omega) (by omega), ok_bind]
    dsimp only
    rw [forUpC_inv (fun s : (ℤ → E) × (ℤ → E) × ℤ × ℤ => ((⟨0, nh, s.1⟩ : Arr E), (⟨0, ph, s.2.1⟩ : Arr E), s.2.2.1, s.2.2.2))
      (fun tr s => s.2.2.1 = kind - 1 - tr ∧ s.2.2.2 = kind - 1 + tr)
      (f := fun tr (s : (ℤ → E) × (ℤ → E) × ℤ × ℤ) =>
        ((elevRemIn Uh ua ub (ub - ua) ((ub - Uh (kind - 1)) / (ub - ua)) ph oldr kind cind lbz tr
          (s.2.2.2 - s.2.2.1).toNat ⟨s.1, s.2.1, s.2.2.1, s.2.2.2, s.2.2.2 - kind + 1⟩).Qw,
         (elevRemIn Uh ua ub (ub - ua) ((ub - Uh (kind - 1)) / (ub - ua)) ph oldr kind cind lbz tr
          (s.2.2.2 - s.2.2.1).toNat ⟨s.1, s.2.1, s.2.2.1, s.2.2.2, s.2.2.2 - kind + 1⟩).ebpts, s.2.2.1 - 1, s.2.2.2 + 1))
      (s := (Qe.1, Qe.2, kind - 2, kind)) ⟨by dsimp only; omega, by dsimp only; omega⟩ (by
        intro tr s c1 c2 hs
        obtain ⟨h1, h2⟩ := hs
        dsimp only
        have := elevRemInC_ok (nh := nh) (cind := cind) (lbz := lbz) c1 (by omega : tr < oldr) hop hph hk hkn hc Uh ua ub (ub - ua)
          ((ub - Uh (kind - 1)) / (ub - ua)) (s.2.2.2 - s.2.2.1).toNat ⟨s.1, s.2.1, s.2.2.1, s.2.2.2, s.2.2.2 - kind + 1⟩
          ⟨by dsimp only; omega, by dsimp only; omega, by dsimp only⟩ le_rfl
        dsimp only [ElevRem.enc] at this
        rw [this, ok_bind]
        exact ⟨rfl, by omega, by omega⟩), ok_bind]
  · rw [if_neg h, if_neg h]

/-- the state of `DegreeElevate` with the bounds of its arrays -/
abbrev ElevSt.enc (p t nh : ℤ) (s : ElevSt K E) : ElevStC K E where
  a := s.a
  b := s.b
  r := s.r
  kind := s.kind
  cind := s.cind
  ua := s.ua
  Uh := ⟨0, nh + (p + t) + 1, s.Uh⟩
  Qw := ⟨0, nh, s.Qw⟩
  bpts := ⟨0, p, s.bpts⟩
  ebpts := ⟨0, p + t, s.ebpts⟩
  nextbpts := ⟨0, p - 2, s.nextbpts⟩
  alfs := ⟨0, p - 2, s.alfs⟩

/-- what degree elevation needs to know about the knots -/
structure ElevSafe (eps : K) (n p : ℤ) (U : ℤ → K) : Prop where
  one_le : 1 ≤ p
  le : p ≤ n
  eps_nonneg : 0 ≤ eps
  first : U p ≠ U (p + 1)
  last : eps < |U n - U (n + 1)|
  tail : ∀ j, n + 1 ≤ j → j ≤ n + p → |U j - U (j + 1)| ≤ eps
  runs : ∀ i, p + 1 ≤ i → i + p ≤ n → ∃ j, i ≤ j ∧ j < i + p ∧ eps < |U j - U (j + 1)|

/-- the number of spans from `a` on -/
noncomputable def spansFromC (n : ℤ) (U : ℤ → K) (a : ℤ) : ℤ := ((Finset.Icc a n).filter (fun k => U k ≠ U (k + 1))).card

theorem spansFromC_lt {n a b : ℤ} {U : ℤ → K} (hab : a < b) (han : a ≤ n) (h : U a ≠ U (a + 1)) :
    spansFromC n U b + 1 ≤ spansFromC n U a := by
  unfold spansFromC
  have : ((Finset.Icc b n).filter (fun k => U k ≠ U (k + 1))).card <
      ((Finset.Icc a n).filter (fun k => U k ≠ U (k + 1))).card := by
    refine Finset.card_lt_card ⟨fun x hx => ?_, fun hsub => ?_⟩
    · simp only [Finset.mem_filter, Finset.mem_Icc] at hx ⊢
      exact ⟨⟨by omega, hx.1.2⟩, hx.2⟩
    · have := hsub (Finset.mem_filter.2 ⟨Finset.mem_Icc.2 ⟨le_rfl, han⟩, h⟩)
      simp only [Finset.mem_filter, Finset.mem_Icc] at this
      omega
  omega

theorem spansFromC_nonneg (n : ℤ) (U : ℤ → K) (a : ℤ) : 0 ≤ spansFromC n U a := by
  unfold spansFromC; omega

/-- the indices at the start of a round -/
structure ElevLive (n p t nh : ℤ) (U : ℤ → K) (M : ℤ) (s : ElevSt K E) : Prop where
  a_ge : p ≤ s.a
  a_le : s.a ≤ n
  b_eq : s.b = s.a + 1
  brk : U s.a ≠ U (s.a + 1)
  mass : n + M + t * spansFromC n U s.a ≤ nh
  idx : (s.a = p ∧ s.r = -1 ∧ s.kind = p + t + 1 ∧ s.cind = 1 ∧ M = 0) ∨
    (p < s.a ∧ t ≤ M ∧ 0 ≤ s.r ∧ s.r < p ∧ p ≤ s.a - (p - s.r) ∧ s.kind = s.a + M + 1 - p + s.r ∧
      s.cind = s.kind - (s.r + 1) / 2)

theorem elevStepC_ok {eps : K} {n p t nh : ℤ} {U : ℤ → K} (hU : ElevSafe eps n p U) (ht : 1 ≤ t) {M : ℤ}
    (bz : ℤ → ℤ → K) (Pw : ℤ → E) {s : ElevSt K E} (hs : ElevLive n p t nh U M s) :
    elevStepC eps ⟨0, p + t, 0, p, bz⟩ n p t ⟨0, n + p + 1, U⟩ ⟨0, n, Pw⟩ (s.enc p t nh) =
      .ok ((elevStep eps bz n p t U Pw s).enc p t nh) ∧
    s.b < (elevStep eps bz n p t U Pw s).b ∧ (elevStep eps bz n p t U Pw s).b ≤ n + p + 1 ∧
    ((elevStep eps bz n p t U Pw s).b < n + p + 1 → ElevLive n p t nh U (M + t) (elevStep eps bz n p t U Pw s)) := by
  obtain ⟨hp, hpn, he, hfirst, hlast, htail, hruns⟩ := hU
  obtain ⟨a1, a2, hb, hbrk, hmass, hidx⟩ := hs
  have hS := spansFromC_nonneg n U s.a
  have hm1 : n + M + t + t * spansFromC n U (s.a + 1) ≤ nh := by
    have := spansFromC_lt (b := s.a + 1) (by omega) a2 hbrk
    nlinarith
  have hm0 : n + M + t ≤ nh := by
    have := mul_nonneg (by omega : 0 ≤ t) (spansFromC_nonneg n U (s.a + 1))
    omega
  obtain ⟨b1, b2, b3, b4⟩ := elevRun_range eps (m := n + p + 1) U (n + p + 1 - s.b).toNat s.b (by omega) le_rfl
  unfold elevStepC elevStep
  dsimp only
  rw [elevRunC_ok eps U _ _ (by omega) le_rfl, ok_bind]
  generalize elevRun eps (n + p + 1) U (n + p + 1 - s.b).toNat s.b = b at b1 b2 b3 b4 ⊢
  have hcase : (b ≤ n ∧ b - s.b + 1 ≤ p) ∨ (b = n + p + 1 ∧ s.a = n) := by
    rcases eq_or_lt_of_le b2 with h | h
    · refine Or.inr ⟨h, ?_⟩
      by_contra hn
      exact absurd (b4 n (by omega) (by omega)) (not_le.2 hlast)
    · have hbn : b ≤ n := by
        by_contra hn
        exact absurd (htail b (by omega) (by omega)) (not_le.2 (b3 h))
      refine Or.inl ⟨hbn, ?_⟩
      by_contra hn
      obtain ⟨j, j1, j2, j3⟩ := hruns s.b (by omega) (by omega)
      exact absurd (b4 j j1 (by omega)) (not_le.2 j3)
  rw [Arr.get_ok (by omega) (by omega), ok_bind]
  generalize hLd : (if s.r > 0 then (s.r + 2) / 2 else 1) = L
  have hL : (0 < s.r ∧ L = (s.r + 2) / 2) ∨ (s.r ≤ 0 ∧ L = 1) := by
    split_ifs at hLd with h
    · exact Or.inl ⟨h, hLd.symm⟩
    · exact Or.inr ⟨by omega, hLd.symm⟩
  clear hLd
  generalize hmul : b - s.b + 1 = mul
  generalize hr : p - mul = r
  generalize hRd : (if r > 0 then p + t - (r + 1) / 2 else p + t) = R
  have hR : (0 < r ∧ R = p + t - (r + 1) / 2) ∨ (r ≤ 0 ∧ R = p + t) := by
    split_ifs at hRd with h
    · exact Or.inl ⟨h, hRd.symm⟩
    · exact Or.inr ⟨by omega, hRd.symm⟩
  clear hRd
  have e1 : (if r > 0 then elevAlfsC ⟨0, n + p + 1, U⟩ p mul s.a s.ua (U b) ⟨0, p - 2, s.alfs⟩ else .ok ⟨0, p - 2, s.alfs⟩) =
      (.ok ⟨0, p - 2, if r > 0 then elevAlfs U p mul s.a s.ua (U b) s.alfs else s.alfs⟩ : Chk (Arr K)) := by
    by_cases h : r > 0
    · rw [if_pos h, if_pos h, elevAlfsC_ok (by omega) (by omega) (by omega)]
    · rw [if_neg h, if_neg h]
  rw [e1, ok_bind]
  generalize (if r > 0 then elevAlfs U p mul s.a s.ua (U b) s.alfs else s.alfs) = alfs
  have e2 : (if r > 0 then elevCutC p mul r ⟨0, p - 2, alfs⟩ (⟨0, p, s.bpts⟩, ⟨0, p - 2, s.nextbpts⟩)
        else .ok (⟨0, p, s.bpts⟩, ⟨0, p - 2, s.nextbpts⟩)) =
      (.ok (⟨0, p, (if r > 0 then elevCut p mul r alfs (s.bpts, s.nextbpts) else (s.bpts, s.nextbpts)).1⟩,
        ⟨0, p - 2, (if r > 0 then elevCut p mul r alfs (s.bpts, s.nextbpts) else (s.bpts, s.nextbpts)).2⟩) :
        Chk (Arr E × Arr E)) := by
    by_cases h : r > 0
    · rw [if_pos h, if_pos h]
      exact elevCutC_ok (by omega) hr.symm alfs (s.bpts, s.nextbpts)
    · rw [if_neg h, if_neg h]
  rw [e2, ok_bind]
  generalize (if r > 0 then elevCut p mul r alfs (s.bpts, s.nextbpts) else (s.bpts, s.nextbpts)) = bn
  rw [elevPtsC_ok (by omega), ok_bind]
  generalize elevPts bz p t L bn.1 s.ebpts = ebpts
  have e3 := elevRemAllC_ok (nh := nh) (p := p) (ph := p + t) (oldr := s.r) (kind := s.kind) (cind := s.cind) (lbz := L)
    (by omega) (by omega) (by omega) (by omega) (by omega) s.Uh s.ua (U b) (s.Qw, ebpts)
  dsimp only at e3
  rw [e3, ok_bind]
  generalize elevRem s.Uh s.ua (U b) (p + t) s.r s.kind s.cind L (s.Qw, ebpts) = Qe
  have e4 : ∃ Uk : (ℤ → K) × ℤ, (if s.a ≠ p then
        forUpC 0 (p + t - s.r - 1) (fun _ (Uk : Arr K × ℤ) => do
          let Uh ← Uk.1.set Uk.2 s.ua
          .ok (Uh, Uk.2 + 1)) (⟨0, nh + (p + t) + 1, s.Uh⟩, s.kind)
      else .ok (⟨0, nh + (p + t) + 1, s.Uh⟩, s.kind) : Chk (Arr K × ℤ)) = .ok (⟨0, nh + (p + t) + 1, Uk.1⟩, Uk.2) ∧
      (if s.a ≠ p then
        forUp 0 (p + t - s.r - 1) (fun _ (Uk : (ℤ → K) × ℤ) => (upd Uk.1 Uk.2 s.ua, Uk.2 + 1)) (s.Uh, s.kind)
      else (s.Uh, s.kind)) = Uk ∧ Uk.2 = s.a + M + t + 1 := by
    by_cases h : s.a ≠ p
    · rw [if_pos h, if_pos h]
      refine ⟨_, forUpC_inv (fun s : (ℤ → K) × ℤ => ((⟨0, nh + (p + t) + 1, s.1⟩ : Arr K), s.2))
        (fun k q => q.2 = s.kind + k) (f := fun _ (Uk : (ℤ → K) × ℤ) => (upd Uk.1 Uk.2 s.ua, Uk.2 + 1))
        (s := (s.Uh, s.kind)) (by dsimp only; omega) (by
          intro k q c1 c2 hq
          dsimp only
          rw [Arr.set_ok (by omega) (by omega), ok_bind]
          exact ⟨rfl, by omega⟩), rfl, ?_⟩
      have := forUp_inv (lo := 0) (hi := p + t - s.r - 1) (s := (s.Uh, s.kind))
        (f := fun _ (Uk : (ℤ → K) × ℤ) => (upd Uk.1 Uk.2 s.ua, Uk.2 + 1))
        (fun k q => q.2 = s.kind + k) (by omega) (by dsimp only; omega) (by
          intro k q c1 c2 hq
          dsimp only
          omega)
      omega
    · rw [if_neg h, if_neg h]
      exact ⟨_, rfl, rfl, by dsimp only; omega⟩
  obtain ⟨Uk, f1, f2, f3⟩ := e4
  rw [f1, ok_bind, f2]
  have e5 := forUpC_inv (fun s : (ℤ → E) × ℤ => ((⟨0, nh, s.1⟩ : Arr E), s.2)) (lo := L) (hi := R)
    (fC := fun j (Qc : Arr E × ℤ) => do
      let e ← (Arr.mk 0 (p + t) Qe.2).get j
      let Qw ← Qc.1.set Qc.2 e
      .ok (Qw, Qc.2 + 1))
    (fun k q => q.2 = s.cind + (k - L)) (f := fun j (Qc : (ℤ → E) × ℤ) => (upd Qc.1 Qc.2 (Qe.2 j), Qc.2 + 1))
    (s := (Qe.1, s.cind)) (by dsimp only; omega) (by
      intro k q c1 c2 hq
      dsimp only
      rw [Arr.get_ok (by omega) (by omega), ok_bind, Arr.set_ok (by omega) (by omega), ok_bind]
      exact ⟨rfl, by omega⟩)
  have e6 := forUp_inv (lo := L) (hi := R) (s := (Qe.1, s.cind))
    (f := fun j (Qc : (ℤ → E) × ℤ) => (upd Qc.1 Qc.2 (Qe.2 j), Qc.2 + 1))
    (fun k q => q.2 = s.cind + (k - L)) (by omega) (by dsimp only; omega) (by
      intro k q c1 c2 hq
      dsimp only
      omega)
  rw [e5, ok_bind]
  generalize forUp L R (fun j (Qc : (ℤ → E) × ℤ) => (upd Qc.1 Qc.2 (Qe.2 j), Qc.2 + 1)) (Qe.1, s.cind) = Qc at e6 ⊢
  dsimp only
  by_cases hbm : b < n + p + 1
  · rw [if_pos hbm, if_pos hbm]
    rw [fillC_ok bn.2 (fun i c1 c2 => Arr.get_ok (by omega) (by omega)) (by intro; omega) (by intro; omega), ok_bind,
      fillC_ok (fun i => Pw (b - p + i)) (fun i c1 c2 => Arr.get_ok (by omega) (by omega)) (by intro; omega) (by intro; omega),
      ok_bind]
    refine ⟨rfl, by dsimp only; omega, by dsimp only; omega, fun _ => ?_⟩
    have hSb := spansFromC_lt (b := b) (by omega) a2 hbrk
    refine ⟨by dsimp only; omega, by dsimp only; omega, rfl, ?_, ?_, Or.inr ?_⟩
    · intro h
      have := b3 hbm
      rw [h, sub_self, abs_zero] at this
      exact absurd this (not_lt.2 he)
    · dsimp only
      nlinarith
    · dsimp only
      refine ⟨?_, ?_, ?_, ?_, ?_, ?_, ?_⟩ <;> omega
  · rw [if_neg hbm, if_neg hbm]
    rw [fillC_ok (fun _ => U b) (fun i c1 c2 => rfl) (by intro; omega) (by intro; omega), ok_bind]
    exact ⟨rfl, by dsimp only; omega, by dsimp only; omega, fun h => absurd h hbm⟩

theorem degreeElevateC_ok {eps : K} {n p t nh : ℤ} {U : ℤ → K} (hU : ElevSafe eps n p U) (ht : 1 ≤ t)
    (hnh : n + t * spansFromC n U p ≤ nh) (jk : ℤ → K) (je : ℤ → E) (jb : ℤ → ℤ → K) (Pw : ℤ → E) :
    degreeElevateC eps jk je jb n p ⟨0, n + p + 1, U⟩ ⟨0, n, Pw⟩ t nh ⟨0, nh + p + t + 1, jk⟩ ⟨0, nh, je⟩ =
      .ok (⟨0, nh + p + t + 1, (degreeElevate eps jk je jb n p U Pw t).1⟩,
        ⟨0, nh, (degreeElevate eps jk je jb n p U Pw t).2⟩) := by
  have hp := hU.one_le
  have hpn := hU.le
  have hn : n + t ≤ nh := by
    have := spansFromC_lt (b := p + 1) (n := n) (by omega) hpn hU.first
    have := spansFromC_nonneg n U (p + 1)
    nlinarith
  unfold degreeElevateC degreeElevate
  rw [Arr.arg_ok le_rfl, ok_bind, Arr.arg_ok le_rfl, ok_bind, Arr.arg_ok le_rfl, ok_bind, Arr.arg_ok le_rfl, ok_bind,
    if_neg (by omega), if_neg (by omega), elevBezC_ok (by omega) (by omega), ok_bind, Arr.get_ok (by omega) (by omega), ok_bind]
  rw [fillC_ok (fun _ => U p) (fun i c1 c2 => rfl) (by intro; omega) (by intro; omega), ok_bind,
    Arr.get_ok (by omega) (by omega), ok_bind, Arr.set_ok (by omega) (by omega), ok_bind,
    fillC_ok Pw (fun i c1 c2 => Arr.get_ok (by omega) (by omega)) (by intro; omega) (by intro; omega), ok_bind]
  dsimp only
  rw [show nh + p + t + 1 = nh + (p + t) + 1 by ring]
  have key := whileC_rec (ElevSt.enc p t nh) (cC := fun s : ElevStC K E => .ok (decide (s.b < n + p + 1)))
    (bC := elevStepC eps ⟨0, p + t, 0, p, elevBez jb p t⟩ n p t ⟨0, n + p + 1, U⟩ ⟨0, n, Pw⟩)
    (fun s : ElevSt K E => s.b < n + p + 1) (elevStep eps (elevBez jb p t) n p t U Pw)
    (elevLoop eps (elevBez jb p t) n p t U Pw) (fun _ => rfl) (fun _ _ => rfl)
    (fun s => s.b < n + p + 1 → ∃ M, ElevLive n p t nh U M s) (fun s => (n + p + 1 - s.b).toNat)
    (by
      intro s hs
      refine ⟨rfl, fun hc => ?_⟩
      obtain ⟨M, hM⟩ := hs hc
      obtain ⟨g1, g2, g3, g4⟩ := elevStepC_ok hU ht (elevBez jb p t) Pw hM
      exact ⟨g1, fun h => ⟨_, g4 h⟩, by omega⟩)
    (n + p + 1).toNat
    { a := p, b := p + 1, r := -1, kind := p + t + 1, cind := 1, ua := U p,
      Uh := fillRange jk 0 (p + t) 0 (fun _ => U p), Qw := upd je 0 (Pw 0),
      bpts := fillRange je 0 p 0 Pw, ebpts := je, nextbpts := je, alfs := jk }
    (fun _ => ⟨0, le_rfl, hpn, rfl, hU.first, by dsimp only; omega, Or.inl ⟨rfl, rfl, rfl, rfl, rfl⟩⟩)
    (by dsimp only; omega)
  have := key.1
  dsimp only [ElevSt.enc] at this
  rw [this, ok_bind]

end Igakit
