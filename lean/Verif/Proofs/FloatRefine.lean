import Verif.Model.FloatRefine
import Verif.Proofs.FloatInsert
import Verif.Proofs.Refine

/-! # Rounding errors of `RefineKnotVector` -/

set_option linter.unusedSectionVars false

namespace Igakit
open Spec

variable {K : Type} [Field K] [LinearOrder K] [IsStrictOrderedRing K]

/-- two descending loops side by side -/
theorem forDown_rel {σ τ : Type} {f : ℤ → σ → σ} {g : ℤ → τ → τ} (I : ℤ → σ → τ → Prop) {lo hi : ℤ} {s : σ} {t : τ}
    (hle : lo ≤ hi + 1) (h0 : I hi s t)
    (step : ∀ i s t, lo ≤ i → i ≤ hi → I i s t → I (i - 1) (f i s) (g i t)) :
    I (lo - 1) (forDown hi lo f s) (forDown hi lo g t) := by
  have key : ∀ m : ℕ, ∀ hi' s t, hi' ≤ hi → hi' - m = lo - 1 → I hi' s t →
      I (lo - 1) (iterDown f m hi' s) (iterDown g m hi' t) := by
    intro m
    induction m with
    | zero =>
      intro hi' s t _ e h
      have : hi' = lo - 1 := by push_cast at e; omega
      rw [this] at h
      exact h
    | succ m ih =>
      intro hi' s t a e h
      push_cast at e
      exact ih (hi' - 1) _ _ (by omega) (by omega) (step hi' s t (by omega) a h)
  exact key _ hi s t le_rfl (by omega) h0

/-- where the pass for `X j` works -/
theorem refine_place {eps : K} (heps : 0 < eps) {n : ℤ} {p : ℕ} {U : ℤ → K} {E : Type} [AddCommGroup E] [Module K E]
    (hv : ValidKnots n p U) {P : ℤ → E} {r : ℤ} {X : ℤ → K} (hX : SortedOn X 0 r) (hhi : X r ≤ U (n + 1))
    (hsU : ∀ j, 0 ≤ j → j ≤ r → SepFrom eps (X j) U 0 (n + p + 1))
    (hsX : ∀ j, 0 ≤ j → j ≤ r → SepFrom eps (X j) X 0 r)
    {a : ℤ} (ha1 : (p : ℤ) ≤ a) (ha2 : a ≤ n) (ha3 : U a ≤ X 0)
    {j : ℤ} (hj0 : 0 ≤ j) (hjr : j ≤ r) {s : RefineSt K E} {T : ℤ → K} {C : ℤ → E}
    (h : RInv n p U P r X a j s T C) {s1 : RefineSt K E} (hs1 : s1 = refineWhile p U P (X j) a (s.i - a).toNat s) :
    s1.k = s1.i + j + 1 ∧ a ≤ s1.i ∧ s1.i ≤ n ∧
      ∀ l : ℤ, 1 ≤ l → l ≤ p → U (s1.i - p + l) ≤ X j ∧ X j ≤ s1.Ubar (s1.k + l) ∧
        (s1.Ubar (s1.k + l) = X j ∨ eps ≤ |s1.Ubar (s1.k + l) - X j|) := by
  have hp := hv.one_le
  have hle := hv.le
  obtain ⟨w1, w2, w3⟩ := refineWhile_abs ha1 hj0 (x := X j) (s.i - a).toNat s (le_refl _) h.abs (h.nxt hj0)
  rw [← hs1] at w1 w2 w3
  clear hs1
  have hk := w1.hk
  have hia := w1.ia
  have hiN := w1.iN
  have hXj0 : X 0 ≤ X j := hX 0 j (le_refl _) hj0 hjr
  have hXjr : X j ≤ X r := hX j r hj0 hjr (le_refl _)
  have hx1 : U s1.i ≤ X j := by
    by_cases e : s1.i = a
    · rw [e]; exact le_trans ha3 hXj0
    · by_contra hc
      exact w3 ⟨(not_le.mp hc).le, by omega⟩
  have hin : s1.i ≤ n := by
    by_cases e : s1.i = a
    · omega
    · by_contra hc
      have hlt : U s1.i < X j := by
        by_contra hcc
        exact w3 ⟨not_lt.mp hcc, by omega⟩
      have hzlt : U s1.i < U (n + 1) := lt_of_lt_of_le hlt (le_trans hXjr hhi)
      exact absurd (hv.sorted (n + 1) s1.i (by omega) (by omega) (by omega)) (not_le.mpr hzlt)
  refine ⟨hk, hia, hin, fun l l1 l2 => ?_⟩
  have e1 : s1.Ubar (s1.k + l) = T (s1.i + l) := by
    rw [w1.thi _ (by omega) (by omega)]; congr 1; omega
  rw [e1]
  refine ⟨(hv.sorted _ _ (by omega) (by omega) (by omega)).trans hx1,
    w2.trans (h.refn.sorted _ _ (by omega) (by omega) (by omega)), ?_⟩
  have hmem : T (s1.i + l) ∈ knotMS T (n + (r - j) + p + 1) :=
    mem_knotMS.mpr ⟨s1.i + l, by omega, by omega, rfl⟩
  rw [h.refn.ms, Multiset.mem_add] at hmem
  rcases hmem with hm | hm
  · obtain ⟨z, z1, z2, z3⟩ := mem_knotMS.mp hm
    rcases hsU j hj0 hjr z z1 z2 with g | g
    · left; rw [← z3, g]
    · right; rwa [z3, abs_sub_comm] at g
  · obtain ⟨z, z1, z3⟩ := Multiset.mem_map.mp hm
    have z1 := Multiset.mem_range.mp z1
    rcases hsX j hj0 hjr (j + 1 + z) (by omega) (by omega) with g | g
    · left; rw [← z3, g]
    · right; rwa [z3, abs_sub_comm] at g

namespace Fp

/-- the machine state follows the exact state: same indices and knots, related control points where they are defined -/
structure RefineRel {ι : Type} (Rel : ℕ → Fp K → K → Prop) (c : ι) (p : ℤ) (a top : ℤ) (m : ℕ)
    (sF : RefineSt K (ι → Fp K)) (s : RefineSt K (ι → K)) : Prop where
  hi : sF.i = s.i
  hk : sF.k = s.k
  hU : sF.Ubar = s.Ubar
  lo : ∀ z, 0 ≤ z → z ≤ a - p → Rel m (sF.Qw z c) (s.Qw z c)
  up : ∀ z, s.k - p ≤ z → z ≤ top → Rel m (sF.Qw z c) (s.Qw z c)

section sim

variable {rd : K → K} {Rel : ℕ → Fp K → K → Prop} (hmono : ∀ m a x, Rel m a x → Rel (m + 1) a x)
include hmono

theorem rel_up {m m' : ℕ} (h : m ≤ m') {a : Fp K} {x : K} (hr : Rel m a x) : Rel m' a x := by
  induction m', h using Nat.le_induction with
  | base => exact hr
  | succ q _ ih => exact hmono _ _ _ ih

theorem refineWhile_rel {ι : Type} (c : ι) {n : ℤ} {p : ℤ} {U : ℤ → K} {P : ℤ → ι → K}
    (hP : ∀ i, 0 ≤ i → i ≤ n → Rel 0 (some (P i c)) (P i c)) {x : K} {a top : ℤ} (hpa : p ≤ a) {m : ℕ} :
    ∀ (fuel : ℕ) (sF : RefineSt K (ι → Fp K)) (s : RefineSt K (ι → K)), s.i ≤ n + p → RefineRel Rel c p a top m sF s →
      RefineRel Rel c p a top m (refineWhile p U (fun i c => some (P i c)) x a fuel sF) (refineWhile p U P x a fuel s) := by
  intro fuel
  induction fuel with
  | zero => intro sF s _ h; exact h
  | succ fuel ih =>
    intro sF s hn h
    rw [refineWhile, refineWhile, h.hi]
    by_cases hc : x ≤ U s.i ∧ s.i > a
    · rw [if_pos hc, if_pos hc]
      have hx := rel_up hmono (Nat.zero_le m) (hP (s.i - p - 1) (by omega) (by omega))
      refine ih _ _ (by dsimp only; omega) ⟨rfl, by dsimp only; rw [h.hk], by dsimp only; rw [h.hU, h.hk], ?_, ?_⟩
      · intro z z0 z1
        dsimp only
        rw [h.hk]
        by_cases e : z = s.k - p - 1
        · rw [upd_eq _ _ e, upd_eq _ _ e]; exact hx
        · rw [upd_ne _ _ e, upd_ne _ _ e]; exact h.lo z z0 z1
      · intro z z0 z1
        dsimp only at z0 ⊢
        rw [h.hk]
        by_cases e : z = s.k - p - 1
        · rw [upd_eq _ _ e, upd_eq _ _ e]; exact hx
        · rw [upd_ne _ _ e, upd_ne _ _ e]; exact h.up z (by omega) z1
    · rw [if_neg hc, if_neg hc]
      exact h

variable (hstep : ∀ m u a b xF x yF y, a ≤ u → u ≤ b → a < b → Rel m xF x → Rel m yF y →
    Rel (m + 1) (cutF rd u a b xF yF) ((u - a) / (b - a) * x + (1 - (u - a) / (b - a)) * y))
include hstep

/-- the combination of `RefineKnotVector` -/
theorem refine_cut {m : ℕ} {x a t : K} (h1 : a ≤ x) (h2 : x < t) {xF yF : Fp K} {q s : K} (hx : Rel m xF q)
    (hy : Rel m yF s) :
    Rel (m + 1) (add rd (mul rd (div rd (some (rd (t - x))) (sub rd (some t) (some a))) xF)
        (mul rd (sub rd (some 1) (div rd (some (rd (t - x))) (sub rd (some t) (some a)))) yF))
      ((t - x) / (t - a) * q + (1 - (t - x) / (t - a)) * s) := by
  have := hstep m (-x) (-t) (-a) xF q yF s (by linarith) (by linarith) (by linarith) hx hy
  unfold cutF at this
  have e1 : sub rd (some (-x)) (some (-t)) = some (rd (t - x)) := by
    show some (rd (-x - -t)) = _
    rw [show -x - -t = t - x by ring]
  have e2 : sub rd (some (-a)) (some (-t)) = sub rd (some t) (some a) := by
    show some (rd (-a - -t)) = some (rd (t - a))
    rw [show -a - -t = t - a by ring]
  rw [e1, e2, show -x - -t = t - x by ring, show -a - -t = t - a by ring] at this
  exact this

theorem refineInner_rel {ι : Type} (c : ι) {eps : K} (heps : 0 < eps) (hz : rd 0 = 0) (hE : ∀ x, eps ≤ |x| → eps ≤ |rd x|) {p : ℕ}
    {U : ℤ → K} {x : K} {i k : ℤ} {Ubar : ℤ → K} {ok : ℤ → Prop} (hok : ∀ z, k - p ≤ z → z ≤ k → ok z)
    (hU : ∀ l : ℤ, 1 ≤ l → l ≤ p → U (i - p + l) ≤ x ∧ x ≤ Ubar (k + l) ∧ (Ubar (k + l) = x ∨ eps ≤ |Ubar (k + l) - x|))
    {m : ℕ} {QF : ℤ → ι → Fp K} {Q : ℤ → ι → K} (h : ∀ z, ok z → Rel m (QF z c) (Q z c)) :
    ∀ z, ok z → Rel (m + 1) (Fp.refineInner rd eps p U x i k Ubar QF z c) (Igakit.refineInner eps p U x i k Ubar Q z c) := by
  have key := forUp_rel (fun l (s : ℤ → ι → Fp K) (t : ℤ → ι → K) =>
      (∀ z, ok z → Rel (m + 1) (s z c) (t z c)) ∧ (∀ z, ok z → k - p + l - 1 ≤ z → Rel m (s z c) (t z c)))
    (lo := 1) (hi := p) (s := QF) (t := Q)
    (f := fun l (Qw : ℤ → ι → Fp K) =>
      let idx := k - p + l
      let alpha := rd (Ubar (k + l) - x)
      if |alpha| < eps then upd Qw (idx - 1) (Qw idx)
      else
        let alpha := div rd (some alpha) (sub rd (some (Ubar (k + l))) (some (U (i - p + l))))
        upd Qw (idx - 1) (fun c =>
          add rd (mul rd alpha (Qw (idx - 1) c)) (mul rd (sub rd (some 1) alpha) (Qw idx c))))
    (g := fun l (Qw : ℤ → ι → K) =>
      let idx := k - p + l
      let alpha := Ubar (k + l) - x
      if |alpha| < eps then upd Qw (idx - 1) (Qw idx)
      else
        let alpha := alpha / (Ubar (k + l) - U (i - p + l))
        upd Qw (idx - 1) (alpha • Qw (idx - 1) + (1 - alpha) • Qw idx)) (by omega)
    ⟨fun z hz => hmono _ _ _ (h z hz), fun z hz _ => h z hz⟩ ?_
  · exact key.1
  · rintro l s t l1 l2 ⟨k1, k2⟩
    obtain ⟨u1, u2, u3⟩ := hU l l1 l2
    have o1 := k2 (k - p + l) (hok _ (by omega) (by omega)) (by omega)
    have o2 := k2 (k - p + l - 1) (hok _ (by omega) (by omega)) (by omega)
    dsimp only
    rcases u3 with e | e
    · rw [if_pos (by rw [e, sub_self, hz, abs_zero]; exact heps), if_pos (by rw [e, sub_self, abs_zero]; exact heps)]
      refine ⟨fun z hz => ?_, fun z hz b => ?_⟩
      · by_cases e' : z = k - p + l - 1
        · rw [upd_eq _ _ e', upd_eq _ _ e']; exact hmono _ _ _ o1
        · rw [upd_ne _ _ e', upd_ne _ _ e']; exact k1 z hz
      · rw [upd_ne _ _ (by omega), upd_ne _ _ (by omega)]; exact k2 z hz (by omega)
    · rw [if_neg (not_lt.mpr (hE _ e)), if_neg (not_lt.mpr e)]
      have hlt : x < Ubar (k + l) := by
        refine lt_of_le_of_ne u2 fun e' => ?_
        rw [← e', sub_self, abs_zero] at e
        linarith
      refine ⟨fun z hz => ?_, fun z hz b => ?_⟩
      · by_cases e' : z = k - p + l - 1
        · rw [upd_eq _ _ e', upd_eq _ _ e']
          exact refine_cut hmono hstep u1 hlt o2 o1
        · rw [upd_ne _ _ e', upd_ne _ _ e']; exact k1 z hz
      · rw [upd_ne _ _ (by omega), upd_ne _ _ (by omega)]; exact k2 z hz (by omega)

theorem refineOuter_rel {ι : Type} (c : ι) {eps : K} (heps : 0 < eps) (hz : rd 0 = 0) (hE : ∀ x, eps ≤ |x| → eps ≤ |rd x|)
    {n : ℤ} {p : ℕ} {U : ℤ → K} (hv : ValidKnots n p U) {P : ℤ → ι → K}
    (hP : ∀ i, 0 ≤ i → i ≤ n → Rel 0 (some (P i c)) (P i c)) {r : ℤ} {X : ℤ → K} (hX : SortedOn X 0 r)
    (hhi : X r ≤ U (n + 1))
    (hsU : ∀ j, 0 ≤ j → j ≤ r → SepFrom eps (X j) U 0 (n + p + 1))
    (hsX : ∀ j, 0 ≤ j → j ≤ r → SepFrom eps (X j) X 0 r)
    {a : ℤ} (ha1 : (p : ℤ) ≤ a) (ha2 : a ≤ n) (ha3 : U a ≤ X 0)
    {j : ℤ} (hj0 : 0 ≤ j) (hjr : j ≤ r) {sF : RefineSt K (ι → Fp K)} {s : RefineSt K (ι → K)} {T : ℤ → K} {C : ℤ → ι → K}
    (h : RInv n p U P r X a j s T C) {m : ℕ} (hr : RefineRel Rel c p a (n + r + 1) m sF s) :
    RefineRel Rel c p a (n + r + 1) (m + 1) (Fp.refineOuter rd eps p U P X a j sF) (Igakit.refineOuter eps p U P X a j s) := by
  have hw := refineWhile_rel hmono c (U := U) hP (x := X j) ha1 (s.i - a).toNat sF s h.abs.iN hr
  obtain ⟨p1, p2, p3, p4⟩ := refine_place heps hv hX hhi hsU hsX ha1 ha2 ha3 hj0 hjr h rfl
  unfold Fp.refineOuter Igakit.refineOuter
  rw [hr.hi]
  dsimp only
  generalize refineWhile p U P (X j) a (s.i - a).toNat s = s1 at *
  generalize refineWhile p U (fun i c => some (P i c)) (X j) a (s.i - a).toNat sF = t1 at *
  obtain ⟨w1, w2, w3, w4, w5⟩ := hw
  have hin := refineInner_rel hmono hstep c heps hz hE (U := U) (x := X j) (i := s1.i) (k := s1.k) (Ubar := s1.Ubar)
    (ok := fun z => (0 ≤ z ∧ z ≤ a - p) ∨ (s1.k - p - 1 ≤ z ∧ z ≤ n + r + 1)) (fun z z0 z1 => .inr ⟨by omega, by omega⟩) p4
    (m := m) (QF := upd t1.Qw (s1.k - p - 1) (t1.Qw (s1.k - p))) (Q := upd s1.Qw (s1.k - p - 1) (s1.Qw (s1.k - p)))
    (fun z hz => by
      by_cases e : z = s1.k - p - 1
      · rw [upd_eq _ _ e, upd_eq _ _ e]; exact w5 _ le_rfl (by omega)
      · rw [upd_ne _ _ e, upd_ne _ _ e]
        rcases hz with hz | hz
        · exact w4 z hz.1 hz.2
        · exact w5 z (by omega) hz.2)
  rw [w1, w2, w3]
  exact ⟨rfl, rfl, rfl, fun z z0 z1 => hin z (.inl ⟨z0, z1⟩), fun z z0 z1 => hin z (.inr ⟨by dsimp only at z0; omega, z1⟩)⟩

theorem refineKnotVector_rel {ι : Type} (c : ι) {eps : K} (heps : 0 < eps) (hz : rd 0 = 0) (hE : ∀ x, eps ≤ |x| → eps ≤ |rd x|)
    (jk : ℤ → K) (jeF : ℤ → ι → Fp K) (je : ℤ → ι → K)
    {n : ℤ} {p : ℕ} {U : ℤ → K} (hv : ValidKnots n p U) {P : ℤ → ι → K}
    (hP : ∀ i, 0 ≤ i → i ≤ n → Rel 0 (some (P i c)) (P i c)) {r : ℤ} (hr : -1 ≤ r) {X : ℤ → K} (hX : SortedOn X 0 r)
    (hlo : ∀ j, 0 ≤ j → j ≤ r → U p ≤ X j) (hhi : ∀ j, 0 ≤ j → j ≤ r → X j ≤ U (n + 1))
    (hsU : ∀ j, 0 ≤ j → j ≤ r → SepFrom eps (X j) U 0 (n + p + 1))
    (hsX : ∀ j, 0 ≤ j → j ≤ r → SepFrom eps (X j) X 0 r) :
    (Fp.refineKnotVector rd eps jk jeF n p U P r X).1 = (Igakit.refineKnotVector eps jk je n p U P r X).1 ∧
    ∀ z, 0 ≤ z → z ≤ n + r + 1 → Rel (r + 1).toNat ((Fp.refineKnotVector rd eps jk jeF n p U P r X).2 z c)
      ((Igakit.refineKnotVector eps jk je n p U P r X).2 z c) := by
  have hp := hv.one_le
  have hle := hv.le
  unfold Fp.refineKnotVector Igakit.refineKnotVector
  by_cases h0 : r < 0
  · rw [if_pos h0, if_pos h0]
    refine ⟨rfl, fun z z0 z1 => ?_⟩
    dsimp only
    rw [fillRange_in _ _ _ _ _ (by omega) (by omega), fillRange_in _ _ _ _ _ (by omega) (by omega)]
    exact rel_up hmono (Nat.zero_le _) (hP _ (by omega) (by omega))
  · rw [if_neg h0, if_neg h0]
    have hr0 : 0 ≤ r := by omega
    dsimp only
    have i0 := findSpan_inSpan hv (hlo 0 (le_refl _) hr0) (hhi 0 (le_refl _) hr0)
    have ir := findSpan_inSpan hv (hlo r hr0 (le_refl _)) (hhi r hr0 (le_refl _))
    have g0 := findSpan_range (U := U) (X 0) (by omega : (0 : ℤ) ≤ p) hle
    have gr := findSpan_range (U := U) (X r) (by omega : (0 : ℤ) ≤ p) hle
    set a := findSpan n p (X 0) U with ha
    set b := findSpan n p (X r) U + 1 with hb
    have hab : a ≤ b - 1 := by
      have hXX : X 0 ≤ X r := hX 0 r (le_refl _) hr0 (le_refl _)
      have : findSpan n p (X 0) U ≤ findSpan n p (X r) U := findSpan_mono hv (hlo 0 (le_refl _) hr0)
        hXX (hhi r hr0 (le_refl _))
      omega
    clear_value a b
    have hbs : b - 1 = findSpan n p (X r) U := by omega
    rw [← hbs] at ir gr
    have hinit : RInv n p U P r X a r
        { i := b + p - 1, k := b + p + r,
          Ubar := fillRange (fillRange jk 0 a 0 fun j => U j) (b + p) (n + p + 1) (r + 1) fun j => U j,
          Qw := fillRange (fillRange je 0 (a - p) 0 fun j => P j) (b - 1) n (r + 1) fun j => P j } U P := by
      refine ⟨⟨?_, ?_, ?_, ?_, ?_, ?_, ?_, ?_, ?_⟩, ?_, ?_, ?_, ?_⟩ <;> try dsimp only
      · ring
      · omega
      · omega
      · intros; rfl
      · intro y c d
        rw [fillRange_in _ _ _ _ _ (by omega) (by omega)]; congr 1; ring
      · intros; rfl
      · intro y c d
        rw [fillRange_in _ _ _ _ _ (by omega) (by omega)]; congr 1; ring
      · intro y c d
        rw [fillRange_out _ _ _ _ _ (by omega), fillRange_in _ _ _ _ _ (by omega) (by omega)]
        congr 1; ring
      · intro y c d
        rw [fillRange_out _ _ _ _ _ (by omega), fillRange_in _ _ _ _ _ (by omega) (by omega)]
        congr 1; ring
      · rw [sub_self, add_zero]
        exact IsRefn.refl hv.sorted P
      · rw [sub_self, add_zero]
      · intro _
        refine le_trans ir.right (hv.sorted _ _ (by omega) (by omega) (by omega))
      · intro c; omega
    have hrel := forDown_rel (f := Fp.refineOuter rd eps p U P X a) (g := Igakit.refineOuter eps p U P X a)
      (fun j sF s => (∃ T C, RInv n p U P r X a j s T C) ∧ RefineRel Rel c p a (n + r + 1) (r - j).toNat sF s)
      (lo := 0) (hi := r)
      (s := ⟨b + p - 1, b + p + r,
          fillRange (fillRange jk 0 a 0 fun j => U j) (b + p) (n + p + 1) (r + 1) fun j => U j,
          fillRange (fillRange jeF 0 (a - p) 0 (fun j c => some (P j c))) (b - 1) n (r + 1) (fun j c => some (P j c))⟩)
      (t := ⟨b + p - 1, b + p + r,
          fillRange (fillRange jk 0 a 0 fun j => U j) (b + p) (n + p + 1) (r + 1) fun j => U j,
          fillRange (fillRange je 0 (a - p) 0 fun j => P j) (b - 1) n (r + 1) fun j => P j⟩)
      (by omega) ⟨⟨U, P, hinit⟩, rfl, rfl, rfl, ?_, ?_⟩ ?_
    · obtain ⟨⟨T, C, h⟩, hR⟩ := hrel
      refine ⟨hR.hU, fun z z0 z1 => ?_⟩
      have e : (r - (0 - 1)).toNat = (r + 1).toNat := by omega
      rw [e] at hR
      generalize forDown r 0 (Igakit.refineOuter eps p U P X a) _ = s at *
      have hia : s.i = a := by
        have := h.abs.ia
        by_contra hc
        have iN := h.abs.iN
        refine h.stop (by omega) ⟨?_, by omega⟩
        rw [show (0 : ℤ) - 1 + 1 = 0 by ring]
        exact le_trans i0.right (hv.sorted _ _ (by omega) (by omega) (by omega))
      have hk := h.abs.hk
      by_cases hc : z ≤ a - p
      · exact hR.lo z z0 hc
      · exact hR.up z (by omega) z1
    · intro z z0 z1
      dsimp only
      rw [fillRange_out _ _ _ _ _ (by omega), fillRange_in _ _ _ _ _ (by omega) (by omega),
        fillRange_out _ _ _ _ _ (by omega), fillRange_in _ _ _ _ _ (by omega) (by omega)]
      exact rel_up hmono (Nat.zero_le _) (hP _ (by omega) (by omega))
    · intro z z0 z1
      dsimp only at z0 ⊢
      rw [fillRange_in _ _ _ _ _ (by omega) (by omega), fillRange_in _ _ _ _ _ (by omega) (by omega)]
      exact rel_up hmono (Nat.zero_le _) (hP _ (by omega) (by omega))
    · rintro j sF s j0 j1 ⟨⟨T, C, h⟩, hR⟩
      refine ⟨refineOuter_inv heps hv hX (hlo 0 (le_refl _) hr0) (hhi r hr0 (le_refl _)) hsU hsX
          g0.1 g0.2 i0.left i0.right j0 j1 h, ?_⟩
      have := refineOuter_rel hmono hstep c heps hz hE hv hP hX (hhi r hr0 (le_refl _)) hsU hsX g0.1 g0.2 i0.left j0 j1 h hR
      rwa [show (r - j).toNat + 1 = (r - (j - 1)).toNat by omega] at this

end sim
end Fp
end Igakit
