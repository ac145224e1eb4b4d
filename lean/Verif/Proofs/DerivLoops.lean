import Verif.Model.DerivLoops
import Verif.Proofs.BoundsEval
import Mathlib.Algebra.BigOperators.Fin
import Mathlib.Algebra.BigOperators.Intervals
import Mathlib.Data.Int.Interval

set_option linter.unusedSectionVars false

/-!
# Loops and storage of the derivative routines
-/

namespace Igakit

section gen
variable {σ : Type}

/-- a checked loop with an invariant -/
theorem forUpC_hoare (I : ℤ → σ → Prop) {lo hi : ℤ} {f : ℤ → σ → Chk σ} {s : σ} (hle : lo ≤ hi + 1) (h0 : I lo s)
    (step : ∀ i s, lo ≤ i → i ≤ hi → I i s → ∃ s', f i s = .ok s' ∧ I (i + 1) s') :
    ∃ s', forUpC lo hi f s = .ok s' ∧ I (hi + 1) s' := by
  have key : ∀ (k : ℕ) (lo : ℤ) (s : σ), I lo s →
      (∀ i s, lo ≤ i → i < lo + k → I i s → ∃ s', f i s = .ok s' ∧ I (i + 1) s') →
      ∃ s', iterUp (fun i (o : Chk σ) => o >>= f i) k lo (.ok s) = .ok s' ∧ I (lo + k) s' := by
    intro k
    induction k with
    | zero => intro lo s h _; exact ⟨s, rfl, by simpa using h⟩
    | succ k ih =>
      intro lo s h st
      obtain ⟨s1, h1, h2⟩ := st lo s le_rfl (by push_cast; omega) h
      obtain ⟨s2, h3, h4⟩ := ih (lo + 1) s1 h2 (fun i s a b => st i s (by omega) (by push_cast; omega))
      refine ⟨s2, ?_, by push_cast; rwa [show lo + ((k : ℤ) + 1) = lo + 1 + k by ring]⟩
      simp only [iterUp]
      rw [ok_bind, h1]
      exact h3
  obtain ⟨s', h1, h2⟩ := key (hi + 1 - lo).toNat lo s h0 (fun i s a b => step i s a (by omega))
  refine ⟨s', h1, ?_⟩
  rwa [show lo + ((hi + 1 - lo).toNat : ℤ) = hi + 1 by omega] at h2

/-- a loop of independent rounds: round `i` finds `P i` and establishes `Q i`, and touches neither for other rounds -/
theorem forUpC_indep (Fr : σ → Prop) (P Q : ℤ → σ → Prop) {lo hi : ℤ} {f : ℤ → σ → Chk σ} {s : σ} (h0 : Fr s)
    (hP : ∀ i, lo ≤ i → i ≤ hi → P i s)
    (step : ∀ i s, lo ≤ i → i ≤ hi → Fr s → P i s → ∃ s', f i s = .ok s' ∧ Fr s' ∧ Q i s' ∧
      ∀ j, lo ≤ j → j ≤ hi → j ≠ i → (P j s → P j s') ∧ (Q j s → Q j s')) :
    ∃ s', forUpC lo hi f s = .ok s' ∧ Fr s' ∧ ∀ i, lo ≤ i → i ≤ hi → Q i s' := by
  by_cases hle : lo ≤ hi + 1
  · obtain ⟨s', h1, h2, h3, h4⟩ := forUpC_hoare
      (fun i s => Fr s ∧ (∀ j, lo ≤ j → j ≤ hi → i ≤ j → P j s) ∧ ∀ j, lo ≤ j → j ≤ hi → j < i → Q j s)
      (f := f) hle ⟨h0, fun j a b _ => hP j a b, fun j a _ c => by omega⟩
      (by
        rintro i s a b ⟨c1, c2, c3⟩
        obtain ⟨s', e1, e2, e3, e4⟩ := step i s a b c1 (c2 i a b le_rfl)
        refine ⟨s', e1, e2, fun j u v w => (e4 j u v (by omega)).1 (c2 j u v (by omega)), fun j u v w => ?_⟩
        by_cases hj : j = i
        · subst hj; exact e3
        · exact (e4 j u v hj).2 (c3 j u v (by omega)))
    exact ⟨s', h1, h2, fun i a b => h4 i a b (by omega)⟩
  · refine ⟨s, ?_, h0, fun i a b => by omega⟩
    unfold forUpC forUp
    rw [show (hi + 1 - lo).toNat = 0 by omega]
    rfl

/-- a nest of independent rounds -/
theorem nestC_indep (d : ℕ) : ∀ (hi : Fin d → ℤ) (Fr : σ → Prop) (P Q : (Fin d → ℤ) → σ → Prop)
    (f : (Fin d → ℤ) → σ → Chk σ) (s : σ), Fr s → (∀ g, (∀ a, 0 ≤ g a ∧ g a ≤ hi a) → P g s) →
    (∀ g s, (∀ a, 0 ≤ g a ∧ g a ≤ hi a) → Fr s → P g s → ∃ s', f g s = .ok s' ∧ Fr s' ∧ Q g s' ∧
      ∀ h, (∀ a, 0 ≤ h a ∧ h a ≤ hi a) → h ≠ g → (P h s → P h s') ∧ (Q h s → Q h s')) →
    ∃ s', nestC d hi f s = .ok s' ∧ Fr s' ∧ ∀ g, (∀ a, 0 ≤ g a ∧ g a ≤ hi a) → Q g s' := by
  induction d with
  | zero =>
    intro hi Fr P Q f s h0 hP step
    obtain ⟨s', h1, h2, h3, -⟩ := step ![] s (fun a => a.elim0) h0 (hP _ (fun a => a.elim0))
    exact ⟨s', h1, h2, fun g _ => by rwa [show g = ![] from funext fun a => a.elim0]⟩
  | succ d ih =>
    intro hi Fr P Q f s h0 hP step
    have box : ∀ {i : ℤ} {r : Fin d → ℤ}, 0 ≤ i → i ≤ hi 0 → (∀ a, 0 ≤ r a ∧ r a ≤ hi a.succ) →
        ∀ a, 0 ≤ (Fin.cons i r : Fin (d + 1) → ℤ) a ∧ (Fin.cons i r : Fin (d + 1) → ℤ) a ≤ hi a := by
      intro i r a b c e
      refine Fin.cases ?_ (fun e => ?_) e
      · simpa using ⟨a, b⟩
      · simpa using c e
    have unbox : ∀ g : Fin (d + 1) → ℤ, g = Fin.cons (g 0) (fun a => g a.succ) := fun g => (Fin.cons_self_tail g).symm
    obtain ⟨s', h1, h2, h3⟩ := forUpC_indep Fr
      (fun i s => ∀ r : Fin d → ℤ, (∀ a, 0 ≤ r a ∧ r a ≤ hi a.succ) → P (Fin.cons i r) s)
      (fun i s => ∀ r : Fin d → ℤ, (∀ a, 0 ≤ r a ∧ r a ≤ hi a.succ) → Q (Fin.cons i r) s)
      (lo := 0) (hi := hi 0) (s := s)
      (f := fun i s => nestC d (fun a => hi a.succ) (fun r => f (Fin.cons i r)) s) h0
      (fun i a b r hr => hP _ (box a b hr))
      (by
        intro i s a b hF hPi
        obtain ⟨s', e1, ⟨e2, e3⟩, e4⟩ := ih (fun a => hi a.succ)
          (fun s' => Fr s' ∧ ∀ j, 0 ≤ j → j ≤ hi 0 → j ≠ i → ∀ r : Fin d → ℤ, (∀ a, 0 ≤ r a ∧ r a ≤ hi a.succ) →
            (P (Fin.cons j r) s → P (Fin.cons j r) s') ∧ (Q (Fin.cons j r) s → Q (Fin.cons j r) s'))
          (fun r s => P (Fin.cons i r) s) (fun r s => Q (Fin.cons i r) s) (fun r => f (Fin.cons i r)) s
          ⟨hF, fun j _ _ _ r _ => ⟨id, id⟩⟩ hPi
          (by
            intro r s1 hr ⟨u1, u2⟩ u3
            obtain ⟨s2, v1, v2, v3, v4⟩ := step (Fin.cons i r) s1 (box a b hr) u1 u3
            refine ⟨s2, v1, ⟨v2, ?_⟩, v3, ?_⟩
            · intro j j1 j2 j3 r' hr'
              have hne : (Fin.cons j r' : Fin (d + 1) → ℤ) ≠ Fin.cons i r := by
                intro h
                exact j3 (by simpa using congrFun h 0)
              have := v4 _ (box j1 j2 hr') hne
              exact ⟨fun h => this.1 ((u2 j j1 j2 j3 r' hr').1 h), fun h => this.2 ((u2 j j1 j2 j3 r' hr').2 h)⟩
            · intro r' hr' hne
              refine v4 _ (box a b hr') ?_
              intro h
              apply hne
              funext e
              simpa using congrFun h e.succ)
        refine ⟨s', e1, e2, fun r hr => e4 r hr, ?_⟩
        intro j j1 j2 j3
        exact ⟨fun h r hr => (e3 j j1 j2 j3 r hr).1 (h r hr), fun h r hr => (e3 j j1 j2 j3 r hr).2 (h r hr)⟩)
    refine ⟨s', h1, h2, fun g hg => ?_⟩
    rw [unbox g]
    exact h3 (g 0) (hg 0).1 (hg 0).2 _ (fun a => hg a.succ)

theorem axesC_ok {α : Type} {d : ℕ} {f : Fin d → Chk α} {g : Fin d → α} (h : ∀ a, f a = .ok (g a)) : axesC d f = .ok g := by
  induction d with
  | zero => simp only [axesC]; congr 1; funext a; exact a.elim0
  | succ d ih =>
    simp only [axesC]
    rw [h 0, ok_bind, ih (fun a => h a.succ), ok_bind]
    congr 1
    exact Fin.cons_self_tail g

theorem foldlM_ok {α : Type} {F : σ → α → Chk σ} {G : σ → α → σ} {l : List α} (h : ∀ s, ∀ a ∈ l, F s a = .ok (G s a)) (s : σ) :
    l.foldlM F s = .ok (l.foldl G s) := by
  induction l generalizing s with
  | nil => rfl
  | cons a l ih =>
    rw [List.foldlM_cons, h s a (by simp), List.foldl_cons]
    exact ih (fun s b hb => h s b (by simp [hb])) _

end gen

/-! ## offsets -/

/-- offset of an element (no checks) -/
def cmv : List (ℤ × ℤ) → ℤ
  | [] => 0
  | (i, n) :: l => i + n * cmv l

theorem cm_ok {l : List (ℤ × ℤ)} (h : ∀ q ∈ l, 0 ≤ q.1 ∧ q.1 < q.2) : cm l = .ok (cmv l) := by
  induction l with
  | nil => rfl
  | cons q l ih =>
    obtain ⟨i, n⟩ := q
    have h1 : 0 ≤ i ∧ i < n := h (i, n) (by simp)
    simp only [cm]
    rw [if_pos h1, ih (fun q hq => h q (by simp [hq])), ok_bind]
    rfl

theorem cmv_range {l : List (ℤ × ℤ)} (h : ∀ q ∈ l, 0 ≤ q.1 ∧ q.1 < q.2) :
    0 ≤ cmv l ∧ cmv l < (l.map Prod.snd).prod := by
  induction l with
  | nil => simp [cmv]
  | cons q l ih =>
    obtain ⟨i, n⟩ := q
    obtain ⟨h1, h2⟩ := h (i, n) (by simp)
    obtain ⟨h3, h4⟩ := ih (fun q hq => h q (by simp [hq]))
    simp only [cmv, List.map_cons, List.prod_cons]
    dsimp only at h1 h2
    constructor
    · have := mul_nonneg (by omega : 0 ≤ n) h3
      omega
    · nlinarith

theorem cm_two {i m j n : ℤ} (h1 : 0 ≤ i) (h2 : i < m) (h3 : 0 ≤ j) (h4 : j < n) : cm [(i, m), (j, n)] = .ok (i + m * j) := by
  rw [cm_ok (by simp; omega)]
  simp [cmv]

theorem cm_one {i m : ℤ} (h1 : 0 ≤ i) (h2 : i < m) : cm [(i, m)] = .ok i := by
  rw [cm_ok (by simp; omega)]
  simp [cmv]

theorem off_lt {i m j n : ℤ} (h1 : 0 ≤ i) (h2 : i < m) (h3 : 0 ≤ j) (h4 : j < n) : 0 ≤ i + m * j ∧ i + m * j < m * n := by
  constructor
  · have := mul_nonneg (by omega : 0 ≤ m) h3
    omega
  · nlinarith

theorem off_inj {i m j i' j' : ℤ} (h1 : 0 ≤ i) (h2 : i < m) (h3 : 0 ≤ i') (h4 : i' < m) (h : i + m * j = i' + m * j') :
    i = i' ∧ j = j' := by
  have hm : m ≠ 0 := by omega
  have e1 : (i + m * j) % m = i := by rw [Int.add_mul_emod_self_left, Int.emod_eq_of_lt h1 h2]
  have e2 : (i' + m * j') % m = i' := by rw [Int.add_mul_emod_self_left, Int.emod_eq_of_lt h3 h4]
  have e3 : i = i' := by rw [← e1, ← e2, h]
  subst e3
  exact ⟨rfl, mul_left_cancel₀ hm (by linarith)⟩

/-- offset of a local function -/
def locOff {d : ℕ} (na loc : Fin d → ℤ) : ℤ := cmv (List.ofFn (fun a => (loc a, na a)))

theorem locOff_succ {d : ℕ} (na loc : Fin (d + 1) → ℤ) :
    locOff na loc = loc 0 + na 0 * locOff (fun a => na a.succ) (fun a => loc a.succ) := by
  unfold locOff
  rw [List.ofFn_succ]
  rfl

theorem cm_loc {d : ℕ} {na loc : Fin d → ℤ} (h : ∀ a, 0 ≤ loc a ∧ loc a < na a) :
    cm (List.ofFn (fun a => (loc a, na a))) = .ok (locOff na loc) := by
  refine cm_ok fun q hq => ?_
  obtain ⟨a, rfl⟩ := (List.mem_ofFn' _ _).mp hq
  exact h a

theorem locOff_range {d : ℕ} {na loc : Fin d → ℤ} (h : ∀ a, 0 ≤ loc a ∧ loc a < na a) :
    0 ≤ locOff na loc ∧ locOff na loc < ∏ a, na a := by
  induction d with
  | zero => simp [locOff, cmv]
  | succ d ih =>
    rw [locOff_succ, Fin.prod_univ_succ]
    obtain ⟨h1, h2⟩ := ih (fun a => h a.succ)
    exact off_lt (h 0).1 (h 0).2 h1 h2

theorem cm_cons_loc {d : ℕ} {na loc : Fin d → ℤ} (h : ∀ a, 0 ≤ loc a ∧ loc a < na a) {c m : ℤ} (h1 : 0 ≤ c) (h2 : c < m) :
    cm ((c, m) :: List.ofFn (fun a => (loc a, na a))) = .ok (c + m * locOff na loc) := by
  simp only [cm]
  rw [if_pos ⟨h1, h2⟩, cm_loc h, ok_bind]

theorem locOff_inj {d : ℕ} {na loc loc' : Fin d → ℤ} (h : ∀ a, 0 ≤ loc a ∧ loc a < na a)
    (h' : ∀ a, 0 ≤ loc' a ∧ loc' a < na a) (e : locOff na loc = locOff na loc') : loc = loc' := by
  induction d with
  | zero => funext a; exact a.elim0
  | succ d ih =>
    rw [locOff_succ, locOff_succ] at e
    obtain ⟨e1, e2⟩ := off_inj (h 0).1 (h 0).2 (h' 0).1 (h' 0).2 e
    have := ih (fun a => h a.succ) (fun a => h' a.succ) e2
    funext a
    refine Fin.cases e1 (fun a => ?_) a
    exact congrFun this a

theorem locOff_surj {d : ℕ} {na : Fin d → ℤ} (hna : ∀ a, 0 < na a) {o : ℤ} (h0 : 0 ≤ o) (h1 : o < ∏ a, na a) :
    ∃ loc : Fin d → ℤ, (∀ a, 0 ≤ loc a ∧ loc a < na a) ∧ locOff na loc = o := by
  induction d generalizing o with
  | zero =>
    refine ⟨![], fun a => a.elim0, ?_⟩
    have : o = 0 := by
      simp at h1; omega
    subst this; rfl
  | succ d ih =>
    rw [Fin.prod_univ_succ] at h1
    have hn := hna 0
    obtain ⟨r, hr1, hr2⟩ := ih (na := fun a => na a.succ) (fun a => hna a.succ) (o := o / na 0)
      (Int.ediv_nonneg h0 hn.le) (Int.ediv_lt_of_lt_mul hn (by rwa [mul_comm]))
    refine ⟨Fin.cons (o % na 0) r, ?_, ?_⟩
    · intro a
      refine Fin.cases ?_ (fun a => ?_) a
      · simpa using ⟨Int.emod_nonneg _ hn.ne', Int.emod_lt_of_pos _ hn⟩
      · simpa using hr1 a
    · rw [locOff_succ]
      simp only [Fin.cons_zero, Fin.cons_succ]
      rw [hr2]
      exact Int.emod_add_mul_ediv o (na 0)

/-- the local functions in order of storage -/
theorem sum_locOff {M : Type} [AddCommMonoid M] {d : ℕ} {na : Fin d → ℤ} (hna : ∀ a, 0 < na a) (f : ℤ → M) :
    ∑ o ∈ Finset.Ico 0 (∏ a, na a), f o = ∑ loc ∈ Fintype.piFinset (fun a => Finset.Icc 0 (na a - 1)), f (locOff na loc) := by
  have hm : ∀ loc : Fin d → ℤ, loc ∈ Fintype.piFinset (fun a => Finset.Icc 0 (na a - 1)) ↔ ∀ a, 0 ≤ loc a ∧ loc a < na a := by
    intro loc
    simp only [Fintype.mem_piFinset, Finset.mem_Icc]
    exact forall_congr' fun a => by omega
  symm
  refine Finset.sum_nbij (locOff na) ?_ ?_ ?_ (fun _ _ => rfl)
  · intro loc hl
    exact Finset.mem_Ico.mpr (locOff_range ((hm _).mp hl))
  · intro x hx y hy e
    exact locOff_inj ((hm _).mp hx) ((hm _).mp hy) e
  · intro o ho
    have := Finset.mem_Ico.mp ho
    obtain ⟨loc, h1, h2⟩ := locOff_surj hna this.1 this.2
    exact ⟨loc, (hm _).mpr h1, h2⟩

/-! ## storage -/

theorem Flat.get_ok {α : Type} {A : Flat α} {o : ℤ} (h : 0 ≤ o ∧ o < A.size) : A.get o = .ok (A.val o) := by
  unfold Flat.get; rw [if_pos h]

theorem Flat.set_ok {α : Type} {A : Flat α} {o : ℤ} {v : α} (h : 0 ≤ o ∧ o < A.size) :
    A.set o v = .ok ⟨A.size, upd A.val o v⟩ := by
  unfold Flat.set; rw [if_pos h]

variable {K : Type} [Field K] [LinearOrder K]

theorem sumC_ok {n : ℤ} {f : ℤ → Chk K} {g : ℤ → K} (h : ∀ a, 0 ≤ a → a < n → f a = .ok (g a)) :
    sumC n f = .ok (∑ a ∈ Finset.Ico 0 n, g a) := by
  unfold sumC
  by_cases hn : 0 ≤ n
  · obtain ⟨s', h1, h2⟩ := forUpC_hoare (fun i s => s = ∑ a ∈ Finset.Ico 0 i, g a) (lo := 0) (hi := n - 1) (s := (0 : K))
      (f := fun a s => f a >>= fun x => .ok (s + x)) (by omega) (by simp)
      (by
        intro i s a b hs
        refine ⟨s + g i, by rw [h i a (by omega), ok_bind], ?_⟩
        rw [hs, show Finset.Ico 0 (i + 1) = insert i (Finset.Ico 0 i) by
          ext x; simp only [Finset.mem_Ico, Finset.mem_insert]; omega, Finset.sum_insert (by simp), add_comm])
    rw [h1, h2, show n - 1 + 1 = n by ring]
  · rw [Finset.Ico_eq_empty (by omega), Finset.sum_empty]
    unfold forUpC forUp
    rw [show (n - 1 + 1 - 0).toNat = 0 by omega]
    rfl

end Igakit
