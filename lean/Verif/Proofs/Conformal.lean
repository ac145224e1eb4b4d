import Verif.Model.Conformal
import Mathlib.Tactic

/-!
# Lemmas about the linear system of `QuasiConformalProjection`
-/

set_option linter.unusedSectionVars false

namespace Igakit

section
variable {K : Type} [Field K]

/-- the bilinear form of a matrix on an index set -/
def bform (I : Finset ℤ) (M : ℤ → ℤ → K) (v v' : ℤ → K) : K := ∑ r ∈ I, ∑ c ∈ I, v r * M r c * v' c

theorem bform_sum {ι : Type} (I : Finset ℤ) (s : Finset ι) (M : ι → ℤ → ℤ → K) (v v' : ℤ → K) :
    bform I (fun r c => ∑ t ∈ s, M t r c) v v' = ∑ t ∈ s, bform I (M t) v v' := by
  unfold bform
  symm
  rw [Finset.sum_comm (s := s) (t := I)]
  refine Finset.sum_congr rfl fun r _ => ?_
  rw [Finset.sum_comm (s := s) (t := I)]
  refine Finset.sum_congr rfl fun c _ => ?_
  rw [Finset.mul_sum, Finset.sum_mul]

theorem bform_add (I : Finset ℤ) (M M' : ℤ → ℤ → K) (v v' : ℤ → K) :
    bform I (fun r c => M r c + M' r c) v v' = bform I M v v' + bform I M' v v' := by
  unfold bform
  rw [← Finset.sum_add_distrib]
  refine Finset.sum_congr rfl fun r _ => ?_
  rw [← Finset.sum_add_distrib]
  exact Finset.sum_congr rfl fun c _ => by ring

theorem bform_sub (I : Finset ℤ) (M M' : ℤ → ℤ → K) (v v' : ℤ → K) :
    bform I (fun r c => M r c - M' r c) v v' = bform I M v v' - bform I M' v v' := by
  unfold bform
  rw [← Finset.sum_sub_distrib]
  refine Finset.sum_congr rfl fun r _ => ?_
  rw [← Finset.sum_sub_distrib]
  exact Finset.sum_congr rfl fun c _ => by ring

theorem bform_single {I : Finset ℤ} {a b : ℤ} (ha : a ∈ I) (hb : b ∈ I) (x : K) (v v' : ℤ → K) :
    bform I (fun r c => if r = a ∧ c = b then x else 0) v v' = v a * x * v' b := by
  unfold bform
  dsimp only
  rw [Finset.sum_eq_single a (fun r _ hr => Finset.sum_eq_zero fun c _ => by rw [if_neg fun h => hr h.1]; ring) fun h => absurd ha h,
    Finset.sum_eq_single b (fun c _ hc => by rw [if_neg fun h => hc h.2]; ring) fun h => absurd hb h, if_pos ⟨rfl, rfl⟩]

theorem bform_rows (I : Finset ℤ) (M : ℤ → ℤ → K) (v v' : ℤ → K) :
    bform I M v v' = ∑ r ∈ I, v r * ∑ c ∈ I, M r c * v' c := by
  unfold bform
  refine Finset.sum_congr rfl fun r _ => ?_
  rw [Finset.mul_sum]
  exact Finset.sum_congr rfl fun c _ => by ring

theorem bform_expand (I : Finset ℤ) (M : ℤ → ℤ → K) (v d : ℤ → K) (hs : bform I M v d = bform I M d v) :
    bform I M (fun r => v r + d r) (fun r => v r + d r) = bform I M v v + 2 * bform I M d v + bform I M d d := by
  have : bform I M (fun r => v r + d r) (fun r => v r + d r) = bform I M v v + bform I M v d + bform I M d v + bform I M d d := by
    unfold bform
    simp only [← Finset.sum_add_distrib]
    exact Finset.sum_congr rfl fun r _ => Finset.sum_congr rfl fun c _ => by ring
  rw [this, hs]
  ring

/-- a derivative of the field with coefficients `v`, at a quadrature point -/
def Conf.field (Bu Bv : QuadData K) (pu pv : ℕ) (W : ℤ → ℤ → K) (s0 sh : ℤ) (t : (ℕ × ℕ) × (ℕ × ℕ)) (l m : ℕ) (v : ℤ → K) : K :=
  ∑ α ∈ Finset.range (pu + 1) ×ˢ Finset.range (pv + 1), v (sh + Conf.ind Bu Bv s0 t.1.1 t.1.2 α.1 α.2) *
    Conf.dR Bu Bv pu pv W t.1.1 t.1.2 t.2.1 t.2.2 l m α.1 α.2

/-- the matrix of the program is the matrix of the sum of the squares -/
theorem conf_form (Bu Bv : QuadData K) (pu pv : ℕ) (W : ℤ → ℤ → K) (s0 shift : ℤ) {I : Finset ℤ}
    (hI : ∀ eu < Bu.r.toNat, ∀ ev < Bv.r.toNat, ∀ i < pu + 1, ∀ j < pv + 1,
      Conf.ind Bu Bv s0 eu ev i j ∈ I ∧ shift + Conf.ind Bu Bv s0 eu ev i j ∈ I) (v v' : ℤ → K) :
    bform I (Conf.matrix Bu Bv pu pv W s0 shift) v v' =
      ∑ t ∈ (Finset.range Bu.r.toNat ×ˢ Finset.range Bv.r.toNat) ×ˢ (Finset.range (pu + 1) ×ˢ Finset.range (pv + 1)),
        ((Conf.field Bu Bv pu pv W s0 0 t 1 0 v - Conf.field Bu Bv pu pv W s0 shift t 0 1 v) *
          (Conf.field Bu Bv pu pv W s0 0 t 1 0 v' - Conf.field Bu Bv pu pv W s0 shift t 0 1 v') +
        (Conf.field Bu Bv pu pv W s0 0 t 0 1 v + Conf.field Bu Bv pu pv W s0 shift t 1 0 v) *
          (Conf.field Bu Bv pu pv W s0 0 t 0 1 v' + Conf.field Bu Bv pu pv W s0 shift t 1 0 v')) *
        (Bu.J t.1.1 * Bu.J t.1.1 * Bu.W t.2.1 * Bv.W t.2.2) := by
  have e0 : Conf.matrix Bu Bv pu pv W s0 shift = fun r c => ∑ t ∈ (Finset.range Bu.r.toNat ×ˢ Finset.range Bv.r.toNat) ×ˢ
      (Finset.range (pu + 1) ×ˢ Finset.range (pv + 1)), (fun t r c => ∑ α ∈ Finset.range (pu + 1) ×ˢ Finset.range (pv + 1),
        (fun α r c => ∑ β ∈ Finset.range (pu + 1) ×ˢ Finset.range (pv + 1),
          (fun β r c => Conf.entry Bu Bv pu pv W s0 shift t.1.1 t.1.2 t.2.1 t.2.2 α β r c) β r c) α r c) t r c := rfl
  rw [e0, bform_sum]
  refine Finset.sum_congr rfl fun t ht => ?_
  rw [bform_sum]
  obtain ⟨ht, _⟩ := Finset.mem_product.1 ht
  obtain ⟨h1, h2⟩ := Finset.mem_product.1 ht
  have hI' : ∀ α ∈ Finset.range (pu + 1) ×ˢ Finset.range (pv + 1), Conf.ind Bu Bv s0 t.1.1 t.1.2 α.1 α.2 ∈ I ∧
      shift + Conf.ind Bu Bv s0 t.1.1 t.1.2 α.1 α.2 ∈ I := fun α hα => by
    obtain ⟨a1, a2⟩ := Finset.mem_product.1 hα
    exact hI _ (Finset.mem_range.1 h1) _ (Finset.mem_range.1 h2) _ (Finset.mem_range.1 a1) _ (Finset.mem_range.1 a2)
  set w := Bu.J t.1.1 * Bu.J t.1.1 * Bu.W t.2.1 * Bv.W t.2.2 with hw
  set a := fun α : ℕ × ℕ => Conf.dR Bu Bv pu pv W t.1.1 t.1.2 t.2.1 t.2.2 1 0 α.1 α.2 with ha
  set b := fun α : ℕ × ℕ => Conf.dR Bu Bv pu pv W t.1.1 t.1.2 t.2.1 t.2.2 0 1 α.1 α.2 with hb
  set ι := fun α : ℕ × ℕ => Conf.ind Bu Bv s0 t.1.1 t.1.2 α.1 α.2 with hι
  have e1 : ∀ α ∈ Finset.range (pu + 1) ×ˢ Finset.range (pv + 1), ∀ β ∈ Finset.range (pu + 1) ×ˢ Finset.range (pv + 1),
      bform I (fun r c => Conf.entry Bu Bv pu pv W s0 shift t.1.1 t.1.2 t.2.1 t.2.2 α β r c) v v' =
      ((v (ι α) * a α - v (shift + ι α) * b α) * (v' (ι β) * a β - v' (shift + ι β) * b β) +
        (v (ι α) * b α + v (shift + ι α) * a α) * (v' (ι β) * b β + v' (shift + ι β) * a β)) * w := by
    intro α hα β hβ
    obtain ⟨a1, a2⟩ := hI' α hα
    obtain ⟨b1, b2⟩ := hI' β hβ
    unfold Conf.entry
    dsimp only
    rw [bform_add, bform_add, bform_sub, bform_single a1 b1, bform_single a2 b1, bform_single a1 b2, bform_single a2 b2]
    ring
  rw [Finset.sum_congr rfl fun α hα => by rw [bform_sum, Finset.sum_congr rfl fun β hβ => e1 α hα β hβ]]
  unfold Conf.field
  simp only [zero_add]
  have h3 : ∀ (x y : ℕ × ℕ → K), (∑ α ∈ Finset.range (pu + 1) ×ˢ Finset.range (pv + 1), x α) *
      (∑ β ∈ Finset.range (pu + 1) ×ˢ Finset.range (pv + 1), y β) =
      ∑ α ∈ Finset.range (pu + 1) ×ˢ Finset.range (pv + 1), ∑ β ∈ Finset.range (pu + 1) ×ˢ Finset.range (pv + 1), x α * y β :=
    fun x y => by rw [Finset.sum_mul_sum]
  rw [← Finset.sum_sub_distrib, ← Finset.sum_sub_distrib, ← Finset.sum_add_distrib, ← Finset.sum_add_distrib, h3, h3,
    ← Finset.sum_add_distrib, Finset.sum_mul]
  refine Finset.sum_congr rfl fun α _ => ?_
  rw [← Finset.sum_add_distrib, Finset.sum_mul]

theorem conf_form_symm (Bu Bv : QuadData K) (pu pv : ℕ) (W : ℤ → ℤ → K) (s0 shift : ℤ) {I : Finset ℤ}
    (hI : ∀ eu < Bu.r.toNat, ∀ ev < Bv.r.toNat, ∀ i < pu + 1, ∀ j < pv + 1,
      Conf.ind Bu Bv s0 eu ev i j ∈ I ∧ shift + Conf.ind Bu Bv s0 eu ev i j ∈ I) (v v' : ℤ → K) :
    bform I (Conf.matrix Bu Bv pu pv W s0 shift) v v' = bform I (Conf.matrix Bu Bv pu pv W s0 shift) v' v := by
  rw [conf_form _ _ _ _ _ _ _ hI, conf_form _ _ _ _ _ _ _ hI]
  exact Finset.sum_congr rfl fun t _ => by ring

/-- the coefficients of a net in the order of the program: column by column, first all `x`, then all `y` -/
def Conf.vec (C : ℤ → ℤ → ℕ → K) (s0 shift : ℤ) (r : ℤ) : K := C (r % shift % s0) (r % shift / s0) (r / shift).toNat

theorem vec_num (C : ℤ → ℤ → ℕ → K) {s0 s1 i j : ℤ} (i0 : 0 ≤ i) (i1 : i < s0) (j0 : 0 ≤ j) (j1 : j < s1) (c : ℕ) :
    Conf.vec C s0 (s0 * s1) (c * (s0 * s1) + j * s0 + i) = C i j c := by
  have hs : 0 < s0 := by omega
  have hp : 0 < s0 * s1 := mul_pos hs (by omega)
  have h0 : 0 ≤ j * s0 + i := by positivity
  have h1 : j * s0 + i < s0 * s1 := by nlinarith
  have e1 : (c * (s0 * s1) + j * s0 + i) % (s0 * s1) = j * s0 + i := by
    rw [show (c : ℤ) * (s0 * s1) + j * s0 + i = (j * s0 + i) + (s0 * s1) * c by ring, Int.add_mul_emod_self_left,
      Int.emod_eq_of_lt h0 h1]
  have e2 : (c * (s0 * s1) + j * s0 + i) / (s0 * s1) = (c : ℤ) := by
    rw [show (c : ℤ) * (s0 * s1) + j * s0 + i = (j * s0 + i) + (s0 * s1) * c by ring, Int.add_mul_ediv_left _ _ hp.ne',
      Int.ediv_eq_zero_of_lt h0 h1, zero_add]
  unfold Conf.vec
  rw [e1, e2, show j * s0 + i = i + s0 * j by ring, Int.add_mul_emod_self_left, Int.emod_eq_of_lt i0 i1,
    Int.add_mul_ediv_left _ _ hs.ne', Int.ediv_eq_zero_of_lt i0 i1, zero_add]
  simp

theorem num_inj {s0 s1 : ℤ} {i j i' j' : ℤ} {c c' : ℕ} (i0 : 0 ≤ i) (i1 : i < s0) (j0 : 0 ≤ j) (j1 : j < s1) (i0' : 0 ≤ i')
    (i1' : i' < s0) (j0' : 0 ≤ j') (j1' : j' < s1) (h : (c : ℤ) * (s0 * s1) + j * s0 + i = c' * (s0 * s1) + j' * s0 + i') :
    i = i' ∧ j = j' ∧ c = c' := by
  have h1 := vec_num (K := ℚ) (fun i _ _ => (i : ℚ)) i0 i1 j0 j1 c
  have h2 := vec_num (K := ℚ) (fun _ j _ => (j : ℚ)) i0 i1 j0 j1 c
  have h3 := vec_num (K := ℚ) (fun _ _ c => (c : ℚ)) i0 i1 j0 j1 c
  rw [h, vec_num _ i0' i1' j0' j1'] at h1 h2 h3
  exact ⟨by exact_mod_cast h1.symm, by exact_mod_cast h2.symm, by exact_mod_cast h3.symm⟩

/-- the numbers and the triples -/
theorem num_range {s0 s1 : ℤ} {i j : ℤ} {c : ℕ} (i0 : 0 ≤ i) (i1 : i < s0) (j0 : 0 ≤ j) (j1 : j < s1) (hc : c < 2) :
    (c : ℤ) * (s0 * s1) + j * s0 + i ∈ Finset.Ico 0 (2 * (s0 * s1)) := by
  have h0 : 0 ≤ j * s0 + i := by have : 0 ≤ s0 := by omega
                                 positivity
  have h1 : j * s0 + i < s0 * s1 := by nlinarith
  rw [Finset.mem_Ico]
  have : c = 0 ∨ c = 1 := by omega
  rcases this with rfl | rfl <;> push_cast <;> constructor <;> linarith

theorem num_surj {s0 s1 r : ℤ} (h0 : 0 < s0) (h1 : 0 < s1) (hr : r ∈ Finset.Ico 0 (2 * (s0 * s1))) :
    ∃ (i j : ℤ) (c : ℕ), 0 ≤ i ∧ i < s0 ∧ 0 ≤ j ∧ j < s1 ∧ c < 2 ∧ r = c * (s0 * s1) + j * s0 + i := by
  rw [Finset.mem_Ico] at hr
  have hp : 0 < s0 * s1 := mul_pos h0 h1
  have a1 := Int.emod_nonneg r hp.ne'
  have a2 := Int.emod_lt_of_pos r hp
  have a3 := Int.emod_add_mul_ediv r (s0 * s1)
  have a4 := Int.emod_nonneg (r % (s0 * s1)) h0.ne'
  have a5 := Int.emod_lt_of_pos (r % (s0 * s1)) h0
  have a6 := Int.emod_add_mul_ediv (r % (s0 * s1)) s0
  have b1 : 0 ≤ r / (s0 * s1) := Int.ediv_nonneg hr.1 hp.le
  have b2 : r / (s0 * s1) < 2 := Int.ediv_lt_of_lt_mul hp (by linarith)
  have b3 : 0 ≤ r % (s0 * s1) / s0 := Int.ediv_nonneg a1 h0.le
  have b4 : r % (s0 * s1) / s0 < s1 := Int.ediv_lt_of_lt_mul h0 (by linarith)
  refine ⟨r % (s0 * s1) % s0, r % (s0 * s1) / s0, (r / (s0 * s1)).toNat, a4, a5, b3, b4, by omega, ?_⟩
  rw [Int.toNat_of_nonneg b1]
  linarith

/-- the squared error is the form of the coefficients -/
theorem conf_error (Bu Bv : QuadData K) (pu pv : ℕ) (C : ℤ → ℤ → ℕ → K) {s0 s1 : ℤ}
    (hO : ∀ eu < Bu.r.toNat, 0 ≤ Bu.O eu ∧ Bu.O eu + pu < s0) (hO' : ∀ ev < Bv.r.toNat, 0 ≤ Bv.O ev ∧ Bv.O ev + pv < s1)
    {v : ℤ → K} (hv : ∀ i j (c : ℕ), 0 ≤ i → i < s0 → 0 ≤ j → j < s1 → c < 2 → v (c * (s0 * s1) + j * s0 + i) = C i j c) :
    Conf.error Bu Bv pu pv C = bform (Finset.Ico 0 (2 * (s0 * s1))) (Conf.matrix Bu Bv pu pv (fun i j => C i j 3) s0 (s0 * s1)) v v := by
  have hb : ∀ eu < Bu.r.toNat, ∀ ev < Bv.r.toNat, ∀ i < pu + 1, ∀ j < pv + 1, 0 ≤ Bu.O eu + (i : ℤ) ∧ Bu.O eu + (i : ℤ) < s0 ∧
      0 ≤ Bv.O ev + (j : ℤ) ∧ Bv.O ev + (j : ℤ) < s1 := by
    intro eu heu ev hev i hi j hj
    have := hO eu heu
    have := hO' ev hev
    omega
  rw [conf_form _ _ _ _ _ _ _ (fun eu heu ev hev i hi j hj => ?_)]
  · unfold Conf.error
    rw [Finset.sum_product, Finset.sum_product]
    refine Finset.sum_congr rfl fun eu heu => Finset.sum_congr rfl fun ev hev => ?_
    rw [Finset.sum_product]
    refine Finset.sum_congr rfl fun qu hqu => Finset.sum_congr rfl fun qv hqv => ?_
    have e0 : ∀ l m, Conf.field Bu Bv pu pv (fun i j => C i j 3) s0 0 ((eu, ev), (qu, qv)) l m v =
        Conf.dX Bu Bv pu pv C eu ev qu qv l m 0 := by
      intro l m
      unfold Conf.field Conf.dX
      rw [Finset.sum_product]
      refine Finset.sum_congr rfl fun i hi => Finset.sum_congr rfl fun j hj => ?_
      obtain ⟨b1, b2, b3, b4⟩ := hb eu (Finset.mem_range.1 heu) ev (Finset.mem_range.1 hev) i (Finset.mem_range.1 hi) j (Finset.mem_range.1 hj)
      have := hv _ _ 0 b1 b2 b3 b4 (by norm_num)
      unfold Conf.ind
      dsimp only
      rw [← this]
      congr 2
      push_cast
      ring
    have e1 : ∀ l m, Conf.field Bu Bv pu pv (fun i j => C i j 3) s0 (s0 * s1) ((eu, ev), (qu, qv)) l m v =
        Conf.dX Bu Bv pu pv C eu ev qu qv l m 1 := by
      intro l m
      unfold Conf.field Conf.dX
      rw [Finset.sum_product]
      refine Finset.sum_congr rfl fun i hi => Finset.sum_congr rfl fun j hj => ?_
      obtain ⟨b1, b2, b3, b4⟩ := hb eu (Finset.mem_range.1 heu) ev (Finset.mem_range.1 hev) i (Finset.mem_range.1 hi) j (Finset.mem_range.1 hj)
      have := hv _ _ 1 b1 b2 b3 b4 (by norm_num)
      unfold Conf.ind
      dsimp only
      rw [← this]
      congr 2
      push_cast
      ring
    dsimp only
    rw [e0, e0, e1, e1]
    ring
  · obtain ⟨b1, b2, b3, b4⟩ := hb eu heu ev hev i hi j hj
    have h1 := num_range (c := 0) b1 b2 b3 b4 (by norm_num)
    have h2 := num_range (c := 1) b1 b2 b3 b4 (by norm_num)
    unfold Conf.ind
    push_cast at h1 h2
    rw [zero_mul, zero_add] at h1
    rw [one_mul] at h2
    exact ⟨h1, by rw [← add_assoc]; exact h2⟩

/-- state of the elimination after the columns `S` -/
def Conf.Elim (A : ℤ → ℤ → K) (G : ℤ → K) (S : Finset ℤ) (MF : (ℤ → ℤ → K) × (ℤ → K)) : Prop :=
  (∀ r c, MF.1 r c = if r ∈ S ∨ c ∈ S then (if r = c then 1 else 0) else A r c) ∧
  ∀ r, MF.2 r = if r ∈ S then G r else -∑ c ∈ S, A r c * G c

theorem elim_step {A : ℤ → ℤ → K} {G : ℤ → K} {S : Finset ℤ} {MF : (ℤ → ℤ → K) × (ℤ → K)} (h : Conf.Elim A G S MF) {col : ℤ}
    (hc : col ∉ S) : Conf.Elim A G (insert col S) (Conf.prescribe MF col (G col)) := by
  obtain ⟨h1, h2⟩ := h
  refine ⟨fun r c => ?_, fun r => ?_⟩
  · unfold Conf.prescribe
    dsimp only
    rw [h1]
    by_cases e1 : r = col <;> by_cases e2 : c = col
    · subst e1 e2; simp
    · subst e1
      rw [if_neg (fun h => e2 h.2), if_pos rfl, if_pos (Or.inl (Finset.mem_insert_self _ _)), if_neg (fun h => e2 h.symm)]
    · subst e2
      rw [if_neg (fun h => e1 h.1), if_neg e1, if_pos rfl, if_pos (Or.inr (Finset.mem_insert_self _ _)), if_neg e1]
    · rw [if_neg (fun h => e1 h.1), if_neg e1, if_neg e2]
      simp only [Finset.mem_insert, e1, e2, false_or]
  · unfold Conf.prescribe
    dsimp only
    rw [h2, h1]
    by_cases e1 : r = col
    · subst e1
      rw [if_pos rfl, if_pos (Finset.mem_insert_self _ _)]
    · rw [if_neg e1]
      simp only [Finset.mem_insert, e1, false_or]
      by_cases e2 : r ∈ S
      · rw [if_pos e2, if_pos (Or.inl e2), if_neg not_false, if_pos e2]
        ring
      · simp only [e2, hc, if_false, false_or]
        rw [Finset.sum_insert hc]
        ring

theorem elim_fold {A : ℤ → ℤ → K} {G : ℤ → K} : ∀ (l : List ℤ) (S : Finset ℤ) (MF : (ℤ → ℤ → K) × (ℤ → K)), Conf.Elim A G S MF →
    l.Nodup → (∀ c ∈ l, c ∉ S) → Conf.Elim A G (S ∪ l.toFinset) (l.foldl (fun MF c => Conf.prescribe MF c (G c)) MF)
  | [], S, MF, h, _, _ => by simpa using h
  | c :: l, S, MF, h, hn, hS => by
    rw [List.nodup_cons] at hn
    have := elim_fold l (insert c S) _ (elim_step h (hS c List.mem_cons_self)) hn.2 (fun x hx => by
      rw [Finset.mem_insert, not_or]
      exact ⟨fun e => hn.1 (e ▸ hx), hS x (List.mem_cons_of_mem _ hx)⟩)
    rw [List.foldl_cons]
    have e : S ∪ (c :: l).toFinset = insert c S ∪ l.toFinset := by
      ext x
      simp only [Finset.mem_union, List.toFinset_cons, Finset.mem_insert]
      tauto
    rw [e]
    exact this

theorem elim_start (A : ℤ → ℤ → K) (G : ℤ → K) : Conf.Elim A G ∅ (A, fun _ => 0) := ⟨fun _ _ => by simp, fun _ => by simp⟩

/-- the rows of the system: prescribed values, and vanishing derivatives of the form -/
theorem elim_rows {A : ℤ → ℤ → K} {G : ℤ → K} {I S : Finset ℤ} (hS : S ⊆ I) {MF : (ℤ → ℤ → K) × (ℤ → K)} (h : Conf.Elim A G S MF)
    {x : ℤ → K} (hx : ∀ r ∈ I, ∑ c ∈ I, MF.1 r c * x c = MF.2 r) :
    (∀ r ∈ S, x r = G r) ∧ ∀ r ∈ I, r ∉ S → ∑ c ∈ I, A r c * x c = 0 := by
  obtain ⟨h1, h2⟩ := h
  have hs : ∀ r ∈ S, x r = G r := by
    intro r hr
    have := hx r (hS hr)
    rw [h2, if_pos hr, Finset.sum_congr rfl fun c _ => by rw [h1, if_pos (Or.inl hr)]] at this
    rw [← this]
    simp only [ite_mul, one_mul, zero_mul]
    rw [Finset.sum_ite_eq, if_pos (hS hr)]
  refine ⟨hs, fun r hr hrS => ?_⟩
  have := hx r hr
  rw [h2, if_neg hrS, ← Finset.sum_sdiff hS] at this
  rw [← Finset.sum_sdiff hS]
  have e1 : ∑ c ∈ S, MF.1 r c * x c = 0 := by
    refine Finset.sum_eq_zero fun c hc => ?_
    rw [h1, if_pos (Or.inr hc), if_neg (fun e : r = c => hrS (by rw [e]; exact hc)), zero_mul]
  have e2 : ∑ c ∈ I \ S, MF.1 r c * x c = ∑ c ∈ I \ S, A r c * x c := by
    refine Finset.sum_congr rfl fun c hc => ?_
    rw [h1, if_neg (by rw [not_or]; exact ⟨hrS, (Finset.mem_sdiff.1 hc).2⟩)]
  rw [e1, add_zero, e2] at this
  have e3 : ∑ c ∈ S, A r c * x c = ∑ c ∈ S, A r c * G c := Finset.sum_congr rfl fun c hc => by rw [hs c hc]
  rw [this, e3]
  ring

end

theorem sum_Ico_fin {M : Type} [AddCommMonoid M] (n : ℕ) (f : ℤ → M) : ∑ c ∈ Finset.Ico (0 : ℤ) n, f c = ∑ c : Fin n, f c := by
  rw [Fin.sum_univ_eq_sum_range (fun i => f i) n]
  refine (Finset.sum_bij (fun (i : ℕ) _ => (i : ℤ)) ?_ ?_ ?_ ?_).symm
  · intro i hi; have := Finset.mem_range.1 hi; rw [Finset.mem_Ico]; omega
  · intro i _ j _ h; exact_mod_cast h
  · intro c hc
    rw [Finset.mem_Ico] at hc
    exact ⟨c.toNat, Finset.mem_range.2 (by omega), by omega⟩
  · intro i _; rfl

/-- what `solve` returns is a solution -/
theorem linalgSolve_spec {n : ℕ} {M : ℤ → ℤ → ℝ} {F : ℤ → ℝ} {x : ℤ → ℝ} (h : linalgSolve n M F = .ok x) :
    ∀ r ∈ Finset.Ico (0 : ℤ) n, ∑ c ∈ Finset.Ico (0 : ℤ) n, M r c * x c = F r := by
  unfold linalgSolve at h
  dsimp only at h
  split_ifs at h with hd
  set A : Matrix (Fin n) (Fin n) ℝ := Matrix.of fun r c => M r c with hA
  obtain rfl := Except.ok.inj h
  intro r hr
  rw [Finset.mem_Ico] at hr
  rw [sum_Ico_fin]
  have hu : IsUnit A.det := isUnit_iff_ne_zero.2 hd
  have := congrFun (show A.mulVec (A⁻¹.mulVec fun c : Fin n => F c) = fun c : Fin n => F c by
    rw [Matrix.mulVec_mulVec, Matrix.mul_nonsing_inv A hu, Matrix.one_mulVec]) ⟨r.toNat, by omega⟩
  have er : ((r.toNat : ℕ) : ℤ) = r := by omega
  rw [er] at this
  rw [← this]
  refine Finset.sum_congr rfl fun c _ => ?_
  have hc : (c : ℤ).toNat < n := by have := c.2; omega
  have e1 : (⟨(c : ℤ).toNat, hc⟩ : Fin n) = c := Fin.ext (by simp)
  have e2 : A ⟨r.toNat, by omega⟩ c = M r c := by
    rw [hA, Matrix.of_apply]
    dsimp only
    rw [er]
  show M r c * (if h : (c : ℤ).toNat < n then (A⁻¹.mulVec fun c : Fin n => F c) ⟨(c : ℤ).toNat, h⟩ else 0) =
    A ⟨r.toNat, by omega⟩ c * (A⁻¹.mulVec fun c : Fin n => F c) c
  rw [dif_pos hc, e1, e2]

/-- `solve` does not fail if only 0 is mapped to 0 -/
theorem linalgSolve_ok {n : ℕ} {M : ℤ → ℤ → ℝ} (F : ℤ → ℝ)
    (h : ∀ x : ℤ → ℝ, (∀ r ∈ Finset.Ico (0 : ℤ) n, ∑ c ∈ Finset.Ico (0 : ℤ) n, M r c * x c = 0) → ∀ r ∈ Finset.Ico (0 : ℤ) n, x r = 0) :
    ∃ x, linalgSolve n M F = .ok x := by
  unfold linalgSolve
  dsimp only
  rw [if_neg]
  · exact ⟨_, rfl⟩
  intro hd
  obtain ⟨v, hv, hv0⟩ := Matrix.exists_mulVec_eq_zero_iff.2 hd
  refine hv (funext fun c => ?_)
  have := h (fun r => if h : r.toNat < n then v ⟨r.toNat, h⟩ else 0) (fun r hr => ?_) c (by rw [Finset.mem_Ico]; have := c.2; omega)
  · rw [dif_pos (by have := c.2; omega)] at this
    have e : (⟨(c : ℤ).toNat, by have := c.2; omega⟩ : Fin n) = c := Fin.ext (by simp)
    rw [e] at this
    exact this
  · rw [Finset.mem_Ico] at hr
    have := congrFun hv0 ⟨r.toNat, by omega⟩
    simp only [Matrix.mulVec, dotProduct, Matrix.of_apply, Pi.zero_apply] at this
    rw [show ((r.toNat : ℕ) : ℤ) = r by omega] at this
    rw [sum_Ico_fin, ← this]
    refine Finset.sum_congr rfl fun c _ => ?_
    have hc : (c : ℤ).toNat < n := by have := c.2; omega
    rw [dif_pos hc]
    have : (⟨(c : ℤ).toNat, hc⟩ : Fin n) = c := Fin.ext (by simp)
    rw [this]

/-- the loops over the sides visit the boundary of the net -/
theorem mem_sides {s0 s1 i j c : ℕ} (h0 : 2 ≤ s0) (h1 : 2 ≤ s1) :
    (i, j, c) ∈ Conf.sides s0 s1 ↔ i < s0 ∧ j < s1 ∧ c < 2 ∧ (i = 0 ∨ i = s0 - 1 ∨ j = 0 ∨ j = s1 - 1) := by
  unfold Conf.sides
  simp only [List.mem_append, List.mem_flatMap, List.mem_map, List.mem_range, List.mem_range', Prod.mk.injEq, List.mem_cons,
    List.not_mem_nil, or_false]
  constructor
  · rintro (⟨s, hs, x, hx, y, hy, rfl, rfl, rfl⟩ | ⟨s, hs, x, ⟨k, hk, rfl⟩, y, hy, rfl, rfl, rfl⟩)
    · omega
    · omega
  · rintro ⟨a1, a2, a3, a4⟩
    by_cases e : j = 0 ∨ j = s1 - 1
    · exact Or.inl ⟨j, e, i, a1, c, a3, rfl, rfl, rfl⟩
    · exact Or.inr ⟨i, by omega, j, ⟨j - 1, by omega, by omega⟩, c, a3, rfl, rfl, rfl⟩

theorem sides_nodup {s0 s1 : ℕ} (h0 : 2 ≤ s0) (h1 : 2 ≤ s1) : (Conf.sides s0 s1).Nodup := by
  unfold Conf.sides
  have hc : ∀ f : ℕ → ℕ × ℕ × ℕ, Function.Injective f → ((List.range 2).map f).Nodup := fun f hf => List.nodup_range.map hf
  refine List.Nodup.append ?_ ?_ ?_
  · rw [List.nodup_flatMap]
    refine ⟨fun s _ => ?_, ?_⟩
    · rw [List.nodup_flatMap]
      refine ⟨fun x _ => hc _ fun a b h => by simpa using h, ?_⟩
      refine List.Pairwise.imp ?_ (List.nodup_range (n := s0))
      intro a b hab
      simp only [Function.onFun, List.disjoint_left, List.mem_map]
      rintro _ ⟨y, _, rfl⟩ ⟨z, _, e⟩
      simp only [Prod.mk.injEq] at e
      exact hab e.1.symm
    · simp only [List.pairwise_cons, List.mem_cons, List.not_mem_nil, or_false, forall_eq, List.Pairwise.nil, and_true,
        IsEmpty.forall_iff, implies_true]
      simp only [Function.onFun, List.disjoint_left, List.mem_flatMap, List.mem_map]
      rintro _ ⟨x, _, y, _, rfl⟩ ⟨x', _, y', _, e⟩
      simp only [Prod.mk.injEq] at e
      omega
  · rw [List.nodup_flatMap]
    refine ⟨fun s _ => ?_, ?_⟩
    · rw [List.nodup_flatMap]
      refine ⟨fun x _ => hc _ fun a b h => by simpa using h, ?_⟩
      refine List.Pairwise.imp ?_ (List.nodup_range' (s := 1) (n := s1 - 2))
      intro a b hab
      simp only [Function.onFun, List.disjoint_left, List.mem_map]
      rintro _ ⟨y, _, rfl⟩ ⟨z, _, e⟩
      simp only [Prod.mk.injEq] at e
      exact hab e.2.1.symm
    · simp only [List.pairwise_cons, List.mem_cons, List.not_mem_nil, or_false, forall_eq, List.Pairwise.nil, and_true,
        IsEmpty.forall_iff, implies_true]
      simp only [Function.onFun, List.disjoint_left, List.mem_flatMap, List.mem_map]
      rintro _ ⟨x, _, y, _, rfl⟩ ⟨x', _, y', _, e⟩
      simp only [Prod.mk.injEq] at e
      omega
  · simp only [List.disjoint_left, List.mem_flatMap, List.mem_map, List.mem_range', List.mem_cons, List.not_mem_nil, or_false]
    rintro _ ⟨s, hs, x, _, y, _, rfl⟩ ⟨s', _, x', ⟨k, hk, rfl⟩, y', _, e⟩
    simp only [Prod.mk.injEq] at e
    omega

end Igakit
