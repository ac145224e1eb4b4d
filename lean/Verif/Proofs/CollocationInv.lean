import Verif.Proofs.Collocation
import Mathlib.LinearAlgebra.Matrix.NonsingularInverse

/-! # Collocation matrices of B-splines: when they are invertible -/

set_option linter.unusedSectionVars false

namespace Igakit
open Spec

variable {K : Type*} [Field K] [LinearOrder K] [IsStrictOrderedRing K]

/-- a zero of a basis function is a corner of a block of zeros -/
theorem KT.zero_block {N : ℤ} {p : ℕ} {T : ℤ → K} (h : KT N p T) {x : K} (h1 : T p ≤ x) (h2 : x ≤ T (N + 1))
    {i : ℤ} (i0 : 0 ≤ i) (i1 : i ≤ N) (hz : bsplineD N T p i x = 0) :
    (∀ i' x', i ≤ i' → i' ≤ N → T p ≤ x' → x' ≤ x → bsplineD N T p i' x' = 0) ∨
    (∀ i' x', 0 ≤ i' → i' ≤ i → x ≤ x' → x' ≤ T (N + 1) → bsplineD N T p i' x' = 0) := by
  by_contra hc
  push Not at hc
  obtain ⟨⟨i', x', a1, a2, a3, a4, a5⟩, ⟨i'', x'', b1, b2, b3, b4, b5⟩⟩ := hc
  have hs := h.sorted
  obtain ⟨s1, s2, s3, s4, s5, s6⟩ := h.supp a3 (a4.trans h2) (by omega) a2 a5
  obtain ⟨t1, t2, t3, t4, t5, t6⟩ := h.supp (h1.trans b3) b4 b1 (by omega) b5
  have c1 : T i ≤ T i' := hs i i' i0 a1 (by omega)
  have c2 : T (i'' + p + 1) ≤ T (i + p + 1) := hs _ _ (by omega) (by omega) (by omega)
  have d1 : T i ≤ x := (c1.trans s1).trans a4
  have d2 : x ≤ T (i + p + 1) := (b3.trans t2).trans c2
  rcases d1.eq_or_lt with e | e
  · have e' : x' = x := le_antisymm a4 (e ▸ c1.trans s1)
    subst e'
    have hlt : x' < T (N + 1) := lt_of_le_of_ne h2 (fun hh => by
      exact absurd (s6 hh) (not_lt.2 (e ▸ c1)))
    have hge : T (i' + p) ≤ x' := not_lt.1 (fun hh => absurd (s3 hh) (not_lt.2 (e ▸ c1)))
    have hne : i ≠ i' := fun hh => a5 (hh ▸ hz)
    have m1 : T (i + p + 1) ≤ T (i' + p) := hs _ _ (by omega) (by omega) (by omega)
    have e'' : x'' = x' := le_antisymm ((t2.trans c2).trans (m1.trans hge)) b3
    have := t5 (e'' ▸ hlt)
    rw [e''] at this
    exact absurd (lt_of_lt_of_le this c2) (not_lt.2 (m1.trans hge))
  · have hxe : x = T (i + p + 1) := le_antisymm d2 (not_lt.1 (fun hh => absurd (h.pos h1 h2 i0 i1 e hh) (by rw [hz]; exact lt_irrefl _)))
    have e'' : x'' = x := le_antisymm ((t2.trans c2).trans hxe.ge) b3
    subst e''
    rcases b4.eq_or_lt with g | g
    · have hge : x'' ≤ T (i'' + 1) := not_lt.1 (fun hh => absurd (lt_of_lt_of_le (t4 hh) c2) (not_lt.2 hxe.ge))
      have hne : i ≠ i'' := fun hh => b5 (hh ▸ hz)
      exact absurd (hge.trans (hs (i'' + 1) i (by omega) (by omega) (by omega))) (not_le.2 e)
    · exact absurd (lt_of_lt_of_le (t5 g) c2) (not_lt.2 hxe.ge)

theorem perm_low {m : ℕ} (σ : Equiv.Perm (Fin m)) (l : Fin m) : ∃ j, l ≤ j ∧ σ j ≤ l := by
  by_contra hc
  push Not at hc
  have : (Finset.Ici l).card ≤ (Finset.Ioi l).card :=
    Finset.card_le_card_of_injOn σ (fun j hj => by simpa using hc j (by simpa using hj)) σ.injective.injOn
  rw [Fin.card_Ici, Fin.card_Ioi] at this
  have := l.isLt
  omega

theorem perm_high {m : ℕ} (σ : Equiv.Perm (Fin m)) (l : Fin m) : ∃ j, j ≤ l ∧ l ≤ σ j := by
  by_contra hc
  push Not at hc
  have : (Finset.Iic l).card ≤ (Finset.Iio l).card :=
    Finset.card_le_card_of_injOn σ (fun j hj => by simpa using hc j (by simpa using hj)) σ.injective.injOn
  rw [Fin.card_Iic, Fin.card_Iio] at this
  omega

/-- minors of the collocation matrix: never negative, and zero exactly if a diagonal entry is -/
theorem KT.minors {m : ℕ} {x : Fin m → K} (hx : StrictMono x) {p : ℕ} {N : ℤ} {T : ℤ → K} (h : KT N p T)
    (hd : ∀ j, T p ≤ x j ∧ x j ≤ T (N + 1)) {i : Fin m → ℤ} (hi : StrictMono i) (hr : ∀ l, 0 ≤ i l ∧ i l ≤ N) :
    0 ≤ (Matrix.of fun j l => bsplineD N T p (i l) (x j)).det ∧
    ((Matrix.of fun j l => bsplineD N T p (i l) (x j)).det ≠ 0 ↔ ∀ l, bsplineD N T p (i l) (x l) ≠ 0) := by
  obtain ⟨h1, h2⟩ := h.totally_positive hx hd i hi hr
  refine ⟨h1, fun hne l hz => hne ?_, fun hne => ne_of_gt (h2 (fun l => ?_))⟩
  · rw [Matrix.det_apply]
    refine Finset.sum_eq_zero (fun σ _ => ?_)
    have : ∃ j, bsplineD N T p (i j) (x (σ j)) = 0 := by
      rcases h.zero_block (hd l).1 (hd l).2 (hr l).1 (hr l).2 hz with g | g
      · obtain ⟨j, j1, j2⟩ := perm_low σ l
        exact ⟨j, g _ _ (hi.monotone j1) (hr j).2 (hd _).1 (hx.monotone j2)⟩
      · obtain ⟨j, j1, j2⟩ := perm_high σ l
        exact ⟨j, g _ _ (hr j).1 (hi.monotone j1) (hx.monotone j2) (hd _).2⟩
    obtain ⟨j, hj⟩ := this
    rw [Finset.prod_eq_zero (Finset.mem_univ j) (by simpa using hj), smul_zero]
  · exact lt_of_le_of_ne (h.nonneg (hd l).1 (hd l).2 (hr l).1 (hr l).2) (Ne.symm (hne l))

/-- `G` is the inverse of the matrix `M` with rows and columns `0..n` -/
structure InvOn (n : ℤ) (M G : ℤ → ℤ → K) : Prop where
  right : ∀ e f, 0 ≤ e → e ≤ n → 0 ≤ f → f ≤ n → ∑ k ∈ Finset.Icc 0 n, M e k * G k f = if e = f then 1 else 0
  left : ∀ e f, 0 ≤ e → e ≤ n → 0 ≤ f → f ≤ n → ∑ k ∈ Finset.Icc 0 n, G e k * M k f = if e = f then 1 else 0

theorem sum_Icc_fin {E : Type*} [AddCommMonoid E] (c : ℕ) (f : ℤ → E) :
    ∑ k ∈ Finset.Icc (0 : ℤ) c, f k = ∑ l : Fin (c + 1), f (l : ℕ) := by
  rw [Fin.sum_univ_eq_sum_range (fun l : ℕ => f (l : ℤ)) (c + 1)]
  refine (Finset.sum_nbij' (fun l : ℕ => (l : ℤ)) (fun k : ℤ => k.toNat) ?_ ?_ ?_ ?_ ?_).symm
  · intro l hl
    have := Finset.mem_range.1 hl
    exact Finset.mem_Icc.2 ⟨by omega, by omega⟩
  · intro k hk
    have := Finset.mem_Icc.1 hk
    exact Finset.mem_range.2 (by omega)
  · intro l _; simp
  · intro k hk
    have := Finset.mem_Icc.1 hk
    omega
  · intro l _; rfl

theorem InvOn.of_det {c : ℕ} {M : ℤ → ℤ → K}
    (hdet : (Matrix.of fun j l : Fin (c + 1) => M ((j : ℕ) : ℤ) ((l : ℕ) : ℤ)).det ≠ 0) : ∃ G, InvOn c M G := by
  let A : Matrix (Fin (c + 1)) (Fin (c + 1)) K := Matrix.of fun j l => M ((j : ℕ) : ℤ) ((l : ℕ) : ℤ)
  have hu : IsUnit A.det := isUnit_iff_ne_zero.2 hdet
  let G : ℤ → ℤ → K := fun i e => A⁻¹ (Fin.ofNat (c + 1) i.toNat) (Fin.ofNat (c + 1) e.toNat)
  have hG : ∀ j l : Fin (c + 1), G ((j : ℕ) : ℤ) ((l : ℕ) : ℤ) = A⁻¹ j l := by
    intro j l
    simp only [G, Int.toNat_natCast, Fin.ofNat_eq_cast, Fin.cast_val_eq_self]
  have key : ∀ (B : Matrix (Fin (c + 1)) (Fin (c + 1)) K), B = 1 → ∀ e f : Fin (c + 1), B e f = if ((e : ℕ) : ℤ) = ((f : ℕ) : ℤ) then 1 else 0 := by
    intro B hB e f
    rw [hB, Matrix.one_apply]
    by_cases hef : e = f
    · rw [if_pos hef, if_pos (by rw [hef])]
    · rw [if_neg hef, if_neg (fun hh => hef (Fin.ext (by exact_mod_cast hh)))]
  refine ⟨G, ?_, ?_⟩
  · intro e f e0 e1 f0 f1
    obtain ⟨e, rfl⟩ := Int.eq_ofNat_of_zero_le e0
    obtain ⟨f, rfl⟩ := Int.eq_ofNat_of_zero_le f0
    have := key _ (Matrix.mul_nonsing_inv A hu) ⟨e, by omega⟩ ⟨f, by omega⟩
    rw [← this, sum_Icc_fin, Matrix.mul_apply]
    refine Finset.sum_congr rfl (fun l _ => ?_)
    rw [← hG l ⟨f, by omega⟩]
    rfl
  · intro e f e0 e1 f0 f1
    obtain ⟨e, rfl⟩ := Int.eq_ofNat_of_zero_le e0
    obtain ⟨f, rfl⟩ := Int.eq_ofNat_of_zero_le f0
    have := key _ (Matrix.nonsing_inv_mul A hu) ⟨e, by omega⟩ ⟨f, by omega⟩
    rw [← this, sum_Icc_fin, Matrix.mul_apply]
    refine Finset.sum_congr rfl (fun l _ => ?_)
    rw [← hG ⟨e, by omega⟩ l]
    rfl

section
variable {E : Type*} [AddCommGroup E] [Module K E] {d : ℕ} {n : Fin d → ℤ} {M G : Fin d → ℤ → ℤ → K}

theorem tensor_collapse (h : ∀ a e f, 0 ≤ e → e ≤ n a → 0 ≤ f → f ≤ n a →
      ∑ k ∈ Finset.Icc 0 (n a), M a e k * G a k f = if e = f then 1 else 0) (V : (Fin d → ℤ) → E) {e : Fin d → ℤ}
    (he : ∀ a, 0 ≤ e a ∧ e a ≤ n a) :
    ∑ k ∈ Fintype.piFinset (fun a => Finset.Icc 0 (n a)), (∏ a, M a (e a) (k a)) •
      ∑ f ∈ Fintype.piFinset (fun a => Finset.Icc 0 (n a)), (∏ a, G a (k a) (f a)) • V f = V e := by
  simp only [Finset.smul_sum]
  rw [Finset.sum_comm]
  have key : ∀ f ∈ Fintype.piFinset (fun a => Finset.Icc 0 (n a)),
      ∑ k ∈ Fintype.piFinset (fun a => Finset.Icc 0 (n a)), (∏ a, M a (e a) (k a)) • (∏ a, G a (k a) (f a)) • V f =
        if f = e then V e else 0 := by
    intro f hf
    have hf' := fun a => Finset.mem_Icc.1 (Fintype.mem_piFinset.1 hf a)
    have e1 : ∀ k ∈ Fintype.piFinset (fun a => Finset.Icc 0 (n a)),
        (∏ a, M a (e a) (k a)) • (∏ a, G a (k a) (f a)) • V f = (∏ a, M a (e a) (k a) * G a (k a) (f a)) • V f := by
      intro k _
      rw [smul_smul, Finset.prod_mul_distrib]
    rw [Finset.sum_congr rfl e1, ← Finset.sum_smul]
    have e2 := Finset.prod_univ_sum (fun a => Finset.Icc 0 (n a)) (fun a k => M a (e a) k * G a k (f a))
    rw [← e2]
    by_cases hef : f = e
    · rw [if_pos hef, hef, Finset.prod_eq_one, one_smul]
      intro a _
      rw [h a _ _ (he a).1 (he a).2 (he a).1 (he a).2, if_pos rfl]
    · rw [if_neg hef]
      obtain ⟨a, ha⟩ := Function.ne_iff.1 hef
      rw [Finset.prod_eq_zero (Finset.mem_univ a), zero_smul]
      rw [h a _ _ (he a).1 (he a).2 (hf' a).1 (hf' a).2, if_neg (Ne.symm ha)]
  rw [Finset.sum_congr rfl key, Finset.sum_ite_eq', if_pos (Fintype.mem_piFinset.2 (fun a => Finset.mem_Icc.2 (he a)))]

/-- tensor products of invertible systems are uniquely solvable -/
theorem tensor_solve (h : ∀ a, InvOn (n a) (M a) (G a)) (V : (Fin d → ℤ) → E) :
    ∃ P : (Fin d → ℤ) → E,
      (∀ e, (∀ a, 0 ≤ e a ∧ e a ≤ n a) →
        ∑ k ∈ Fintype.piFinset (fun a => Finset.Icc 0 (n a)), (∏ a, M a (e a) (k a)) • P k = V e) ∧
      ∀ Q : (Fin d → ℤ) → E, (∀ e, (∀ a, 0 ≤ e a ∧ e a ≤ n a) →
        ∑ k ∈ Fintype.piFinset (fun a => Finset.Icc 0 (n a)), (∏ a, M a (e a) (k a)) • Q k = V e) →
        ∀ k, (∀ a, 0 ≤ k a ∧ k a ≤ n a) → Q k = P k := by
  refine ⟨fun k => ∑ f ∈ Fintype.piFinset (fun a => Finset.Icc 0 (n a)), (∏ a, G a (k a) (f a)) • V f,
    fun e he => tensor_collapse (fun a => (h a).right) V he, fun Q hQ k hk => ?_⟩
  rw [← tensor_collapse (M := G) (G := M) (fun a => (h a).left) Q hk]
  refine Finset.sum_congr rfl (fun f hf => ?_)
  rw [hQ f (fun a => Finset.mem_Icc.1 (Fintype.mem_piFinset.1 hf a))]

end

end Igakit
