import Verif.Proofs.HullElev
import Verif.Proofs.DataOrder
import Verif.Spec.Averages

/-!
# Control nets that are averages of other nets
-/

set_option linter.unusedSectionVars false

namespace Igakit
open Spec

variable {K : Type} [Field K] [LinearOrder K] [IsStrictOrderedRing K] {d : ℕ}

theorem averages_refl (N : Nrb K d) : N.Averages N := fun _ _ h => h

theorem Nrb.Averages.trans {d' d'' : ℕ} {N : Nrb K d} {N' : Nrb K d'} {N'' : Nrb K d''} (h : N.Averages N')
    (h' : N'.Averages N'') : N.Averages N'' := fun C hC hP => h' C hC (h C hC hP)

theorem active_axis {N : Nrb K d} (hv : N.Valid) {a : Fin d}
    (hm : ∀ x, N.lo a < x → x < N.hi a → (N.multOf a x : ℤ) ≤ N.degree a + 1) :
    Active (N.n a) (N.degree a).toNat (N.U a) := by
  obtain ⟨p, hp, hk, e⟩ := deg_nat hv a
  simp only [hp, Int.toNat_natCast]
  refine active_of_mult hk (fun x h1 h2 => ?_)
  have := hm x (by rw [N.lo_eq, hp]; exact h1) (by rw [N.hi_eq]; exact h2)
  unfold Nrb.multOf at this
  rw [e, hp] at this
  exact_mod_cast this

/-- equal maps that differ only on axis `a` have equal rows -/
theorem rows_eq {N N' : Nrb K (d + 1)} (hv' : N'.Valid) {a : Fin (d + 1)}
    (ho : ∀ b, b ≠ a → N'.U b = N.U b ∧ N'.shape b = N.shape b ∧ N'.degree b = N.degree b)
    (hm : ∀ b x, N'.lo b < x → x < N'.hi b → (N'.multOf b x : ℤ) ≤ N'.degree b + 1)
    (he : ∀ x, N'.InDom x → N'.eval x = N.eval x) {o : Fin d → ℤ}
    (hoN : ∀ b, 0 ≤ o b ∧ o b < N'.shape (a.succAbove b)) {u : K} (h1 : N'.lo a ≤ u) (h2 : u ≤ N'.hi a) :
    curve (N'.n a) (N'.degree a).toNat (N'.U a) (fun i => N'.P (a.insertNth i o)) u =
      curve (N.n a) (N.degree a).toNat (N.U a) (fun i => N.P (a.insertNth i o)) u := by
  have eU : a.removeNth N.U = a.removeNth N'.U := by
    funext b; exact ((ho _ (Fin.succAbove_ne a b)).1).symm
  have en : a.removeNth N.n = a.removeNth N'.n := by
    funext b
    have := (ho _ (Fin.succAbove_ne a b)).2.1
    show N.n _ = N'.n _
    unfold Nrb.n; rw [this]
  have ed : a.removeNth (fun b => (N.degree b).toNat) = a.removeNth (fun b => (N'.degree b).toNat) := by
    funext b
    show (N.degree _).toNat = (N'.degree _).toNat
    rw [(ho _ (Fin.succAbove_ne a b)).2.2]
  funext c
  rw [← sub_eq_zero]
  have key := tensor_eq_zero (n := a.removeNth N'.n) (p := a.removeNth (fun b => (N'.degree b).toNat))
    (U := a.removeNth N'.U) (fun b => by
      obtain ⟨p, hp, hk, e⟩ := deg_nat hv' (a.succAbove b)
      simp only [Fin.removeNth, hp, Int.toNat_natCast]
      exact hk.sorted) (fun b => active_axis hv' (hm _))
    (P := fun o => curve (N'.n a) (N'.degree a).toNat (N'.U a) (rows a N'.P) u o c -
      curve (N.n a) (N.degree a).toNat (N.U a) (rows a N.P) u o c) (fun y hy => ?_) (idx := o) (fun b => by
      have := hoN b
      show 0 ≤ o b ∧ o b ≤ N'.n (a.succAbove b)
      unfold Nrb.n; omega)
  · have e1 := curve_apply (N'.n a) (N'.degree a).toNat (N'.U a) (rows a N'.P) u o
    have e2 := curve_apply (N.n a) (N.degree a).toNat (N.U a) (rows a N.P) u o
    rw [e1, e2] at key
    exact key
  · have hx : N'.InDom (a.insertNth u y) := by
      intro b
      refine Fin.succAboveCases a ?_ (fun b => ?_) b
      · rw [Fin.insertNth_apply_same]; exact ⟨h1, h2⟩
      · rw [Fin.insertNth_apply_succAbove]
        have := hy b
        simp only [Fin.removeNth, hv'.degNat] at this
        rw [N'.lo_eq, N'.hi_eq]; exact this
    have := congrFun (he _ hx) c
    unfold Nrb.eval at this
    rw [tensor_split a, tensor_split a] at this
    simp only [Fin.insertNth_apply_same, Fin.removeNth_insertNth] at this
    rw [eU, en, ed, tensor_apply, tensor_apply, ← sub_eq_zero] at this
    rw [← this]
    unfold tensor
    rw [← Finset.sum_sub_distrib]
    exact Finset.sum_congr rfl fun j _ => by simp only [smul_eq_mul]; ring

theorem net_split {N : Nrb K (d + 1)} (a : Fin (d + 1)) {idx : Fin (d + 1) → ℤ} (h : N.InNet idx) :
    (0 ≤ idx a ∧ idx a ≤ N.n a) ∧ (∀ b, 0 ≤ a.removeNth idx b ∧ a.removeNth idx b < N.shape (a.succAbove b)) := by
  refine ⟨?_, fun b => h _⟩
  have := h a
  unfold Nrb.n
  omega

theorem net_join {N : Nrb K (d + 1)} {a : Fin (d + 1)} {i : ℤ} {o : Fin d → ℤ} (h1 : 0 ≤ i ∧ i ≤ N.n a)
    (h2 : ∀ b, 0 ≤ o b ∧ o b < N.shape (a.succAbove b)) : N.InNet (a.insertNth i o) := by
  intro b
  refine Fin.succAboveCases a ?_ (fun b => ?_) b
  · rw [Fin.insertNth_apply_same]; unfold Nrb.n at h1; omega
  · rw [Fin.insertNth_apply_succAbove]; exact h2 b

/-- more knots on one axis, possibly a part of the domain -/
theorem hull_axis {N N' : Nrb K (d + 1)} (hv : N.Valid) (hv' : N'.Valid) {a : Fin (d + 1)}
    (hd : ∀ b, N'.degree b = N.degree b) (ho : ∀ b, b ≠ a → N'.U b = N.U b ∧ N'.shape b = N.shape b)
    (hlo : N.lo a ≤ N'.lo a) (hhi : N'.hi a ≤ N.hi a) (he : ∀ x, N'.InDom x → N'.eval x = N.eval x)
    (hm : ∀ y, N'.U a 0 < y → y < N'.U a (N'.len a - 1) → N.multOf a y ≤ N'.multOf a y)
    (hi : ∀ b x, N'.lo b < x → x < N'.hi b → (N'.multOf b x : ℤ) ≤ N'.degree b + 1) : N.Averages N' := by
  intro C hC hP idx hidx
  obtain ⟨p, hp, hk, e⟩ := deg_nat hv a
  obtain ⟨p', hp', hk', e'⟩ := deg_nat hv' a
  have hpp : p' = p := by have := hd a; omega
  subst hpp
  obtain ⟨i1, i2⟩ := net_split a hidx
  have hrow := fun u h1 h2 => rows_eq (N := N) (u := u) hv' (fun b hb => ⟨(ho b hb).1, (ho b hb).2, hd b⟩) hi he i2 h1 h2
  rw [hp, hp', Int.toNat_natCast] at hrow
  have hA := active_axis hv' (hi a)
  rw [hp', Int.toNat_natCast] at hA
  have := curve_hull (n := N.n a) (n' := N'.n a) hk.sorted hk'.sorted hk.le
    (by rw [N.lo_eq, N'.lo_eq, hp, hp'] at hlo; exact hlo) (by rw [N.hi_eq, N'.hi_eq] at hhi; exact hhi)
    (fun u h1 h2 => hrow u (by rw [N'.lo_eq, hp']; exact h1) (by rw [N'.hi_eq]; exact h2))
    (fun y h1 h2 => by
      have := hm y h1 (by rw [e']; exact h2)
      unfold Nrb.multOf at this
      rw [e, e'] at this
      exact this) hA hC (fun i j1 j2 => hP _ (net_join ⟨j1, j2⟩ (fun b => by
        rw [← (ho _ (Fin.succAbove_ne a b)).2]; exact i2 b))) i1.1 i1.2
  rwa [Fin.insertNth_self_removeNth] at this

/-- the degree of one axis raised -/
theorem hull_elevated {eps : K} {N N' : Nrb K (d + 1)} (hv : N.Valid) (hv' : N'.Valid) {a : Fin (d + 1)}
    (hE : N.Elevatable eps a) {t : ℕ} (h : N.Elevated N' a t) (hm : ∀ b, N.InnerMult b) : N.Averages N' := by
  intro C hC hP idx hidx
  obtain ⟨p, hp, hk, e⟩ := deg_nat hv a
  obtain ⟨p', hp', hk', e'⟩ := deg_nat hv' a
  have hpp : p' = p + t := by
    have := h.degree a
    rw [if_pos rfl] at this; omega
  subst hpp
  obtain ⟨i1, i2⟩ := net_split a hidx
  have hdeg : ∀ b, b ≠ a → N'.degree b = N.degree b := by
    intro b hb
    have := h.degree b
    rw [if_neg hb, add_zero] at this
    exact this
  have hi : ∀ b x, N'.lo b < x → x < N'.hi b → (N'.multOf b x : ℤ) ≤ N'.degree b + 1 := by
    intro b x x1 x2
    rw [h.lo] at x1
    rw [h.hi] at x2
    have h0 := hm b x x1 x2
    by_cases hb : b = a
    · subst hb
      rw [multOf_eq_count] at h0 ⊢
      rw [h.knots, h.degree, if_pos rfl]
      split_ifs with hx
      · push_cast; omega
      · have h9 : (0 : ℤ) ≤ ((N.knots b).count x : ℤ) := by omega
        push_cast; omega
    · have := innerMult_other (hm b) (hdeg b hb) (h.lo b) (h.hi b) (h.others b hb).1
        (len_of_degree (hdeg b hb) (h.others b hb).2) x (by rw [h.lo]; exact x1) (by rw [h.hi]; exact x2)
      omega
  have hdom : ∀ x, N'.InDom x → N.InDom x := by
    intro x hx b
    have := hx b
    rw [h.lo, h.hi] at this
    exact this
  have hrow := fun u h1 h2 => rows_eq (N := N) (u := u) hv' (fun b hb => ⟨(h.others b hb).1, (h.others b hb).2, hdeg b hb⟩) hi
    (fun x hx => h.eval x (hdom x hx)) i2 h1 h2
  rw [hp, hp', Int.toNat_natCast, Int.toNat_natCast] at hrow
  have hA := active_axis hv' (hi a)
  rw [hp', Int.toNat_natCast] at hA
  obtain ⟨e1, e2, e3, e4⟩ := hE
  rw [hp] at e1 e2 e3 e4
  obtain ⟨S, A, H⟩ := exists_brk hk e1 e2 e3
  have hle := hk.le
  have hle' := hk'.le
  have hp1 := hk.one_le
  -- the knots are those of the elevated vector
  have hkV := H.elvK_valid hk t
  have hSle := hkV.le
  have hcnt : ∀ x, mult (N'.U a) 0 (N'.n a + ((p + t : ℕ) : ℤ) + 1) x =
      mult (elvK (N.U a) A S t) 0 (N.n a + t * S + ((p + t : ℕ) : ℤ) + 1) x := by
    intro x
    have h0 := h.knots x
    unfold Nrb.knots at h0
    rw [count_knotMS, count_knotMS, e, e'] at h0
    rw [h0]
    split_ifs with hx
    · obtain ⟨z, z1, z2, z3⟩ := mem_knotMS.mp hx
      obtain ⟨s, s1, s2⟩ := H.find_val z1 z2
      rw [← z3, s2, H.elvK_mult (by omega) t s1]
    · symm
      by_contra hc
      unfold mult at hc
      obtain ⟨z, hz⟩ := Finset.card_pos.mp (Nat.pos_of_ne_zero hc)
      rw [Finset.mem_filter, Finset.mem_Icc] at hz
      obtain ⟨s, s1, s2, s3⟩ := H.find_kz t hz.1.1
      rw [H.elvK_eq t s1 s2 s3] at hz
      refine hx (mem_knotMS.mpr ⟨A s, ?_, ?_, hz.2⟩)
      · have := H.a_ge s1; omega
      · have := H.le s1 le_rfl
        rw [H.last] at this
        omega
  obtain ⟨hn, hV⟩ := sorted_eq hk'.sorted (H.elvK_sorted t 0 (N.n a + t * S + ((p + t : ℕ) : ℤ) + 1))
    (by omega) (by omega) hcnt
  have := curve_hull_elev (n' := N'.n a) H hk (by omega) hV
    (fun u h1 h2 => hrow u (by rw [N'.lo_eq, hp']; exact h1) (by rw [N'.hi_eq]; exact h2)) hA hC
    (fun i j1 j2 => hP _ (net_join ⟨j1, j2⟩ (fun b => by
        rw [← (h.others _ (Fin.succAbove_ne a b)).2]; exact i2 b))) i1.1 i1.2
  rwa [Fin.insertNth_self_removeNth] at this

end Igakit
