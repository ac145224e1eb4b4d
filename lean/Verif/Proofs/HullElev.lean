import Verif.Proofs.HullCurve
import Verif.Proofs.ElevTop

/-!
# Control points after degree elevation are averages of the old ones
-/

set_option linter.unusedSectionVars false

namespace Igakit
open Spec

variable {K : Type*} [Field K] [LinearOrder K] [IsStrictOrderedRing K]
variable {ι : Type*}

namespace Brk
variable {n : ℤ} {p : ℕ} {U : ℤ → K} {S : ℕ} {a : ℕ → ℤ}

theorem elvK_zero (H : Brk n p U S a) {i : ℤ} (h0 : 0 ≤ i) (h1 : i ≤ n + p + 1) : elvK U a S 0 i = U i := by
  obtain ⟨s, s1, s2, s3⟩ := H.find_kz 0 h0
  rw [H.elvK_eq 0 s1 s2 s3]
  cases s with
  | zero =>
    have hS := H.pos
    have := s3 (by omega)
    rw [H.kz_zero_one] at this
    rw [H.zero]; exact (H.blk0 i h0 (by push_cast at this; omega)).symm
  | succ s =>
    refine (H.blk s (by omega) i ?_ ?_).symm
    · simp only [kz] at s2; push_cast at s2; omega
    · rcases s1.eq_or_lt with e | e
      · rw [e, H.last]; exact h1
      · have := s3 e
        simp only [kz] at this; push_cast at this; omega

theorem elv_zero {p : ℕ} {f : Multiset K → ι → K} (hf : IsForm p f) {m : Multiset K} (hm : m.card = p) :
    elv p p f m = f m :=
  form_eq (elv_form hf) hf (S := Set.univ) Set.infinite_univ (fun x _ => elv_diag le_rfl f x) hm

theorem hull_elv (H : Brk n p U S a) (hv : ValidKnots n p U) {f : Multiset K → ι → K} (hf : IsForm p f) {s : ℕ}
    (hs : s < S) {C : Set (ι → K)} (hC : Convex K C)
    (hP : ∀ i, a s - p ≤ i → i ≤ a s → f (kn U i p) ∈ C) :
    ∀ (t : ℕ) (j : ℤ), kz a t (s + 1) - 1 - (p + t : ℕ) ≤ j → j ≤ kz a t (s + 1) - 1 →
      elv (p + t) p f (kn (elvK U a S t) j (p + t)) ∈ C := by
  have hle := hv.le
  have hp1 := hv.one_le
  have hpos := H.pos
  intro t
  induction t with
  | zero =>
    intro j h1 h2
    simp only [kz] at h1 h2
    push_cast at h1 h2
    have has := H.a_ge hs.le
    have hsn : a s ≤ n := by
      have := H.le (s := s) (s' := S) hs.le le_rfl
      obtain ⟨S', rfl⟩ : ∃ S', S = S' + 1 := ⟨S - 1, by omega⟩
      have h3 := H.le (s := s) (s' := S') (by omega) (by omega)
      rw [H.prev S' rfl] at h3
      omega
    rw [add_zero, elv_zero hf (card_kn _ _ _)]
    rw [kn_congr (V := U) (j := j) (fun l l1 l2 => H.elvK_zero (by omega) (by omega))]
    exact hP j (by omega) (by omega)
  | succ t ih =>
    intro j h1 h2
    have hb : ∀ t : ℕ, (p : ℤ) + t ≤ kz a t (s + 1) - 1 ∧ kz a t (s + 1) - 1 ≤ n + t * S := by
      intro t
      have b1 := H.kz_mono t (s := 1) (s' := s + 1) (by omega) (by omega)
      have b2 := H.kz_mono t (s := s + 1) (s' := S) (by omega) le_rfl
      rw [H.kz_zero_one] at b1
      rw [H.kz_S] at b2
      push_cast at b1
      omega
    have hV : ∀ t : ℕ, elvK U a S t (kz a t (s + 1) - 1) = U (a s) ∧
        elvK U a S t (kz a t (s + 1) - 1 + 1) = U (a (s + 1)) := by
      intro t
      have hlt : kz a t s < kz a t (s + 1) := by
        cases s with
        | zero => have := H.kz_zero_one t; have e : kz a t 0 = 0 := rfl; rw [zero_add, this, e]; push_cast; omega
        | succ s => exact lt_of_lt_of_le (by omega) (H.kz_step t (s := s) (by omega))
      refine ⟨H.elvK_eq t hs.le (by omega) (fun _ => by omega), ?_⟩
      rw [sub_add_cancel]
      refine H.elvK_eq t (by omega) le_rfl (fun h => ?_)
      exact lt_of_lt_of_le (by omega) (H.kz_step t (s := s) (by omega))
    obtain ⟨c1, c2⟩ := hb t
    obtain ⟨d1, d2⟩ := hb (t + 1)
    obtain ⟨v1, v2⟩ := hV t
    obtain ⟨w1, w2⟩ := hV (t + 1)
    have hUlt := H.lt s hs
    rw [← add_assoc] at h1 ⊢
    rw [elv_succ hf (by rw [card_kn])]
    have hmul : ∀ y, Spec.mult (elvK U a S t) 0 (n + t * S + ((p + t : ℕ) : ℤ) + 1) y ≠ 0 →
        Spec.mult (elvK U a S (t + 1)) 0 (n + (t + 1 : ℕ) * S + ((p + (t + 1) : ℕ) : ℤ) + 1) y =
          Spec.mult (elvK U a S t) 0 (n + t * S + ((p + t : ℕ) : ℤ) + 1) y + 1 := by
      intro y hy
      unfold Spec.mult at hy
      obtain ⟨z, hz⟩ := Finset.card_pos.mp (Nat.pos_of_ne_zero hy)
      rw [Finset.mem_filter, Finset.mem_Icc] at hz
      obtain ⟨s', s1, s2, s3⟩ := H.find_kz t hz.1.1
      rw [H.elvK_eq t s1 s2 s3] at hz
      rw [← hz.2, H.elvK_mult (by omega) (t + 1) s1, H.elvK_mult (by omega) t s1]
      ring
    have hM : (n + (t + 1 : ℕ) * S + ((p + (t + 1) : ℕ) : ℤ) + 1) = n + (t + 1 : ℕ) * S + p + t + 2 := by
      push_cast; ring
    obtain ⟨A, B, L, R, e1, e2, e3, e4, e5, e6⟩ := window_halves (V := elvK U a S (t + 1))
      (M := n + (t + 1 : ℕ) * S + ((p + (t + 1) : ℕ) : ℤ) + 1) (j := j) (h := kz a (t + 1) (s + 1) - 1) (q := p + t + 1)
      (H.elvK_sorted _ _ _) (by push_cast at *; omega) (by omega) (by push_cast at *; omega) (by rw [hM]; push_cast at *; omega)
      (by rw [hM]; push_cast at *; omega) (by rw [w1, w2]; exact hUlt) (c := U (a s)) (e := U (a (s + 1))) w1.ge w2.le
    rw [e1]
    refine form_split_elev (elv_form hf) (k := kz a t (s + 1) - 1) (U := elvK U a S t) (H.elvK_sorted _ _ _)
      (by rw [v1, v2]; exact hUlt) hC (fun i a b => ih i a b) e2
      (fun x hx => ⟨(e3 x hx).1, (e3 x hx).2.trans (by rw [w1, v2]; exact hUlt.le)⟩)
      (fun x hx => ⟨le_trans (by rw [w2, v1]; exact hUlt.le) (e4 x hx).1, (e4 x hx).2⟩) ?_ ?_
    · intro y y1 y2 h0
      rw [v1] at y2
      obtain ⟨a1, a2, a3⟩ := e5 y y1 y2
      have hcm := count_kn_le_mult (elvK U a S t) y (i := kz a t (s + 1) - 1 - (p + t : ℕ)) (c := p + t)
        (M := n + t * S + ((p + t : ℕ) : ℤ) + 1) (by push_cast; omega) (by omega)
      rw [a3, hmul y (by omega)]
      omega
    · intro y y1 y2 h0
      rw [v2] at y1
      obtain ⟨a1, a2, a3⟩ := e6 y y1 y2
      have hcm := count_kn_le_mult (elvK U a S t) y (i := kz a t (s + 1) - 1) (c := p + t)
        (M := n + t * S + ((p + t : ℕ) : ℤ) + 1) (by omega) (by omega)
      rw [a3, hmul y (by omega)]
      omega

end Brk

/-- control points of the same curve with the degree raised and each distinct knot repeated as many times more -/
theorem curve_hull_elev {n n' : ℤ} {p t : ℕ} {U V : ℤ → K} {S : ℕ} {a : ℕ → ℤ} (H : Brk n p U S a)
    (hv : ValidKnots n p U) (hn : n' = n + t * S)
    (hV : ∀ i, 0 ≤ i → i ≤ n' + (p + t : ℕ) + 1 → V i = elvK U a S t i) {P Q : ℤ → ι → K}
    (he : ∀ u, V (p + t : ℕ) ≤ u → u ≤ V (n' + 1) → curve n' (p + t) V Q u = curve n p U P u)
    (ha : Active n' (p + t) V) {C : Set (ι → K)} (hC : Convex K C) (hP : ∀ i, 0 ≤ i → i ≤ n → P i ∈ C) {j : ℤ}
    (hj0 : 0 ≤ j) (hjn : j ≤ n') : Q j ∈ C := by
  have hle := hv.le
  have hp1 := hv.one_le
  have hpos := H.pos
  obtain ⟨h, h1, h2, h3, h4, h5⟩ := ha j hj0 hjn
  have hs' : SortedOn V 0 (n' + (p + t : ℕ) + 1) := by
    intro i j a b c
    rw [hV i a (by omega), hV j (by omega) c]
    exact H.elvK_sorted t i j i j le_rfl b le_rfl
  -- the span is one between neighbouring distinct knots
  obtain ⟨s, s1, s2, s3⟩ := H.find_kz t (i := h) (by omega)
  have hsS : s < S := by
    by_contra hc
    have e : s = S := by omega
    subst e
    rw [hV h (by omega) (by omega), hV (h + 1) (by omega) (by omega), H.elvK_eq t le_rfl s2 s3,
      H.elvK_eq t le_rfl (by omega) (fun h => absurd h (lt_irrefl _))] at h5
    exact lt_irrefl _ h5
  have hh : h = kz a t (s + 1) - 1 := by
    have := s3 hsS
    by_contra hc
    rw [hV h (by omega) (by omega), hV (h + 1) (by omega) (by omega), H.elvK_eq t s1 s2 s3,
      H.elvK_eq t s1 (by omega) (fun _ => by omega)] at h5
    exact lt_irrefl _ h5
  have hVh : V h = U (a s) := by rw [hV h (by omega) (by omega), H.elvK_eq t s1 s2 s3]
  have hVh1 : V (h + 1) = U (a (s + 1)) := by
    rw [hV (h + 1) (by omega) (by omega), hh, sub_add_cancel]
    refine H.elvK_eq t (by omega) le_rfl (fun h => ?_)
    exact lt_of_lt_of_le (by omega) (H.kz_step t (s := s) (by omega))
  have has := H.a_ge s1
  have hsn : a s ≤ n := by
    obtain ⟨S', rfl⟩ : ∃ S', S = S' + 1 := ⟨S - 1, by omega⟩
    have h3 := H.le (s := s) (s' := S') (by omega) (by omega)
    rw [H.prev S' rfl] at h3
    omega
  have hblk : U (a s + 1) = U (a (s + 1)) := H.blk s hsS _ (by omega) (by have := H.mono s hsS; omega)
  have hUlt : U (a s) < U (a s + 1) := by rw [hblk]; exact H.lt s hsS
  obtain ⟨f, hf, hrf⟩ := exists_form P (Win.of_sorted (k := a s) (p := p) hv.sorted hUlt (by omega) (by omega))
  obtain ⟨g, hg, hrg⟩ := exists_form Q (Win.of_sorted (k := h) (p := p + t) hs' h5 (by omega) (by omega))
  have hfg : ∀ m : Multiset K, m.card = p + t → g m = elv (p + t) p f m := by
    intro m hm
    refine form_eq hg (elv_form hf) (Set.Ico_infinite h5) (fun x hx => ?_) hm
    rw [elv_diag (by omega), ← SpanOf.curve_form (n := n') (k := h) ⟨h1, h2, Or.inl hx⟩ hs' hg hrg,
      ← SpanOf.curve_form (n := n) (k := a s) ⟨by omega, hsn, Or.inl ⟨hVh ▸ hx.1, by rw [hblk, ← hVh1]; exact hx.2⟩⟩
        hv.sorted hf hrf]
    exact he x (le_trans (hs' _ _ (by omega) h1 (by omega)) hx.1)
      (hx.2.le.trans (hs' _ _ (by omega) (by omega) (by omega)))
  rw [hrg j (by omega) h3, hfg _ (card_kn _ _ _),
    kn_congr (V := elvK U a S t) (j := j) (fun l l1 l2 => hV _ (by omega) (by omega))]
  exact H.hull_elv hv hf hsS hC (fun i i1 i2 => by rw [← hrf i i1 i2]; exact hP i (by omega) (by omega)) t j
    (by omega) (by omega)

end Igakit
