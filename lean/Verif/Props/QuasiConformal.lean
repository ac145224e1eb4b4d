import Verif.Proofs.Conformal
import Verif.Proofs.ConformalRegular
import Verif.Props.AssembleNEx
import Verif.Props.Conformal

/-!
# Property C94: `QuasiConformalProjection` of `demo/conformal.py` minimises the conformality error
-/

set_option linter.unusedSectionVars false

namespace Igakit
open Spec

/-- surfaces over the same knots with the same weights and the same control points on the boundary of the net -/
structure Spec.SameFrame (N N' : Nrb ℝ 2) : Prop where
  shape : N'.shape = N.shape
  len : N'.len = N.len
  U : N'.U = N.U
  weights : ∀ idx, N.InNet idx → N'.P idx 3 = N.P idx 3
  sides : ∀ idx, N.InNet idx → (∃ a, idx a = 0 ∨ idx a = N.shape a - 1) → ∀ c < 2, N'.P idx c = N.P idx c

/-- the squared error depends on the values of the tables and of the net only -/
theorem conf_error_congr {K : Type} [Field K] {Bu Bv Bu' Bv' : QuadData K} {pu pv : ℕ} {s0 s1 : ℤ} {C C' : ℤ → ℤ → ℕ → K}
    (hO : ∀ eu < Bu.r.toNat, 0 ≤ Bu.O eu ∧ Bu.O eu + pu < s0) (hO' : ∀ ev < Bv.r.toNat, 0 ≤ Bv.O ev ∧ Bv.O ev + pv < s1)
    (hr : Bu'.r = Bu.r) (hr' : Bv'.r = Bv.r) (hW : ∀ g : ℕ, Bu'.W g = Bu.W g) (hW' : ∀ g : ℕ, Bv'.W g = Bv.W g)
    (hu : ∀ e : ℕ, e < Bu.r.toNat → Bu'.O e = Bu.O e ∧ Bu'.J e = Bu.J e ∧ ∀ (g a l : ℕ), a ≤ pu → l ≤ 1 → Bu'.N e g a l = Bu.N e g a l)
    (hv : ∀ e : ℕ, e < Bv.r.toNat → Bv'.O e = Bv.O e ∧ ∀ (g a l : ℕ), a ≤ pv → l ≤ 1 → Bv'.N e g a l = Bv.N e g a l)
    (hC : ∀ i j, 0 ≤ i → i < s0 → 0 ≤ j → j < s1 → C' i j 0 = C i j 0 ∧ C' i j 1 = C i j 1 ∧ C' i j 3 = C i j 3) :
    Conf.error Bu' Bv' pu pv C' = Conf.error Bu Bv pu pv C := by
  unfold Conf.error
  rw [hr, hr']
  refine Finset.sum_congr rfl fun eu heu => Finset.sum_congr rfl fun ev hev => Finset.sum_congr rfl fun qu _ =>
    Finset.sum_congr rfl fun qv _ => ?_
  have heu := Finset.mem_range.1 heu
  have hev := Finset.mem_range.1 hev
  obtain ⟨u1, u2, u3⟩ := hu eu heu
  obtain ⟨v1, v3⟩ := hv ev hev
  have o1 := hO eu heu
  have o2 := hO' ev hev
  have hc : ∀ i ∈ Finset.range (pu + 1), ∀ j ∈ Finset.range (pv + 1), C' (Bu'.O eu + i) (Bv'.O ev + j) 0 = C (Bu.O eu + i) (Bv.O ev + j) 0 ∧
      C' (Bu'.O eu + i) (Bv'.O ev + j) 1 = C (Bu.O eu + i) (Bv.O ev + j) 1 ∧
      C' (Bu'.O eu + i) (Bv'.O ev + j) 3 = C (Bu.O eu + i) (Bv.O ev + j) 3 := by
    intro i hi j hj
    have := Finset.mem_range.1 hi
    have := Finset.mem_range.1 hj
    rw [u1, v1]
    exact hC _ _ (by omega) (by omega) (by omega) (by omega)
  have ht : ∀ l m, l ≤ 1 → m ≤ 1 → Conf.total Bu' Bv' pu pv eu ev qu qv l m (fun i j => C' (Bu'.O eu + i) (Bv'.O ev + j) 3) =
      Conf.total Bu Bv pu pv eu ev qu qv l m (fun i j => C (Bu.O eu + i) (Bv.O ev + j) 3) := by
    intro l m hl hm
    unfold Conf.total
    refine Finset.sum_congr rfl fun i hi => Finset.sum_congr rfl fun j hj => ?_
    dsimp only
    rw [(hc i hi j hj).2.2, u3 _ _ _ (by have := Finset.mem_range.1 hi; omega) hl, v3 _ _ _ (by have := Finset.mem_range.1 hj; omega) hm]
  have hd : ∀ l m, l ≤ 1 → m ≤ 1 → ∀ i ∈ Finset.range (pu + 1), ∀ j ∈ Finset.range (pv + 1),
      Conf.dR Bu' Bv' pu pv (fun i j => C' i j 3) eu ev qu qv l m i j = Conf.dR Bu Bv pu pv (fun i j => C i j 3) eu ev qu qv l m i j := by
    intro l m hl hm i hi j hj
    unfold Conf.dR
    dsimp only
    have a1 : i ≤ pu := by have := Finset.mem_range.1 hi; omega
    have a2 : j ≤ pv := by have := Finset.mem_range.1 hj; omega
    have u0 : Bu'.N eu qu i 0 = Bu.N eu qu i 0 := by exact_mod_cast u3 qu i 0 a1 (by norm_num)
    have v0 : Bv'.N ev qv j 0 = Bv.N ev qv j 0 := by exact_mod_cast v3 qv j 0 a2 (by norm_num)
    rw [ht l m hl hm, ht 0 0 (by norm_num) (by norm_num), (hc i hi j hj).2.2, u3 _ _ _ a1 hl, v3 _ _ _ a2 hm, u0, v0]
  have hX : ∀ l m, l ≤ 1 → m ≤ 1 → Conf.dX Bu' Bv' pu pv C' eu ev qu qv l m 0 = Conf.dX Bu Bv pu pv C eu ev qu qv l m 0 ∧
      Conf.dX Bu' Bv' pu pv C' eu ev qu qv l m 1 = Conf.dX Bu Bv pu pv C eu ev qu qv l m 1 := by
    intro l m hl hm
    unfold Conf.dX
    constructor
    · refine Finset.sum_congr rfl fun i hi => Finset.sum_congr rfl fun j hj => ?_
      rw [(hc i hi j hj).1, hd l m hl hm i hi j hj]
    · refine Finset.sum_congr rfl fun i hi => Finset.sum_congr rfl fun j hj => ?_
      rw [(hc i hi j hj).2.1, hd l m hl hm i hi j hj]
  dsimp only
  rw [(hX 1 0 le_rfl (by norm_num)).1, (hX 0 1 (by norm_num) le_rfl).1, (hX 1 0 le_rfl (by norm_num)).2, (hX 0 1 (by norm_num) le_rfl).2,
    u2, hW, hW']

/-- the two calls of `BasisData` -/
theorem conf_data {eps : ℝ} (heps : 0 ≤ eps) (jo : Fin 2 → ℤ → ℤ) (jk : Fin 2 → ℤ → ℝ) (j2 ja jd : Fin 2 → ℤ → ℤ → ℝ)
    {N : Nrb ℝ 2} (hN : N.Valid) (hp : ∀ a, N.degree a ≤ 9)
    (hsep : ∀ a k, N.degree a ≤ k → k ≤ N.n a → N.U a k < N.U a (k + 1) → eps < N.U a (k + 1) - N.U a k) :
    ∃ B : Fin 2 → QuadData ℝ,
      (∀ a, BasisData eps (jo a) (jk a) (j2 a) (ja a) (jd a) (N.degree a) (N.len a - 1) (N.U a) none none = .ok (B a)) ∧
      ∀ a, IsQuad eps (N.n a) (N.degree a).toNat (N.U a) (N.degree a).toNat ((N.degree a).toNat + 1) (B a) := by
  have hdeg : ∀ a, ((N.degree a).toNat : ℤ) = N.degree a := fun a => Int.toNat_of_nonneg (by have := (hN a).one_le; omega)
  have hmm : ∀ a, N.len a - 1 = N.n a + (N.degree a).toNat + 1 := by
    intro a
    rw [hdeg]
    show N.len a - 1 = N.n a + (N.len a - 1 - N.n a - 1) + 1
    ring
  have hdata : ∀ a, ∃ B : QuadData ℝ, BasisData eps (jo a) (jk a) (j2 a) (ja a) (jd a) (N.degree a) (N.len a - 1) (N.U a) none none = .ok B ∧
      IsQuad eps (N.n a) (N.degree a).toNat (N.U a) (N.degree a).toNat ((N.degree a).toNat + 1) B := by
    intro a
    have hv : ValidKnots (N.n a) (N.degree a).toNat (N.U a) := by rw [hdeg]; exact hN a
    have := C92_data heps (jo a) (jk a) (j2 a) (ja a) (jd a) hv (fun k k1 k2 k3 =>
      hsep a k (by rw [← hdeg]; exact k1) k2 k3) (d := none) (q := none) (D := (N.degree a).toNat)
      (Q := (N.degree a).toNat + 1) rfl le_rfl (by simp) (by omega) (by have := hp a; omega)
    rw [hdeg, ← hdeg, ← hmm a, hdeg] at this
    exact this
  choose B hB hQ using hdata
  exact ⟨B, hB, hQ⟩

theorem conf_O {eps : ℝ} (heps : 0 ≤ eps) {n : ℤ} {p D Q : ℕ} {U : ℤ → ℝ} {B : QuadData ℝ} (h : IsQuad eps n p U D Q B) :
    ∀ e < B.r.toNat, 0 ≤ B.O e ∧ B.O e + p < n + 1 := by
  intro e he
  obtain ⟨k, k1, k2, _, hO, _⟩ := h.inside heps he (g := 0) h.one_le
  omega

theorem SameFrame_degree {N N' : Nrb ℝ 2} (h : SameFrame N N') : N'.degree = N.degree ∧ N'.n = N.n := by
  have hn : N'.n = N.n := by funext a; unfold Nrb.n; rw [h.shape]
  refine ⟨?_, hn⟩
  funext a
  show N'.len a - 1 - N'.n a - 1 = N.len a - 1 - N.n a - 1
  rw [h.len, hn]

/-- what the program computes: prescribed values and vanishing derivatives of the form -/
theorem quasi_core {eps : ℝ} (heps : 0 ≤ eps) {jo : Fin 2 → ℤ → ℤ} {jk : Fin 2 → ℤ → ℝ} {j2 ja jd : Fin 2 → ℤ → ℤ → ℝ}
    {N : Nrb ℝ 2} (hN : N.Valid) {B : Fin 2 → QuadData ℝ}
    (hB : ∀ a, BasisData eps (jo a) (jk a) (j2 a) (ja a) (jd a) (N.degree a) (N.len a - 1) (N.U a) none none = .ok (B a))
    (S : Finset ℤ) (hS : S = ((Conf.sides (N.shape 0).toNat (N.shape 1).toNat).map fun t : ℕ × ℕ × ℕ =>
      (t.2.2 : ℤ) * (N.shape 0 * N.shape 1) + t.2.1 * N.shape 0 + t.1).toFinset) :
    S ⊆ Finset.Ico 0 (2 * (N.shape 0 * N.shape 1)) ∧
    (∀ i j (c : ℕ), 0 ≤ i → i < N.shape 0 → 0 ≤ j → j < N.shape 1 → c < 2 →
      (c * (N.shape 0 * N.shape 1) + j * N.shape 0 + i ∈ S ↔ (i = 0 ∨ i = N.shape 0 - 1 ∨ j = 0 ∨ j = N.shape 1 - 1))) ∧
    ∃ MF, Conf.Elim (Conf.matrix (B 0) (B 1) (N.degree 0).toNat (N.degree 1).toNat (fun i j => N.P ![i, j] 3) (N.shape 0)
        (N.shape 0 * N.shape 1)) (Conf.vec (fun i j c => N.P ![i, j] c) (N.shape 0) (N.shape 0 * N.shape 1)) S MF ∧
      quasiConformalProjection eps jo jk j2 ja jd N = (linalgSolve (2 * (N.shape 0 * N.shape 1)).toNat MF.1 MF.2).map fun x =>
        { N with P := fun idx c => if c = 0 then x (idx 1 * N.shape 0 + idx 0)
                                    else if c = 1 then x (N.shape 0 * N.shape 1 + (idx 1 * N.shape 0 + idx 0)) else N.P idx c } := by
  have hsh : ∀ a, 2 ≤ N.shape a := by
    intro a
    have h1 := (hN a).one_le
    have h2 := (hN a).le
    unfold Nrb.n at h2
    omega
  have s0 := hsh 0
  have s1 := hsh 1
  have n0 : ((N.shape 0).toNat : ℤ) = N.shape 0 := by omega
  have n1 : ((N.shape 1).toNat : ℤ) = N.shape 1 := by omega
  have hmem : ∀ r, r ∈ S ↔ ∃ i j c : ℕ, (i, j, c) ∈ Conf.sides (N.shape 0).toNat (N.shape 1).toNat ∧
      (c : ℤ) * (N.shape 0 * N.shape 1) + j * N.shape 0 + i = r := by
    intro r
    rw [hS, List.mem_toFinset, List.mem_map]
    constructor
    · rintro ⟨⟨i, j, c⟩, h1, h2⟩; exact ⟨i, j, c, h1, h2⟩
    · rintro ⟨i, j, c, h1, h2⟩; exact ⟨⟨i, j, c⟩, h1, h2⟩
  refine ⟨?_, ?_, ?_⟩
  · intro r hr
    obtain ⟨i, j, c, h1, rfl⟩ := (hmem r).1 hr
    rw [mem_sides (by omega) (by omega)] at h1
    exact num_range (by omega) (by omega) (by omega) (by omega) h1.2.2.1
  · intro i j c i0 i1 j0 j1 hc
    rw [hmem]
    constructor
    · rintro ⟨i', j', c', h1, h2⟩
      rw [mem_sides (by omega) (by omega)] at h1
      obtain ⟨e1, e2, _⟩ := num_inj (by omega) (by omega) (by omega) (by omega) i0 i1 j0 j1 h2
      omega
    · intro h
      refine ⟨i.toNat, j.toNat, c, ?_, by rw [show (i.toNat : ℤ) = i by omega, show (j.toNat : ℤ) = j by omega]⟩
      rw [mem_sides (by omega) (by omega)]
      omega
  · set G := Conf.vec (fun i j c => N.P ![i, j] c) (N.shape 0) (N.shape 0 * N.shape 1) with hG
    set A := Conf.matrix (B 0) (B 1) (N.degree 0).toNat (N.degree 1).toNat (fun i j => N.P ![i, j] 3) (N.shape 0) (N.shape 0 * N.shape 1)
      with hA
    set num := fun t : ℕ × ℕ × ℕ => (t.2.2 : ℤ) * (N.shape 0 * N.shape 1) + t.2.1 * N.shape 0 + t.1 with hnum
    have hnd : ((Conf.sides (N.shape 0).toNat (N.shape 1).toNat).map num).Nodup := by
      refine List.Nodup.map_on ?_ (sides_nodup (by omega) (by omega))
      rintro ⟨i, j, c⟩ h1 ⟨i', j', c'⟩ h2 h
      rw [mem_sides (by omega) (by omega)] at h1 h2
      change (c : ℤ) * (N.shape 0 * N.shape 1) + j * N.shape 0 + i = c' * (N.shape 0 * N.shape 1) + j' * N.shape 0 + i' at h
      obtain ⟨e1, e2, e3⟩ := num_inj (by omega) (by omega) (by omega) (by omega) (by omega) (by omega) (by omega) (by omega) h
      simp only [Prod.mk.injEq]
      omega
    have hel := elim_fold ((Conf.sides (N.shape 0).toNat (N.shape 1).toNat).map num) ∅ _ (elim_start A G) hnd (fun _ _ => Finset.notMem_empty _)
    rw [Finset.empty_union, ← hS, List.foldl_map] at hel
    refine ⟨_, hel, ?_⟩
    unfold quasiConformalProjection
    rw [hB 0, hB 1]
    dsimp only [bind, Except.bind, pure, Except.pure]
    have hf : ∀ (l : List (ℕ × ℕ × ℕ)), (∀ t ∈ l, t ∈ Conf.sides (N.shape 0).toNat (N.shape 1).toNat) → ∀ MF,
        l.foldl (fun MF t => Conf.prescribe MF (t.2.2 * (N.shape 0 * N.shape 1) + t.2.1 * N.shape 0 + t.1) (N.P ![t.1, t.2.1] t.2.2)) MF =
        l.foldl (fun MF t => Conf.prescribe MF (num t) (G (num t))) MF := by
      intro l
      induction l with
      | nil => intro _ _; rfl
      | cons t l ih =>
        intro h MF
        rw [List.foldl_cons, List.foldl_cons, ih fun x hx => h x (List.mem_cons_of_mem _ hx)]
        obtain ⟨i, j, c⟩ := t
        have h1 := h _ List.mem_cons_self
        rw [mem_sides (by omega) (by omega)] at h1
        have := vec_num (fun i j c => N.P ![i, j] c) (s0 := N.shape 0) (s1 := N.shape 1) (i := i) (j := j) (by omega) (by omega)
          (by omega) (by omega) c
        rw [hG, hnum]
        dsimp only
        rw [this]
    rw [hf _ fun _ h => h]
    cases linalgSolve (2 * (N.shape 0 * N.shape 1)).toNat _ _ <;> rfl

/-- the number returned for a surface with the same frame, as a form of its coefficients -/
theorem conf_value {eps : ℝ} (heps : 0 ≤ eps) (jo : Fin 2 → ℤ → ℤ) (jk : Fin 2 → ℤ → ℝ) (j2 ja jd : Fin 2 → ℤ → ℤ → ℝ)
    {N N' : Nrb ℝ 2} (hN : N.Valid) (hp : ∀ a, N.degree a ≤ 9)
    (hsep : ∀ a k, N.degree a ≤ k → k ≤ N.n a → N.U a k < N.U a (k + 1) → eps < N.U a (k + 1) - N.U a k) {B : Fin 2 → QuadData ℝ}
    (hQ : ∀ a, IsQuad eps (N.n a) (N.degree a).toNat (N.U a) (N.degree a).toNat ((N.degree a).toNat + 1) (B a))
    (hF : SameFrame N N') {v : ℤ → ℝ} (hv : ∀ i j (c : ℕ), 0 ≤ i → i < N.shape 0 → 0 ≤ j → j < N.shape 1 → c < 2 →
      v (c * (N.shape 0 * N.shape 1) + j * N.shape 0 + i) = N'.P ![i, j] c) :
    conformalProjectionError eps jo jk j2 ja jd N' = .ok (Real.sqrt (bform (Finset.Ico 0 (2 * (N.shape 0 * N.shape 1)))
      (Conf.matrix (B 0) (B 1) (N.degree 0).toNat (N.degree 1).toNat (fun i j => N.P ![i, j] 3) (N.shape 0) (N.shape 0 * N.shape 1)) v v)) := by
  obtain ⟨hdeg, hn⟩ := SameFrame_degree hF
  obtain ⟨B', hB', hQ'⟩ := conf_data heps jo jk j2 ja jd hN hp hsep
  have hs : ∀ a, N.n a + 1 = N.shape a := fun a => by unfold Nrb.n; ring
  have h1 : ∀ a, 1 ≤ (N.degree a).toNat := fun a => by have := (hN a).one_le; omega
  unfold conformalProjectionError
  rw [hdeg, hF.len, hF.U, hB' 0, hB' 1]
  dsimp only [bind, Except.bind, pure, Except.pure]
  congr 2
  have hO0 : ∀ e < (B 0).r.toNat, 0 ≤ (B 0).O e ∧ (B 0).O e + (N.degree 0).toNat < N.shape 0 := by
    rw [← hs]; exact conf_O heps (hQ 0)
  have hO1 : ∀ e < (B 1).r.toNat, 0 ≤ (B 1).O e ∧ (B 1).O e + (N.degree 1).toNat < N.shape 1 := by
    rw [← hs]; exact conf_O heps (hQ 1)
  obtain ⟨r0, w0, d0⟩ := (hQ 0).same heps (hQ' 0)
  obtain ⟨r1, w1, d1⟩ := (hQ 1).same heps (hQ' 1)
  rw [conf_error_congr (C := fun i j c => if c = 3 then N.P ![i, j] 3 else N'.P ![i, j] c) hO0 hO1 r0 r1 w0 w1
    (fun e he => ⟨(d0 e he).1, (d0 e he).2.1, fun g a l ha hl => (d0 e he).2.2.2 g a l ha (hl.trans (h1 0))⟩)
    (fun e he => ⟨(d1 e he).1, fun g a l ha hl => (d1 e he).2.2.2 g a l ha (hl.trans (h1 1))⟩)
    (fun i j i0 i1 j0 j1 => ⟨rfl, rfl, hF.weights _ fun a => by fin_cases a; exacts [⟨i0, i1⟩, ⟨j0, j1⟩]⟩)]
  exact conf_error (B 0) (B 1) (N.degree 0).toNat (N.degree 1).toNat (fun i j c => if c = 3 then N.P ![i, j] 3 else N'.P ![i, j] c) hO0 hO1
    (fun i j c i0 i1 j0 j1 hc => by rw [hv i j c i0 i1 j0 j1 hc, if_neg (by omega)])

theorem conf_hI {eps : ℝ} (heps : 0 ≤ eps) {N : Nrb ℝ 2} {B : Fin 2 → QuadData ℝ}
    (hQ : ∀ a, IsQuad eps (N.n a) (N.degree a).toNat (N.U a) (N.degree a).toNat ((N.degree a).toNat + 1) (B a)) :
    ∀ eu < (B 0).r.toNat, ∀ ev < (B 1).r.toNat, ∀ i < (N.degree 0).toNat + 1, ∀ j < (N.degree 1).toNat + 1,
      Conf.ind (B 0) (B 1) (N.shape 0) eu ev i j ∈ Finset.Ico 0 (2 * (N.shape 0 * N.shape 1)) ∧
      N.shape 0 * N.shape 1 + Conf.ind (B 0) (B 1) (N.shape 0) eu ev i j ∈ Finset.Ico 0 (2 * (N.shape 0 * N.shape 1)) := by
  intro eu heu ev hev i hi j hj
  have hs : ∀ a, N.n a + 1 = N.shape a := fun a => by unfold Nrb.n; ring
  have o0 := conf_O heps (hQ 0) eu heu
  have o1 := conf_O heps (hQ 1) ev hev
  rw [hs] at o0 o1
  have h1 := num_range (s0 := N.shape 0) (s1 := N.shape 1) (i := (B 0).O eu + i) (j := (B 1).O ev + j) (c := 0) (by omega) (by omega)
    (by omega) (by omega) (by norm_num)
  have h2 := num_range (s0 := N.shape 0) (s1 := N.shape 1) (i := (B 0).O eu + i) (j := (B 1).O ev + j) (c := 1) (by omega) (by omega)
    (by omega) (by omega) (by norm_num)
  unfold Conf.ind
  push_cast at h1 h2
  rw [zero_mul, zero_add] at h1
  rw [one_mul] at h2
  exact ⟨h1, by rw [← add_assoc]; exact h2⟩

/-- C94: the returned surface has the knots, weights, other coordinates and boundary control points of the given one, and no surface with
the same knots, weights and boundary control points has a smaller conformality error, as computed by `ConformalProjectionError`
(each call with its own unset memory).  The weights are positive, so that no division by zero is hidden. -/
theorem C94_minimal {eps : ℝ} (heps : 0 ≤ eps) {jo : Fin 2 → ℤ → ℤ} {jk : Fin 2 → ℤ → ℝ} {j2 ja jd : Fin 2 → ℤ → ℤ → ℝ}
    {N : Nrb ℝ 2} (hN : N.Valid) (hp : ∀ a, N.degree a ≤ 9) (_hw : ∀ idx, N.InNet idx → 0 < N.P idx 3)
    (hsep : ∀ a k, N.degree a ≤ k → k ≤ N.n a → N.U a k < N.U a (k + 1) → eps < N.U a (k + 1) - N.U a k) {S : Nrb ℝ 2}
    (h : quasiConformalProjection eps jo jk j2 ja jd N = .ok S) :
    SameFrame N S ∧ S.nc = N.nc ∧ (∀ idx c, 2 ≤ c → S.P idx c = N.P idx c) ∧
      ∀ N', SameFrame N N' → ∀ (jo1 jo2 : Fin 2 → ℤ → ℤ) (jk1 jk2 : Fin 2 → ℤ → ℝ) (j21 j22 ja1 ja2 jd1 jd2 : Fin 2 → ℤ → ℤ → ℝ),
        ∃ r r', conformalProjectionError eps jo1 jk1 j21 ja1 jd1 S = .ok r ∧
          conformalProjectionError eps jo2 jk2 j22 ja2 jd2 N' = .ok r' ∧ r ≤ r' := by
  obtain ⟨B, hB, hQ⟩ := conf_data heps jo jk j2 ja jd hN hp hsep
  obtain ⟨hsub, hmem, MF, hel, hres⟩ := quasi_core heps hN hB _ rfl
  rw [hres] at h
  set s0 := N.shape 0 with hs0
  set s1 := N.shape 1 with hs1
  set A := Conf.matrix (B 0) (B 1) (N.degree 0).toNat (N.degree 1).toNat (fun i j => N.P ![i, j] 3) s0 (s0 * s1) with hA
  set T := ((Conf.sides s0.toNat s1.toNat).map fun t : ℕ × ℕ × ℕ => (t.2.2 : ℤ) * (s0 * s1) + t.2.1 * s0 + t.1).toFinset with hT
  have hsh : ∀ a, 2 ≤ N.shape a := by
    intro a
    have h1 := (hN a).one_le
    have h2 := (hN a).le
    unfold Nrb.n at h2
    omega
  have p0 : 0 < s0 := by have := hsh 0; omega
  have p1 : 0 < s1 := by have := hsh 1; omega
  have hcast : (((2 * (s0 * s1)).toNat : ℕ) : ℤ) = 2 * (s0 * s1) := Int.toNat_of_nonneg (by positivity)
  obtain ⟨x, hx, rfl⟩ : ∃ x, linalgSolve (2 * (s0 * s1)).toNat MF.1 MF.2 = .ok x ∧
      ({ N with P := fun idx c => if c = 0 then x (idx 1 * s0 + idx 0) else if c = 1 then x (s0 * s1 + (idx 1 * s0 + idx 0)) else N.P idx c } :
        Nrb ℝ 2) = S := by
    cases he : linalgSolve (2 * (s0 * s1)).toNat MF.1 MF.2 with
    | error e => rw [he] at h; cases h
    | ok x => rw [he] at h; exact ⟨x, rfl, Except.ok.inj h⟩
  have hrows := linalgSolve_spec hx
  rw [hcast] at hrows
  obtain ⟨hpre, hzero⟩ := elim_rows hsub hel hrows
  have hidx : ∀ idx : Fin 2 → ℤ, ![idx 0, idx 1] = idx := fun idx => by funext a; fin_cases a <;> rfl
  set S : Nrb ℝ 2 := { N with P := fun idx c => if c = 0 then x (idx 1 * s0 + idx 0)
                                                  else if c = 1 then x (s0 * s1 + (idx 1 * s0 + idx 0)) else N.P idx c } with hS
  have hSF : SameFrame N S := by
    refine ⟨rfl, rfl, rfl, fun _ _ => rfl, fun idx hi hb c hc => ?_⟩
    obtain ⟨b1, b2⟩ := hi 0
    obtain ⟨b3, b4⟩ := hi 1
    have hb' : idx 0 = 0 ∨ idx 0 = s0 - 1 ∨ idx 1 = 0 ∨ idx 1 = s1 - 1 := by
      obtain ⟨a, ha⟩ := hb
      fin_cases a
      · rcases ha with ha | ha
        · exact Or.inl ha
        · exact Or.inr (Or.inl ha)
      · rcases ha with ha | ha
        · exact Or.inr (Or.inr (Or.inl ha))
        · exact Or.inr (Or.inr (Or.inr ha))
    have := hpre _ ((hmem (idx 0) (idx 1) c b1 b2 b3 b4 hc).2 hb')
    rw [vec_num _ b1 b2 b3 b4, hidx] at this
    rw [← this]
    have : c = 0 ∨ c = 1 := by omega
    rcases this with rfl | rfl
    · show x (idx 1 * s0 + idx 0) = _
      congr 1
      push_cast
      ring
    · show x (s0 * s1 + (idx 1 * s0 + idx 0)) = _
      congr 1
      push_cast
      ring
  refine ⟨hSF, rfl, fun idx c hc => ?_, ?_⟩
  · show (if c = 0 then _ else if c = 1 then _ else N.P idx c) = _
    rw [if_neg (by omega), if_neg (by omega)]
  intro N' hF jo1 jo2 jk1 jk2 j21 j22 ja1 ja2 jd1 jd2
  set v' := Conf.vec (fun i j c => N'.P ![i, j] c) s0 (s0 * s1) with hv'
  refine ⟨_, _, conf_value heps jo1 jk1 j21 ja1 jd1 hN hp hsep hQ hSF (v := x) (fun i j c i0 i1 j0 j1 hc => ?_),
    conf_value heps jo2 jk2 j22 ja2 jd2 hN hp hsep hQ hF (v := v') (fun i j c i0 i1 j0 j1 hc => vec_num _ i0 i1 j0 j1 c), ?_⟩
  · have : c = 0 ∨ c = 1 := by omega
    rcases this with rfl | rfl
    · show _ = x (j * s0 + i)
      congr 1
      push_cast
      ring
    · show _ = x (s0 * s1 + (j * s0 + i))
      congr 1
      push_cast
      ring
  refine Real.sqrt_le_sqrt ?_
  have hI := conf_hI heps hQ
  have hexp := bform_expand (Finset.Ico 0 (2 * (s0 * s1))) A x (fun r => v' r - x r) (conf_form_symm _ _ _ _ _ _ _ hI _ _)
  simp only [add_sub_cancel] at hexp
  have hdx : bform (Finset.Ico 0 (2 * (s0 * s1))) A (fun r => v' r - x r) x = 0 := by
    rw [bform_rows]
    refine Finset.sum_eq_zero fun r hr => ?_
    by_cases hrT : r ∈ T
    · obtain ⟨i, j, c, i0, i1, j0, j1, hc, rfl⟩ := num_surj p0 p1 hr
      have hb := (hmem i j c i0 i1 j0 j1 hc).1 hrT
      rw [hpre _ hrT, hv', vec_num _ i0 i1 j0 j1, vec_num _ i0 i1 j0 j1, hF.sides ![i, j] (fun a => by fin_cases a; exacts [⟨i0, i1⟩, ⟨j0, j1⟩])
        (by rcases hb with h | h | h | h
            exacts [⟨0, Or.inl h⟩, ⟨0, Or.inr h⟩, ⟨1, Or.inl h⟩, ⟨1, Or.inr h⟩]) c hc, sub_self, zero_mul]
    · rw [hzero r hr hrT, mul_zero]
  have hdd : 0 ≤ bform (Finset.Ico 0 (2 * (s0 * s1))) A (fun r => v' r - x r) (fun r => v' r - x r) := by
    rw [hA, conf_form _ _ _ _ _ _ _ hI]
    refine Finset.sum_nonneg fun t ht => mul_nonneg (add_nonneg (mul_self_nonneg _) (mul_self_nonneg _)) ?_
    obtain ⟨ht1, ht2⟩ := Finset.mem_product.1 ht
    obtain ⟨a1, a2⟩ := Finset.mem_product.1 ht1
    obtain ⟨a3, a4⟩ := Finset.mem_product.1 ht2
    obtain ⟨_, _, _, _, _, _, w1, _⟩ := (hQ 0).inside heps (Finset.mem_range.1 a1) (Finset.mem_range.1 a3)
    obtain ⟨_, _, _, _, _, _, w2, _⟩ := (hQ 1).inside heps (Finset.mem_range.1 a2) (Finset.mem_range.1 a4)
    have := mul_self_nonneg ((B 0).J t.1.1)
    positivity
  rw [hexp, hdx]
  linarith

/-- with equal weights the rational functions are the basis functions -/
theorem conf_dR_const {eps : ℝ} (heps : 0 ≤ eps) {N : Nrb ℝ 2} (hN : N.Valid) {w : ℝ} (hw0 : 0 < w)
    (hw : ∀ idx, N.InNet idx → N.P idx 3 = w) {B : Fin 2 → QuadData ℝ}
    (hQ : ∀ a, IsQuad eps (N.n a) (N.degree a).toNat (N.U a) (N.degree a).toNat ((N.degree a).toNat + 1) (B a))
    {eu ev qu qv : ℕ} (heu : eu < (B 0).r.toNat) (hev : ev < (B 1).r.toNat) (hqu : qu < (N.degree 0).toNat + 1)
    (hqv : qv < (N.degree 1).toNat + 1) (j : Fin 2) {i i' : ℕ} (hi : i < (N.degree 0).toNat + 1) (hi' : i' < (N.degree 1).toNat + 1) :
    Conf.dR (B 0) (B 1) (N.degree 0).toNat (N.degree 1).toNat (fun i j => N.P ![i, j] 3) eu ev qu qv (if j = 0 then 1 else 0)
      (if j = 0 then 0 else 1) i i' = (B 0).N eu qu i (if j = 0 then 1 else 0 : ℕ) * (B 1).N ev qv i' (if j = 0 then 0 else 1 : ℕ) := by
  have hdeg : ∀ a, ((N.degree a).toNat : ℤ) = N.degree a := fun a => Int.toNat_of_nonneg (by have := (hN a).one_le; omega)
  have hhi : ∀ a, N.hi a = N.U a (N.n a + 1) := N.hi_eq
  have hnet : ∀ idx : Fin 2 → ℤ, (∀ a, 0 ≤ idx a ∧ idx a ≤ N.n a) → N.InNet idx := by
    intro idx h a
    have := h a
    unfold Nrb.n at this
    omega
  have hone : ∀ x, N.InDom x → N.eval x 3 = w := by
    intro x hx
    rw [Nrb.eval_apply, Finset.sum_congr rfl fun idx h => by
      rw [hw idx (hnet idx fun a => Finset.mem_Icc.1 (Fintype.mem_piFinset.1 h a))], ← Finset.sum_mul, Nrb.wt_sum hN hx, one_mul]
  set p : Fin 2 → ℕ := fun a => (N.degree a).toNat with hpdef
  have hp1 : ∀ a, 1 ≤ p a := fun a => by have := (hN a).one_le; have := hdeg a; simp only [hpdef]; omega
  have he : ∀ a, ![eu, ev] a < (B a).r.toNat := by intro a; fin_cases a; exacts [heu, hev]
  have hg : ∀ a, ![qu, qv] a < p a + 1 := by intro a; fin_cases a; exacts [hqu, hqv]
  choose k hk using fun a => (hQ a).inside heps (he a) (hg a)
  have hin : ∀ a, N.lo a < (B a).X (![eu, ev] a) (![qu, qv] a) ∧ (B a).X (![eu, ev] a) (![qu, qv] a) < N.hi a := by
    intro a
    obtain ⟨k1, k2, k3, k4, k5, k6, k7, k8, _⟩ := hk a
    have o1 := (hN a).one_le
    have o2 := (hN a).le
    rw [hdeg] at k1
    have s1 : N.lo a ≤ N.U a (k a) := (hN a).sorted (N.degree a) (k a) (by omega) k1 (by omega)
    have s2 : N.U a (k a + 1) ≤ N.hi a := by rw [hhi]; exact (hN a).sorted _ _ (by omega) (by omega) (by omega)
    exact ⟨lt_of_le_of_lt s1 k7, lt_of_lt_of_le k8 s2⟩
  have hW0 : localSum B p ![0, 0] (fun idx => N.P idx 3) ![eu, ev] ![qu, qv] = w := by
    have := C92_partials heps hQ [] (fun a => Nat.zero_le _) 3 he hg
    rw [show (fun a : Fin 2 => ([] : List (Fin 2)).count a) = ![0, 0] by funext a; fin_cases a <;> rfl] at this
    rw [this]
    exact hone _ fun a => ⟨(hin a).1.le, (hin a).2.le⟩
  have hcnt : (fun a : Fin 2 => [j].count a) = ![if j = 0 then 1 else 0, if j = 0 then 0 else 1] := by
    funext a; fin_cases j <;> fin_cases a <;> rfl
  have hW1 : localSum B p ![if j = 0 then 1 else 0, if j = 0 then 0 else 1] (fun idx => N.P idx 3) ![eu, ev] ![qu, qv] = 0 := by
    rw [← hcnt, C92_partials heps hQ [j] (fun a => by
      have := hp1 a
      have h2 : [j].count a ≤ 1 := by rw [List.count_singleton]; split_ifs <;> omega
      exact h2.trans this) 3 he hg, pdo_congr_box (lo := N.lo) (hi := N.hi) (f' := fun _ => w) (fun y hy => hone y hy) j hin]
    simp [pdo]
  have hwt : N.P ![(B 0).O eu + i, (B 1).O ev + i'] 3 = w := by
    have o0 := conf_O heps (hQ 0) eu heu
    have o1 := conf_O heps (hQ 1) ev hev
    refine hw _ (hnet _ fun a => ?_)
    fin_cases a
    · change 0 ≤ (B 0).O eu + (i : ℤ) ∧ (B 0).O eu + (i : ℤ) ≤ N.n 0
      omega
    · change 0 ≤ (B 1).O ev + (i' : ℤ) ∧ (B 1).O ev + (i' : ℤ) ≤ N.n 1
      omega
  unfold Conf.dR
  dsimp only
  rw [conf_total B p eu ev qu qv 0 0 (fun idx => N.P idx 3), hW0,
    conf_total B p eu ev qu qv _ _ (fun idx => N.P idx 3), hW1, hwt]
  field_simp
  ring

/-- the points of an element are different -/
theorem Spec.IsQuad.X_inj {eps : ℝ} (heps : 0 ≤ eps) {n : ℤ} {p D Q : ℕ} {U : ℤ → ℝ} {B : QuadData ℝ} (h : IsQuad eps n p U D Q B) {e : ℕ}
    (he : e < B.r.toNat) : Function.Injective fun g : Fin Q => B.X e (g : ℕ) := by
  obtain ⟨l, hl, hm, hr, hW, hE⟩ := h.raw heps
  obtain ⟨t1, t2, t3, _⟩ := leg_table Q (List.mem_range'_1.mpr ⟨by have := h.one_le; omega, by have := h.le_ten; omega⟩)
  have he' : e < l.length := by omega
  obtain ⟨_, hJ, hX, _⟩ := hE e he'
  obtain ⟨k1, k2, k3⟩ := (hm _).1 (List.getElem_mem he')
  have hJ0 : B.J e ≠ 0 := by rw [hJ]; have : 0 < U (l[e] + 1) - U l[e] := by linarith
                             positivity
  intro g g' hgg
  dsimp only at hgg
  rw [hX, hX] at hgg
  have h1 : (((legX Q).getD g 0 : ℚ) : ℝ) = (((legX Q).getD g' 0 : ℚ) : ℝ) := by
    have := mul_right_cancel₀ hJ0 (add_right_cancel hgg)
    linarith
  have h2 : (legX Q).getD g 0 = (legX Q).getD g' 0 := by exact_mod_cast h1
  have a1 : (g : ℕ) < (legX Q).length := by rw [t1]; exact g.2
  have a2 : (g' : ℕ) < (legX Q).length := by rw [t1]; exact g'.2
  rw [List.getD_eq_getElem _ _ a1, List.getD_eq_getElem _ _ a2] at h2
  have hnd : (legX Q).Nodup := t3.imp ne_of_lt
  exact Fin.ext ((hnd.getElem_inj_iff).1 h2)

/-- fields that satisfy the Cauchy-Riemann equations at all points and vanish in the first row vanish -/
theorem conf_regular {eps : ℝ} (heps : 0 ≤ eps) {N : Nrb ℝ 2} (hN : N.Valid) {w : ℝ} (hw0 : 0 < w)
    (hw : ∀ idx, N.InNet idx → N.P idx 3 = w) {B : Fin 2 → QuadData ℝ}
    (hQ : ∀ a, IsQuad eps (N.n a) (N.degree a).toNat (N.U a) (N.degree a).toNat ((N.degree a).toNat + 1) (B a))
    (hmult : ∀ x, N.lo 0 < x → x < N.hi 0 → (mult (N.U 0) 0 (N.len 0 - 1) x : ℤ) ≤ N.degree 0 + 1)
    (hcl : ∀ j, 1 ≤ j → j ≤ N.degree 1 → N.U 1 j = N.lo 1)
    (hcont : ∀ j, 1 ≤ j → j ≤ N.n 1 → N.U 1 j < N.U 1 (j + N.degree 1)) {x : ℤ → ℝ}
    (hfirst : ∀ i, 0 ≤ i → i ≤ N.n 0 → x i = 0 ∧ x (N.shape 0 * N.shape 1 + i) = 0)
    (hcr : ∀ eu < (B 0).r.toNat, ∀ ev < (B 1).r.toNat, ∀ qu < (N.degree 0).toNat + 1, ∀ qv < (N.degree 1).toNat + 1,
      Conf.field (B 0) (B 1) (N.degree 0).toNat (N.degree 1).toNat (fun i j => N.P ![i, j] 3) (N.shape 0) 0 ((eu, ev), (qu, qv)) 1 0 x =
        Conf.field (B 0) (B 1) (N.degree 0).toNat (N.degree 1).toNat (fun i j => N.P ![i, j] 3) (N.shape 0) (N.shape 0 * N.shape 1)
          ((eu, ev), (qu, qv)) 0 1 x ∧
      Conf.field (B 0) (B 1) (N.degree 0).toNat (N.degree 1).toNat (fun i j => N.P ![i, j] 3) (N.shape 0) 0 ((eu, ev), (qu, qv)) 0 1 x =
        -Conf.field (B 0) (B 1) (N.degree 0).toNat (N.degree 1).toNat (fun i j => N.P ![i, j] 3) (N.shape 0) (N.shape 0 * N.shape 1)
          ((eu, ev), (qu, qv)) 1 0 x) :
    ∀ j : ℕ, (j : ℤ) ≤ N.n 1 → ∀ i, 0 ≤ i → i ≤ N.n 0 → x (j * N.shape 0 + i) = 0 ∧ x (N.shape 0 * N.shape 1 + (j * N.shape 0 + i)) = 0 := by
  have hdeg : ∀ a, ((N.degree a).toNat : ℤ) = N.degree a := fun a => Int.toNat_of_nonneg (by have := (hN a).one_le; omega)
  have hlen : ∀ a, N.len a - 1 = N.n a + N.degree a + 1 := fun a => by
    show N.len a - 1 = N.n a + (N.len a - 1 - N.n a - 1) + 1
    ring
  set p := (N.degree 0).toNat with hp
  set q := (N.degree 1).toNat with hq
  have hq1 : 1 ≤ q := by have := (hN 1).one_le; omega
  intro j
  induction j using Nat.strong_induction_on with
  | _ j ih =>
  intro hjn
  by_cases hj0 : j = 0
  · subst hj0
    intro i i0 i1
    have := hfirst i i0 i1
    simpa using this
  have v1 := hN 1
  have q0 := hdeg 1
  rw [← hq] at q0
  -- the last knot equal to knot j
  obtain ⟨k, k1, k2, k3, k4⟩ : ∃ k : ℤ, (j : ℤ) ≤ k ∧ k ≤ N.n 1 ∧ N.U 1 k = N.U 1 j ∧ N.U 1 k < N.U 1 (k + 1) := by
    classical
    set F := (Finset.Icc (j : ℤ) (N.n 1)).filter fun k => N.U 1 k = N.U 1 j with hF
    have hne : F.Nonempty := ⟨j, by rw [hF, Finset.mem_filter, Finset.mem_Icc]; exact ⟨⟨le_rfl, hjn⟩, rfl⟩⟩
    have hmem : ∀ k, k ∈ F ↔ ((j : ℤ) ≤ k ∧ k ≤ N.n 1) ∧ N.U 1 k = N.U 1 j := fun k => by
      rw [hF, Finset.mem_filter, Finset.mem_Icc]
    obtain ⟨⟨m1, m2⟩, m3⟩ := (hmem _).1 (F.max'_mem hne)
    refine ⟨F.max' hne, m1, m2, m3, ?_⟩
    rcases lt_or_eq_of_le m2 with hlt | heq
    · refine lt_of_le_of_ne (v1.sorted _ _ (by omega) (by omega) (by have := v1.one_le; omega)) fun heq => ?_
      have : F.max' hne + 1 ∈ F := by
        exact (hmem _).2 ⟨⟨by omega, by omega⟩, by rw [← heq, m3]⟩
      have := F.le_max' _ this
      omega
    · rw [heq]; exact v1.last
  have kq : (q : ℤ) ≤ k := by
    by_contra hc
    have hj' : (j : ℤ) ≤ N.degree 1 := by omega
    have e1 : N.U 1 (k + 1) = N.lo 1 := hcl (k + 1) (by omega) (by omega)
    have e2 : N.U 1 j = N.lo 1 := hcl j (by omega) hj'
    rw [k3, e2, e1] at k4
    exact lt_irrefl _ k4
  have kj : k < j + q := by
    by_contra hc
    have := hcont j (by omega) hjn
    have h2 : N.U 1 (j + N.degree 1) ≤ N.U 1 k := v1.sorted _ _ (by omega) (by omega) (by have := v1.one_le; omega)
    rw [k3] at h2
    linarith
  obtain ⟨J0, hJ0⟩ : ∃ J0 : ℕ, (J0 : ℤ) = j - (k - q) := ⟨(j - (k - q)).toNat, by omega⟩
  -- the element
  obtain ⟨l, hl, hm, hr, hW, hE⟩ := (hQ 1).raw heps
  obtain ⟨ev, hev, hle⟩ := List.getElem_of_mem ((hm k).2 ⟨kq, k2, k4⟩)
  have hev' : ev < (B 1).r.toNat := by omega
  obtain ⟨hO1, _, _, hN1⟩ := hE ev hev
  rw [hle] at hO1 hN1
  set Q : ℕ → Polynomial ℝ := fun b => pieceP (N.U 1) k q (k - q + b) with hQdef
  have hR : ∀ b, J0 ≤ b → b ≤ q → ∃ R : Polynomial ℝ, Q b = (Polynomial.X - Polynomial.C (N.U 1 k)) ^ b * R ∧ 0 < R.eval (N.U 1 k) := by
    intro b hb hbq
    have := pieceP_order k4 q (q - b) (by omega) (fun i i1 i2 => by
      refine le_antisymm (v1.sorted _ _ (by omega) i2 (by have := v1.one_le; omega)) ?_
      rw [k3]
      exact v1.sorted _ _ (by omega) (by omega) (by have := v1.one_le; omega)) (fun i i1 i2 => v1.sorted _ _ (by omega) i1 (by omega))
    obtain ⟨R, e, hpos⟩ := this
    refine ⟨R, ?_, hpos⟩
    rw [hQdef]
    dsimp only
    rw [show k - (q : ℤ) + b = k - ((q - b : ℕ) : ℤ) by omega, e, show q - (q - b) = b by omega]
  choose! R hR1 hR2 using hR
  have hjJ : (j : ℤ) = k - q + J0 := by omega
  -- all columns
  have hcol : ∀ eu < (B 0).r.toNat, ∀ qu < p + 1,
      ∑ a ∈ Finset.range (p + 1), x (j * N.shape 0 + ((B 0).O eu + a)) * (B 0).N eu qu a (0 : ℕ) = 0 ∧
      ∑ a ∈ Finset.range (p + 1), x (N.shape 0 * N.shape 1 + (j * N.shape 0 + ((B 0).O eu + a))) * (B 0).N eu qu a (0 : ℕ) = 0 := by
    intro eu heu qu hqu
    obtain ⟨k0, c1, c2, c3, hO0, _, _, _, _, _⟩ := (hQ 0).inside heps heu hqu
    set P : ℕ → Polynomial ℝ := fun a => pieceP (N.U 0) k0 p (k0 - p + a) with hPdef
    have hN0 : ∀ g, g < p + 1 → ∀ (a l : ℕ), a ≤ p → l ≤ p → (B 0).N eu g a l = (Polynomial.derivative^[l] (P a)).eval ((B 0).X eu g) := by
      intro g hg a l ha hl
      obtain ⟨k0', _, _, _, hO0', _, _, _, _, hN⟩ := (hQ 0).inside heps heu hg
      obtain rfl : k0' = k0 := by omega
      exact hN a l ha hl
    set a : ℕ → ℕ → ℝ := fun i b => x ((k - q + b) * N.shape 0 + ((B 0).O eu + i)) with ha
    set b : ℕ → ℕ → ℝ := fun i b => x (N.shape 0 * N.shape 1 + ((k - q + b) * N.shape 0 + ((B 0).O eu + i))) with hb
    have o0 := conf_O heps (hQ 0) eu heu
    have hza : ∀ i, i ∈ Finset.range (p + 1) → ∀ b' < J0, a i b' = 0 ∧ b i b' = 0 := by
      intro i hi b' hb'
      have hi := Finset.mem_range.1 hi
      have := ih (k - q + b').toNat (by omega) (by omega) ((B 0).O eu + i) (by omega) (by omega)
      rw [show (((k - q + b').toNat : ℕ) : ℤ) = k - q + b' by omega] at this
      exact this
    have hfield : ∀ (jj : Fin 2) (sh : ℤ) (g h : ℕ), g < p + 1 → h < q + 1 →
        Conf.field (B 0) (B 1) p q (fun i j => N.P ![i, j] 3) (N.shape 0) sh ((eu, ev), (g, h)) (if jj = 0 then 1 else 0) (if jj = 0 then 0 else 1) x =
        ∑ i ∈ Finset.range (p + 1), ∑ b' ∈ Finset.range (q + 1), x (sh + ((k - q + b') * N.shape 0 + ((B 0).O eu + i))) *
          ((Polynomial.derivative^[if jj = 0 then 1 else 0] (P i)).eval ((B 0).X eu g) *
            (Polynomial.derivative^[if jj = 0 then 0 else 1] (Q b')).eval ((B 1).X ev h)) := by
      intro jj sh g h hg hh
      unfold Conf.field
      rw [Finset.sum_product]
      refine Finset.sum_congr rfl fun i hi => Finset.sum_congr rfl fun b' hb' => ?_
      have hi := Finset.mem_range.1 hi
      have hb' := Finset.mem_range.1 hb'
      dsimp only
      rw [conf_dR_const heps hN hw0 hw hQ heu hev' hg hh jj hi hb', hN0 g hg i _ (by omega) (by have := (hN 0).one_le; split_ifs <;> omega),
        hN1 h b' _ (by omega) (by split_ifs <;> omega)]
      unfold Conf.ind
      rw [hO1]
    have hX0 := (hQ 0).X_inj heps heu
    have hX1 := (hQ 1).X_inj heps hev'
    -- zero outside the range of the sums
    set a' : ℕ → ℕ → ℝ := fun i b' => if i < p + 1 then a i b' else 0 with ha'
    set b'' : ℕ → ℕ → ℝ := fun i b' => if i < p + 1 then b i b' else 0 with hb''
    have e1 : ∀ (f : ℕ → ℕ → ℝ) (c : ℕ → ℕ → ℝ), ∑ i ∈ Finset.range (p + 1), ∑ b' ∈ Finset.range (q + 1), (if i < p + 1 then c i b' else 0) * f i b' =
        ∑ i ∈ Finset.range (p + 1), ∑ b' ∈ Finset.range (q + 1), c i b' * f i b' := fun f c =>
      Finset.sum_congr rfl fun i hi => Finset.sum_congr rfl fun b' _ => by rw [if_pos (Finset.mem_range.1 hi)]
    have hza' : ∀ i, ∀ b' < J0, a' i b' = 0 := fun i b' hb' => by
      rw [ha']; dsimp only; split_ifs with hi
      · exact (hza i (Finset.mem_range.2 hi) b' hb').1
      · rfl
    have hzb' : ∀ i, ∀ b' < J0, b'' i b' = 0 := fun i b' hb' => by
      rw [hb'']; dsimp only; split_ifs with hi
      · exact (hza i (Finset.mem_range.2 hi) b' hb').2
      · rfl
    have r1 := cell_row (p := p) (q := q) (J0 := J0) (t := N.U 1 k) (P := P) (Q := Q) (R := R) (by omega) (by omega)
      (fun i => natDegree_pieceP _ _ _ _) (fun i => natDegree_pieceP _ _ _ _) hR1 (hR2 J0 le_rfl (by omega)).ne' hX0 hX1 hza' hzb'
      (fun g h => by
        have := (hfield 0 0 g h g.2 h.2).symm.trans ((hcr eu heu ev hev' g g.2 h h.2).1.trans (hfield 1 _ g h g.2 h.2))
        simp only [zero_add] at this
        rw [ha', hb'', e1, e1]
        exact this)
    have r2 := cell_row (p := p) (q := q) (J0 := J0) (t := N.U 1 k) (P := P) (Q := Q) (R := R) (by omega) (by omega)
      (fun i => natDegree_pieceP _ _ _ _) (fun i => natDegree_pieceP _ _ _ _) hR1 (hR2 J0 le_rfl (by omega)).ne' hX0 hX1
      (a := fun i b' => -b'' i b') (b := a') (fun i b' hb' => by rw [hzb' i b' hb', neg_zero]) hza'
      (fun g h => by
        have := (hfield 1 0 g h g.2 h.2).symm.trans ((hcr eu heu ev hev' g g.2 h h.2).2.trans (congrArg Neg.neg (hfield 0 _ g h g.2 h.2)))
        simp only [zero_add] at this
        simp only [neg_mul, Finset.sum_neg_distrib]
        rw [ha', hb'', e1, e1]
        exact this.symm)
    have fin : ∀ c : ℕ → ℕ → ℝ, (∀ y, ∑ i ∈ Finset.range (p + 1), (if i < p + 1 then c i J0 else 0) * (P i).eval y = 0) →
        ∑ i ∈ Finset.range (p + 1), c i J0 * (B 0).N eu qu i (0 : ℕ) = 0 := by
      intro c hc
      rw [← hc ((B 0).X eu qu)]
      refine Finset.sum_congr rfl fun i hi => ?_
      have hi := Finset.mem_range.1 hi
      rw [if_pos hi, hN0 qu hqu i 0 (by omega) (Nat.zero_le _)]
      rfl
    have f1 := fin a r2
    have f2 := fin b r1
    rw [ha] at f1
    rw [hb] at f2
    dsimp only at f1 f2
    rw [← hjJ] at f1 f2
    exact ⟨f1, f2⟩
  have v0 := hN 0
  have hglob : ∀ c : ℤ → ℝ, (∀ eu < (B 0).r.toNat, ∀ qu < p + 1, ∑ a ∈ Finset.range (p + 1), c ((B 0).O eu + a) * (B 0).N eu qu a (0 : ℕ) = 0) →
      ∀ i, 0 ≤ i → i ≤ N.n 0 → c i = 0 := by
    intro c hc i i0 i1
    refine (hQ 0).inj heps (by omega) (fun y y1 y2 => ?_) c (fun e he g hg => ?_) i i0 i1
    · have := hmult y (by rw [hdeg] at y1; exact y1) (by rw [Nrb.hi_eq]; exact y2)
      rw [hlen] at this
      rw [hdeg]
      omega
    · rw [← hc e he g hg]
      unfold glob
      have o0 := conf_O heps (hQ 0) e he
      rw [Finset.sum_congr rfl fun i _ => Finset.mul_sum _ _ _, Finset.sum_comm]
      refine Finset.sum_congr rfl fun a ha => ?_
      have ha := Finset.mem_range.1 ha
      rw [Finset.sum_eq_single ((B 0).O e + a)]
      · rw [if_pos rfl]
      · intro i _ hi
        rw [if_neg (fun h => hi h.symm), mul_zero]
      · intro hn
        exact absurd (Finset.mem_Icc.2 ⟨by omega, by omega⟩) hn
  intro i i0 i1
  exact ⟨hglob (fun i => x (j * N.shape 0 + i)) (fun eu heu qu hqu => (hcol eu heu qu hqu).1) i i0 i1,
    hglob (fun i => x (N.shape 0 * N.shape 1 + (j * N.shape 0 + i))) (fun eu heu qu hqu => (hcol eu heu qu hqu).2) i i0 i1⟩

/-- a vector with energy zero and without values on the sides is zero -/
theorem conf_definite {eps : ℝ} (heps : 0 ≤ eps) {N : Nrb ℝ 2} (hN : N.Valid) {w : ℝ} (hw0 : 0 < w)
    (hw : ∀ idx, N.InNet idx → N.P idx 3 = w) {B : Fin 2 → QuadData ℝ}
    (hQ : ∀ a, IsQuad eps (N.n a) (N.degree a).toNat (N.U a) (N.degree a).toNat ((N.degree a).toNat + 1) (B a))
    (hmult : ∀ x, N.lo 0 < x → x < N.hi 0 → (mult (N.U 0) 0 (N.len 0 - 1) x : ℤ) ≤ N.degree 0 + 1)
    (hcl : ∀ j, 1 ≤ j → j ≤ N.degree 1 → N.U 1 j = N.lo 1)
    (hcont : ∀ j, 1 ≤ j → j ≤ N.n 1 → N.U 1 j < N.U 1 (j + N.degree 1)) {x : ℤ → ℝ}
    (hfirst : ∀ i, 0 ≤ i → i ≤ N.n 0 → x i = 0 ∧ x (N.shape 0 * N.shape 1 + i) = 0)
    (hx : bform (Finset.Ico 0 (2 * (N.shape 0 * N.shape 1))) (Conf.matrix (B 0) (B 1) (N.degree 0).toNat (N.degree 1).toNat
      (fun i j => N.P ![i, j] 3) (N.shape 0) (N.shape 0 * N.shape 1)) x x ≤ 0) :
    ∀ r ∈ Finset.Ico 0 (2 * (N.shape 0 * N.shape 1)), x r = 0 := by
  have hs : ∀ a, N.n a + 1 = N.shape a := fun a => by unfold Nrb.n; ring
  have hpos : ∀ a, 0 < N.shape a := fun a => by have := (hN a).one_le; have := (hN a).le; have := hs a; omega
  have hnn : ∀ t ∈ (Finset.range (B 0).r.toNat ×ˢ Finset.range (B 1).r.toNat) ×ˢ
      (Finset.range ((N.degree 0).toNat + 1) ×ˢ Finset.range ((N.degree 1).toNat + 1)),
      0 < (B 0).J (t.1.1 : ℕ) * (B 0).J (t.1.1 : ℕ) * (B 0).W (t.2.1 : ℕ) * (B 1).W (t.2.2 : ℕ) := by
    intro t ht
    obtain ⟨ht1, ht2⟩ := Finset.mem_product.1 ht
    obtain ⟨a1, a2⟩ := Finset.mem_product.1 ht1
    obtain ⟨a3, a4⟩ := Finset.mem_product.1 ht2
    obtain ⟨k, _, _, k3, _, hJ, w1, _⟩ := (hQ 0).inside heps (Finset.mem_range.1 a1) (Finset.mem_range.1 a3)
    obtain ⟨_, _, _, _, _, _, w2, _⟩ := (hQ 1).inside heps (Finset.mem_range.1 a2) (Finset.mem_range.1 a4)
    positivity
  rw [conf_form _ _ _ _ _ _ _ (conf_hI heps hQ)] at hx
  have hz := (Finset.sum_eq_zero_iff_of_nonneg fun t ht =>
    mul_nonneg (add_nonneg (mul_self_nonneg _) (mul_self_nonneg _)) (hnn t ht).le).1 (le_antisymm hx (Finset.sum_nonneg fun t ht =>
    mul_nonneg (add_nonneg (mul_self_nonneg _) (mul_self_nonneg _)) (hnn t ht).le))
  have hreg := conf_regular heps hN hw0 hw hQ hmult hcl hcont hfirst fun eu heu ev hev qu hqu qv hqv => by
    have ht : ((eu, ev), (qu, qv)) ∈ (Finset.range (B 0).r.toNat ×ˢ Finset.range (B 1).r.toNat) ×ˢ
      (Finset.range ((N.degree 0).toNat + 1) ×ˢ Finset.range ((N.degree 1).toNat + 1)) := by
      simp only [Finset.mem_product, Finset.mem_range]
      exact ⟨⟨heu, hev⟩, hqu, hqv⟩
    have h1 := (mul_eq_zero.1 (hz _ ht)).resolve_right (hnn _ ht).ne'
    have a1 := mul_self_eq_zero.1 (le_antisymm (by nlinarith [mul_self_nonneg (Conf.field (B 0) (B 1) (N.degree 0).toNat (N.degree 1).toNat
      (fun i j => N.P ![i, j] 3) (N.shape 0) 0 ((eu, ev), (qu, qv)) 0 1 x + Conf.field (B 0) (B 1) (N.degree 0).toNat (N.degree 1).toNat
      (fun i j => N.P ![i, j] 3) (N.shape 0) (N.shape 0 * N.shape 1) ((eu, ev), (qu, qv)) 1 0 x)]) (mul_self_nonneg
      (Conf.field (B 0) (B 1) (N.degree 0).toNat (N.degree 1).toNat (fun i j => N.P ![i, j] 3) (N.shape 0) 0 ((eu, ev), (qu, qv)) 1 0 x -
        Conf.field (B 0) (B 1) (N.degree 0).toNat (N.degree 1).toNat (fun i j => N.P ![i, j] 3) (N.shape 0) (N.shape 0 * N.shape 1)
          ((eu, ev), (qu, qv)) 0 1 x)))
    rw [a1, zero_mul, zero_add] at h1
    have a2 := mul_self_eq_zero.1 h1
    exact ⟨sub_eq_zero.1 a1, by linarith⟩
  intro r hr
  obtain ⟨i, j, c, i0, i1, j0, j1, hc, rfl⟩ := num_surj (hpos 0) (hpos 1) hr
  have := hreg j.toNat (by have := hs 1; omega) i i0 (by have := hs 0; omega)
  rw [Int.toNat_of_nonneg j0] at this
  have hc' : c = 0 ∨ c = 1 := by omega
  rcases hc' with rfl | rfl
  · simpa using this.1
  · have h2 := this.2
    rw [← add_assoc] at h2
    simpa using h2

/-- C94: with equal weights the system is regular and the function returns a surface.  Direction 1 starts with a full knot and is
continuous, direction 0 has interior knots at most as often as the degree plus one; every clamped continuous surface is of this kind. -/
theorem C94_solvable {eps : ℝ} (heps : 0 ≤ eps) (jo : Fin 2 → ℤ → ℤ) (jk : Fin 2 → ℤ → ℝ) (j2 ja jd : Fin 2 → ℤ → ℤ → ℝ)
    {N : Nrb ℝ 2} (hN : N.Valid) (hp : ∀ a, N.degree a ≤ 9) {w : ℝ} (hw0 : 0 < w) (hw : ∀ idx, N.InNet idx → N.P idx 3 = w)
    (hsep : ∀ a k, N.degree a ≤ k → k ≤ N.n a → N.U a k < N.U a (k + 1) → eps < N.U a (k + 1) - N.U a k)
    (hmult : ∀ x, N.lo 0 < x → x < N.hi 0 → (mult (N.U 0) 0 (N.len 0 - 1) x : ℤ) ≤ N.degree 0 + 1)
    (hcl : ∀ j, 1 ≤ j → j ≤ N.degree 1 → N.U 1 j = N.lo 1)
    (hcont : ∀ j, 1 ≤ j → j ≤ N.n 1 → N.U 1 j < N.U 1 (j + N.degree 1)) :
    ∃ S, quasiConformalProjection eps jo jk j2 ja jd N = .ok S := by
  obtain ⟨B, hB, hQ⟩ := conf_data heps jo jk j2 ja jd hN hp hsep
  obtain ⟨hsub, hmem, MF, hel, hres⟩ := quasi_core heps hN hB _ rfl
  have hs : ∀ a, N.n a + 1 = N.shape a := fun a => by unfold Nrb.n; ring
  have hpos : ∀ a, 0 < N.shape a := fun a => by have := (hN a).one_le; have := (hN a).le; have := hs a; omega
  have hcast : (((2 * (N.shape 0 * N.shape 1)).toNat : ℕ) : ℤ) = 2 * (N.shape 0 * N.shape 1) :=
    Int.toNat_of_nonneg (by have := mul_pos (hpos 0) (hpos 1); omega)
  obtain ⟨x, hx⟩ := linalgSolve_ok (n := (2 * (N.shape 0 * N.shape 1)).toNat) (M := MF.1) MF.2 fun x hx => by
    rw [hcast] at hx ⊢
    obtain ⟨e1, e2⟩ := elim_rows (G := fun _ => 0) (MF := (MF.1, fun _ => 0)) hsub ⟨hel.1, fun r => by simp⟩ hx
    refine conf_definite heps hN hw0 hw hQ hmult hcl hcont (fun i i0 i1 => ?_) ?_
    · have h0 := hs 0
      have m0 := e1 _ ((hmem i 0 0 i0 (by omega) le_rfl (hpos 1) (by norm_num)).2 (by omega))
      have m1 := e1 _ ((hmem i 0 1 i0 (by omega) le_rfl (hpos 1) (by norm_num)).2 (by omega))
      exact ⟨by simpa using m0, by simpa using m1⟩
    · rw [bform_rows]
      refine le_of_eq (Finset.sum_eq_zero fun r hr => ?_)
      by_cases hT : r ∈ ((Conf.sides (N.shape 0).toNat (N.shape 1).toNat).map fun t : ℕ × ℕ × ℕ =>
          (t.2.2 : ℤ) * (N.shape 0 * N.shape 1) + t.2.1 * N.shape 0 + t.1).toFinset
      · rw [e1 r hT, zero_mul]
      · rw [e2 r hr hT, mul_zero]
  rw [hres, hx]
  exact ⟨_, rfl⟩

/-- C94: the surface of least error is unique: another surface with the same knots, weights and boundary control points and an error not
larger has the same first two coordinates -/
theorem C94_unique {eps : ℝ} (heps : 0 ≤ eps) {jo : Fin 2 → ℤ → ℤ} {jk : Fin 2 → ℤ → ℝ} {j2 ja jd : Fin 2 → ℤ → ℤ → ℝ}
    {N : Nrb ℝ 2} (hN : N.Valid) (hp : ∀ a, N.degree a ≤ 9) {w : ℝ} (hw0 : 0 < w) (hw : ∀ idx, N.InNet idx → N.P idx 3 = w)
    (hsep : ∀ a k, N.degree a ≤ k → k ≤ N.n a → N.U a k < N.U a (k + 1) → eps < N.U a (k + 1) - N.U a k)
    (hmult : ∀ x, N.lo 0 < x → x < N.hi 0 → (mult (N.U 0) 0 (N.len 0 - 1) x : ℤ) ≤ N.degree 0 + 1)
    (hcl : ∀ j, 1 ≤ j → j ≤ N.degree 1 → N.U 1 j = N.lo 1)
    (hcont : ∀ j, 1 ≤ j → j ≤ N.n 1 → N.U 1 j < N.U 1 (j + N.degree 1)) {S N' : Nrb ℝ 2}
    (h : quasiConformalProjection eps jo jk j2 ja jd N = .ok S) (hF : SameFrame N N')
    {jo1 jo2 : Fin 2 → ℤ → ℤ} {jk1 jk2 : Fin 2 → ℤ → ℝ} {j21 j22 ja1 ja2 jd1 jd2 : Fin 2 → ℤ → ℤ → ℝ} {r r' : ℝ}
    (hr : conformalProjectionError eps jo1 jk1 j21 ja1 jd1 S = .ok r) (hr' : conformalProjectionError eps jo2 jk2 j22 ja2 jd2 N' = .ok r')
    (hle : r' ≤ r) : ∀ idx, N.InNet idx → ∀ c < 2, N'.P idx c = S.P idx c := by
  obtain ⟨B, hB, hQ⟩ := conf_data heps jo jk j2 ja jd hN hp hsep
  obtain ⟨hSF, _, _, hmin⟩ := C94_minimal heps hN hp (fun idx hi => by rw [hw idx hi]; exact hw0) hsep h
  have hs : ∀ a, N.n a + 1 = N.shape a := fun a => by unfold Nrb.n; ring
  have hpos : ∀ a, 0 < N.shape a := fun a => by have := (hN a).one_le; have := (hN a).le; have := hs a; omega
  set I := Finset.Ico 0 (2 * (N.shape 0 * N.shape 1)) with hI
  set A := Conf.matrix (B 0) (B 1) (N.degree 0).toNat (N.degree 1).toNat (fun i j => N.P ![i, j] 3) (N.shape 0) (N.shape 0 * N.shape 1) with hA
  set x := Conf.vec (fun i j c => S.P ![i, j] c) (N.shape 0) (N.shape 0 * N.shape 1) with hx
  set v := Conf.vec (fun i j c => N'.P ![i, j] c) (N.shape 0) (N.shape 0 * N.shape 1) with hv
  have hxv : ∀ i j (c : ℕ), 0 ≤ i → i < N.shape 0 → 0 ≤ j → j < N.shape 1 → c < 2 →
      x (c * (N.shape 0 * N.shape 1) + j * N.shape 0 + i) = S.P ![i, j] c := fun i j c i0 i1 j0 j1 _ => vec_num _ i0 i1 j0 j1 c
  have hvv : ∀ i j (c : ℕ), 0 ≤ i → i < N.shape 0 → 0 ≤ j → j < N.shape 1 → c < 2 →
      v (c * (N.shape 0 * N.shape 1) + j * N.shape 0 + i) = N'.P ![i, j] c := fun i j c i0 i1 j0 j1 _ => vec_num _ i0 i1 j0 j1 c
  -- the surface halfway
  set H : Nrb ℝ 2 := { S with P := fun idx c => if c < 2 then (S.P idx c + N'.P idx c) / 2 else S.P idx c } with hH
  have hHF : SameFrame N H := by
    refine ⟨hSF.shape, hSF.len, hSF.U, fun idx hi => ?_, fun idx hi hb c hc => ?_⟩
    · rw [hH]
      dsimp only
      rw [if_neg (by norm_num)]
      exact hSF.weights idx hi
    · show (if c < 2 then (S.P idx c + N'.P idx c) / 2 else S.P idx c) = _
      rw [if_pos hc, hSF.sides idx hi hb c hc, hF.sides idx hi hb c hc]
      ring
  have hHv : ∀ i j (c : ℕ), 0 ≤ i → i < N.shape 0 → 0 ≤ j → j < N.shape 1 → c < 2 →
      (fun r : ℤ => (x r + v r) / 2) (c * (N.shape 0 * N.shape 1) + j * N.shape 0 + i) = H.P ![i, j] c := by
    intro i j c i0 i1 j0 j1 hc
    dsimp only
    rw [hxv i j c i0 i1 j0 j1 hc, hvv i j c i0 i1 j0 j1 hc]
    show _ = if c < 2 then (S.P ![i, j] c + N'.P ![i, j] c) / 2 else S.P ![i, j] c
    rw [if_pos hc]
  have c1 := conf_value heps jo1 jk1 j21 ja1 jd1 hN hp hsep hQ hSF hxv
  have c2 := conf_value heps jo2 jk2 j22 ja2 jd2 hN hp hsep hQ hF hvv
  have c3 := conf_value heps jo jk j2 ja jd hN hp hsep hQ hHF (v := fun r => (x r + v r) / 2) hHv
  rw [hr] at c1
  rw [hr'] at c2
  have c1 := Except.ok.inj c1
  have c2 := Except.ok.inj c2
  obtain ⟨r1, r2, d1, d2, d3⟩ := hmin H hHF jo1 jo jk1 jk j21 j2 ja1 ja jd1 jd
  rw [hr] at d1
  rw [c3] at d2
  obtain rfl := Except.ok.inj d1
  rw [← Except.ok.inj d2] at d3
  have hnn : ∀ y, 0 ≤ bform I A y y := by
    intro y
    rw [hA, conf_form _ _ _ _ _ _ _ (conf_hI heps hQ)]
    refine Finset.sum_nonneg fun t ht => mul_nonneg (add_nonneg (mul_self_nonneg _) (mul_self_nonneg _)) ?_
    obtain ⟨ht1, ht2⟩ := Finset.mem_product.1 ht
    obtain ⟨a1, a2⟩ := Finset.mem_product.1 ht1
    obtain ⟨a3, a4⟩ := Finset.mem_product.1 ht2
    obtain ⟨_, _, _, _, _, _, w1, _⟩ := (hQ 0).inside heps (Finset.mem_range.1 a1) (Finset.mem_range.1 a3)
    obtain ⟨_, _, _, _, _, _, w2, _⟩ := (hQ 1).inside heps (Finset.mem_range.1 a2) (Finset.mem_range.1 a4)
    have := mul_self_nonneg ((B 0).J t.1.1)
    positivity
  have q1 : bform I A x x ≤ bform I A (fun r => (x r + v r) / 2) (fun r => (x r + v r) / 2) := by
    rw [c1] at d3
    exact (Real.sqrt_le_sqrt_iff (hnn _)).1 d3
  have q2 : bform I A v v ≤ bform I A x x := by
    rw [c1, c2] at hle
    exact (Real.sqrt_le_sqrt_iff (hnn _)).1 hle
  have hpar : bform I A (fun r => (x r + v r) / 2) (fun r => (x r + v r) / 2) * 4 + bform I A (fun r => v r - x r) (fun r => v r - x r) =
      2 * bform I A x x + 2 * bform I A v v := by
    unfold bform
    rw [Finset.sum_mul, Finset.mul_sum, Finset.mul_sum, ← Finset.sum_add_distrib, ← Finset.sum_add_distrib]
    refine Finset.sum_congr rfl fun r _ => ?_
    rw [Finset.sum_mul, Finset.mul_sum, Finset.mul_sum, ← Finset.sum_add_distrib, ← Finset.sum_add_distrib]
    exact Finset.sum_congr rfl fun c _ => by ring
  have hz := conf_definite heps hN hw0 hw hQ hmult hcl hcont (x := fun r => v r - x r) (fun i i0 i1 => by
    have h0 := hs 0
    have hb : ∀ c < 2, N'.P ![i, 0] c = S.P ![i, 0] c := fun c hc => by
      have hi : N.InNet ![i, 0] := fun a => by
        fin_cases a
        · exact ⟨i0, by show i < N.shape 0; omega⟩
        · exact ⟨le_rfl, hpos 1⟩
      rw [hF.sides _ hi ⟨1, Or.inl rfl⟩ c hc, hSF.sides _ hi ⟨1, Or.inl rfl⟩ c hc]
    have x0 := hxv i 0 0 i0 (by omega) le_rfl (hpos 1) (by norm_num)
    have x1 := hxv i 0 1 i0 (by omega) le_rfl (hpos 1) (by norm_num)
    have v0 := hvv i 0 0 i0 (by omega) le_rfl (hpos 1) (by norm_num)
    have v1 := hvv i 0 1 i0 (by omega) le_rfl (hpos 1) (by norm_num)
    push_cast at x0 x1 v0 v1
    rw [zero_mul, zero_mul, zero_add, zero_add] at x0 v0
    rw [zero_mul, one_mul, add_zero] at x1 v1
    rw [x0, v0, x1, v1, hb 0 (by norm_num), hb 1 (by norm_num), sub_self, sub_self]
    exact ⟨rfl, rfl⟩) (by show bform I A _ _ ≤ 0; linarith)
  intro idx hi c hc
  have hidx : ![idx 0, idx 1] = idx := by funext a; fin_cases a <;> rfl
  have := hz _ (num_range (hi 0).1 (hi 0).2 (hi 1).1 (hi 1).2 hc)
  rw [hxv _ _ _ (hi 0).1 (hi 0).2 (hi 1).1 (hi 1).2 hc, hvv _ _ _ (hi 0).1 (hi 0).2 (hi 1).1 (hi 1).2 hc, hidx] at this
  linarith

/-! ## Example: the bent surface, degree 2, knots 0 0 0 1 2 2 3 3 3 in both directions -/

namespace Ex

theorem bent_sep (a : Fin 2) (k : ℤ) (k1 : bent.degree a ≤ k) (k2 : k ≤ bent.n a) (k3 : bent.U a k < bent.U a (k + 1)) :
    (1 : ℝ) / 10 ^ 16 < bent.U a (k + 1) - bent.U a k := by
  rw [bent_degree] at k1
  rw [bent_n] at k2
  rw [bent_U] at k3 ⊢
  exact lt_of_lt_of_le (by norm_num) (Ex.Ur_long k (by exact_mod_cast k1) k2 k3)

theorem bent_mult (x : ℝ) (h0 : bent.lo 0 < x) (h1 : x < bent.hi 0) : (mult (bent.U 0) 0 (bent.len 0 - 1) x : ℤ) ≤ bent.degree 0 + 1 := by
  rw [bent_lo] at h0
  rw [bent_hi] at h1
  rw [bent_degree, bent_U]
  have : mult Ex.Ur 0 (bent.len 0 - 1) x ≤ (Finset.Icc (3 : ℤ) 5).card := by
    unfold mult
    refine Finset.card_le_card fun i hi => ?_
    obtain ⟨hi1, hi2⟩ := Finset.mem_filter.1 hi
    obtain ⟨i0, i1⟩ := Finset.mem_Icc.1 hi1
    have i1 : i ≤ 8 := i1
    rw [Finset.mem_Icc]
    constructor
    · by_contra hc
      have : Ex.Ur i ≤ Ex.Ur 2 := Ex.Ur_valid.sorted i 2 (by omega) (by omega) (by norm_num)
      rw [Ur_lo] at this
      linarith
    · by_contra hc
      have : Ex.Ur (5 + 1) ≤ Ex.Ur i := Ex.Ur_valid.sorted (5 + 1) i (by omega) (by omega) (by push_cast; omega)
      rw [Ur_hi] at this
      linarith
  have h3 : (Finset.Icc (3 : ℤ) 5).card = 3 := by decide
  omega

theorem bent_first (j : ℤ) (h1 : 1 ≤ j) (h2 : j ≤ bent.degree 1) : bent.U 1 j = bent.lo 1 := by
  rw [bent_degree] at h2
  rw [bent_lo, bent_U]
  unfold Ex.Ur
  have : Ex.U j = 0 := by
    have hj : j = 1 ∨ j = 2 := by omega
    rcases hj with rfl | rfl <;> decide +kernel
  exact_mod_cast this

theorem bent_cont (j : ℤ) (h1 : 1 ≤ j) (h2 : j ≤ bent.n 1) : bent.U 1 j < bent.U 1 (j + bent.degree 1) := by
  rw [bent_n] at h2
  rw [bent_degree, bent_U]
  unfold Ex.Ur
  have : Ex.U j < Ex.U (j + 2) := by
    have hj : j = 1 ∨ j = 2 ∨ j = 3 ∨ j = 4 ∨ j = 5 := by omega
    rcases hj with rfl | rfl | rfl | rfl | rfl <;> decide +kernel
  exact_mod_cast this

end Ex

/-- the projection of the bent surface exists and its error is at most that of the bent surface -/
example (jo : Fin 2 → ℤ → ℤ) (jk : Fin 2 → ℤ → ℝ) (j2 ja jd : Fin 2 → ℤ → ℤ → ℝ) :
    ∃ S, quasiConformalProjection (1 / 10 ^ 16) jo jk j2 ja jd Ex.bent = .ok S ∧
      ∃ r r', conformalProjectionError (1 / 10 ^ 16) jo jk j2 ja jd S = .ok r ∧
        conformalProjectionError (1 / 10 ^ 16) jo jk j2 ja jd Ex.bent = .ok r' ∧ r ≤ r' ∧
          (r' ≤ r → ∀ idx, Ex.bent.InNet idx → ∀ c < 2, Ex.bent.P idx c = S.P idx c) := by
  have hdeg : ∀ a, Ex.bent.degree a ≤ 9 := fun a => by rw [Ex.bent_degree]; norm_num
  have hw : ∀ idx, Ex.bent.InNet idx → Ex.bent.P idx 3 = 1 := fun _ _ => rfl
  have hF : SameFrame Ex.bent Ex.bent := ⟨rfl, rfl, rfl, fun _ _ => rfl, fun _ _ _ _ _ => rfl⟩
  obtain ⟨S, hS⟩ := C94_solvable (eps := 1 / 10 ^ 16) (by norm_num) jo jk j2 ja jd Ex.bent_valid hdeg one_pos hw Ex.bent_sep Ex.bent_mult
    Ex.bent_first Ex.bent_cont
  obtain ⟨_, _, _, hmin⟩ := C94_minimal (eps := 1 / 10 ^ 16) (by norm_num) Ex.bent_valid hdeg
    (fun idx hi => by rw [hw idx hi]; norm_num) Ex.bent_sep hS
  obtain ⟨r, r', e1, e2, e3⟩ := hmin Ex.bent hF jo jo jk jk j2 j2 ja ja jd jd
  exact ⟨S, hS, r, r', e1, e2, e3, fun h => C94_unique (eps := 1 / 10 ^ 16) (by norm_num) Ex.bent_valid hdeg one_pos hw Ex.bent_sep
    Ex.bent_mult Ex.bent_first Ex.bent_cont hS hF e1 e2 h⟩

end Igakit
