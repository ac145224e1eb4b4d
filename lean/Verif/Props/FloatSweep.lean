import Verif.Model.FloatSweep
import Verif.Props.FloatArc
import Verif.Props.Cad

/-!
# Property C108: `extrude` and `sweep` in floating point
-/

set_option linter.unusedSectionVars false

namespace Igakit
open Spec Transform

variable {d : ℕ}

theorem inNet_of {N : Nrb ℝ d} {idx : Fin d → ℤ} (h : ∀ a, 0 ≤ idx a ∧ idx a ≤ N.n a) : N.InNet idx := by
  intro a
  have := h a
  unfold Nrb.n at this
  omega

/-- near objects, evaluated in floating point -/
theorem near_call {rd : ℝ → ℝ} {δ : ℝ} (h0 : 0 ≤ δ) (hδ : δ < 1) (hr : RelErr δ rd) (jk : ℤ → Fp ℝ) (je : ℤ → ℕ → Fp ℝ)
    {E R : Nrb ℝ d} (hd : d ≤ 3) (hs : R.shape = E.shape) (hl : R.len = E.len) (hU : R.U = E.U) (hv : E.Valid)
    (hw : ∀ idx, E.InNet idx → 0 < E.P idx 3) {k n : ℕ} {B : Fin 3 → ℝ}
    (hc : ∀ idx, E.InNet idx → ∀ c : Fin 3, Carried δ k (R.P idx c) (E.P idx c) (B c * E.P idx 3))
    (h3 : ∀ idx, E.InNet idx → 0 < R.P idx 3 ∧ Within δ n (R.P idx 3) (E.P idx 3)) {r : Fin d → ℤ} {X : Fin d → ℤ → ℝ}
    (hn : ∀ a, 0 ≤ r a) (hx : ∀ a i, 0 ≤ i → i ≤ r a → E.lo a ≤ X a i ∧ X a i ≤ E.hi a) {m : ℕ}
    (hm : m = 6 * (∑ a, (E.degree a).toNat) + d + ∏ a, ((E.degree a).toNat + 1)) :
    ∃ C, R.callF rd jk je r X = .ok C ∧ ∀ g : Fin d → ℤ, (∀ a, 0 ≤ g a ∧ g a ≤ r a) → ∀ c : Fin 3, ∃ y, (C g).1 c = some y ∧
      |y - E.point (fun a => X a (g a)) c| ≤ (growth δ ^ (2 * m + 1 + (k + n)) - 1) * B c := by
  have e1 : R.degree = E.degree := by funext a; unfold Nrb.degree; rw [hs, hl]
  have e2 : R.lo = E.lo := by funext a; unfold Nrb.lo; rw [e1, hU]
  have e3 : R.hi = E.hi := by funext a; unfold Nrb.hi; rw [e1, hU, hl]
  have hvR : R.Valid := by
    intro a
    have := hv a
    unfold Nrb.n at this ⊢
    rw [e1, hU, hs]
    exact this
  have net : ∀ idx, R.InNet idx → E.InNet idx := fun idx hi a => by rw [← hs]; exact hi a
  obtain ⟨C, c1, c2⟩ := C72_call h0 hδ hr jk je hd hvR hn (fun a i i0 i1 => by rw [e2, e3]; exact hx a i i0 i1)
    (fun idx hi => (h3 idx (net idx hi)).1) (m := m) (by rw [e1]; exact hm)
  refine ⟨C, c1, fun g hg c => ?_⟩
  have hsz : ∀ idx, R.InNet idx → |R.P idx c / R.P idx 3| ≤ growth δ ^ (k + n) * B c := by
    intro idx hi
    have p := hw idx (net idx hi)
    obtain ⟨p', w'⟩ := h3 idx (net idx hi)
    have := ((hc idx (net idx hi) c).mul h0 hδ (carried_div h0 hδ p' p w' 1)).size
    rw [abs_of_pos (by positivity : 0 < 1 / E.P idx 3), mul_one_div, mul_one_div, mul_div_cancel_right₀ _ p.ne'] at this
    exact this
  obtain ⟨y, y1, y2⟩ := (c2 g hg c _).1 (fun idx hi => hsz idx hi)
  refine ⟨y, y1, ?_⟩
  have hin : E.InDom (fun a => X a (g a)) := fun a => hx a (g a) (hg a).1 (hg a).2
  have q := (proj_near h0 hδ hs hl hU hv hw (fun idx hi => hc idx hi c) h3 hin).err
  have f := abs_sub_le y (R.proj (fun a => X a (g a)) c) (E.proj (fun a => X a (g a)) c)
  show |y - E.proj (fun a => X a (g a)) c| ≤ _
  rw [show (growth δ ^ (2 * m + 1 + (k + n)) - 1) * B c = (growth δ ^ (2 * m + 1) - 1) * (growth δ ^ (k + n) * B c) +
    (growth δ ^ (k + n) - 1) * B c by rw [pow_add]; ring]
  linarith

/-- C108: `extrude(nrb, displ)(u, v)`, built and evaluated in floating point, is `nrb(u) + v*displ` up to `2 m + 11` roundings -/
theorem C108_extrude {rd : ℝ → ℝ} {δ : ℝ} (h0 : 0 ≤ δ) (hδ : δ < 1) (hr : RelErr δ rd) (hone : rd 1 = 1) (jk : ℤ → Fp ℝ)
    (je : ℤ → ℕ → Fp ℝ) {N : Nrb ℝ d} (hv : N.Valid) (hw : ∀ idx, N.InNet idx → 0 < N.P idx 3)
    (hf : ∀ idx, N.InNet idx → rd (N.P idx 3) = N.P idx 3) {B : Fin 3 → ℝ}
    (hB : ∀ idx, N.InNet idx → ∀ c : Fin 3, |N.P idx c / N.P idx 3| ≤ B c) {t : Fin 3 → ℝ} {R : Nrb ℝ (d + 1)}
    (hR : Cad.ExtrudeF rd N t R) {r : Fin (d + 1) → ℤ} {X : Fin (d + 1) → ℤ → ℝ} (hn : ∀ a, 0 ≤ r a)
    (hx : ∀ (a : Fin d) i, 0 ≤ i → i ≤ r a.castSucc → N.lo a ≤ X a.castSucc i ∧ X a.castSucc i ≤ N.hi a)
    (hz : ∀ i, 0 ≤ i → i ≤ r (Fin.last d) → 0 ≤ X (Fin.last d) i ∧ X (Fin.last d) i ≤ 1) {m : ℕ}
    (hm : m = 6 * (∑ a, (N.degree a).toNat + 1) + (d + 1) + (∏ a, ((N.degree a).toNat + 1)) * 2) :
    ∃ C, R.callF rd jk je r X = .ok C ∧ ∀ g : Fin (d + 1) → ℤ, (∀ a, 0 ≤ g a ∧ g a ≤ r a) → ∀ c : Fin 3, ∃ y, (C g).1 c = some y ∧
      |y - (N.point (fun a => X a.castSucc (g a.castSucc)) c + X (Fin.last d) (g (Fin.last d)) * t c)| ≤
        (growth δ ^ (2 * m + 11) - 1) * (B c + |t c|) := by
  obtain ⟨hd, A, L, hA, hL, hRc⟩ := hR
  have hctor : ∀ F, Nrb.ctor (N.knotsWith unitKnots) (.arr (N.netWith 2 4 F)) none none = .ok (N.stack 2 4 uk F) := fun F =>
    ctor_netWith N hd (valid_len hv) (fun a => (hv a).one_le) rfl (fun _ => rfl) (by norm_num) (by norm_num) _
  rw [hctor] at hRc
  obtain rfl := Except.ok.inj hRc
  have hI : IsDispl (.vec [t 0, t 1, t 2]) none t := by
    have := IsDispl.vec [t 0, t 1, t 2] (by simp)
    convert this using 1
    funext i
    fin_cases i <;> rfl
  obtain ⟨E, hE, ext, elo, ehi, hpt⟩ := C35_extrude hd hv hI
  have eE : E = N.stack 2 4 uk (fun idx j c => if j = 0 then N.P idx c else (N.transform (transMat t)).P idx c) := by
    have hT : Transform.translate 1 (.vec [t 0, t 1, t 2]) none = .ok (transMat t) := by
      unfold Transform.translate
      rw [transVec_ok hI, res_ok_bind, compose, mul_one]
      rfl
    unfold Cad.extrude at hE
    rw [pyAssert_ok hd, res_ok_bind, hT, res_ok_bind, hctor] at hE
    exact (Except.ok.inj hE).symm
  have vE : E.Valid := by
    rw [eE]
    exact (stack_extends (m := 2) (l := 4) (V := uk) hv _ (by exact uk_valid)).1
  have inN : ∀ idx, E.InNet idx → N.InNet (Fin.init idx) := by
    intro idx hi a
    rw [eE] at hi
    have := hi a.castSucc
    simp only [Nrb.stack, Fin.snoc_castSucc] at this
    exact this
  have hAaff : IsAffine A := C101_affine hr hone hA (fun M hM => by
    rw [List.mem_singleton.1 hM]
    exact transMat_affine t)
  have hch := C104_chain h0 hδ hr [⟨transMat t, transMat t, Matrix.of fun i j => |transMat t i j|, 0⟩] (fun s hs i j => by
      rw [List.mem_singleton.1 hs]
      exact Carried.exact δ _) hA
  simp only [List.map_cons, List.map_nil, List.prod_cons, List.prod_nil, mul_one, List.sum_cons, List.sum_nil,
    List.length_cons, List.length_nil] at hch
  have trP : ∀ idx (c : Fin 3), (N.transform (transMat t)).P idx c = N.P idx c + t c * N.P idx 3 := by
    intro idx c
    fin_cases c <;> simp [Nrb.transform, transMat, Matrix.one_apply] <;> ring
  have tr3 : ∀ idx, (N.transform (transMat t)).P idx 3 = N.P idx 3 := by
    intro idx
    simp [Nrb.transform, transMat, Matrix.one_apply]
  have wE : ∀ idx, E.P idx 3 = N.P (Fin.init idx) 3 := by
    intro idx
    rw [eE]
    simp only [Nrb.stack]
    split_ifs
    · rfl
    · exact tr3 _
  have hwE : ∀ idx, E.InNet idx → 0 < E.P idx 3 := fun idx hi => by rw [wE]; exact hw _ (inN idx hi)
  have hB' : ∀ idx, N.InNet idx → ∀ c : Fin 3, |N.P idx c| ≤ B c * N.P idx 3 := by
    intro idx hi c
    have := hB idx hi c
    rwa [abs_div, abs_of_pos (hw idx hi), div_le_iff₀ (hw idx hi)] at this
  have row : ∀ idx, N.InNet idx → ∀ c : Fin 3,
      Carried δ 10 (L.P idx c) ((N.transform (transMat t)).P idx c) ((B c + |t c|) * N.P idx 3) := by
    intro idx hi c
    have k := dot_both (a' := fun k => N.P idx k) (b' := fun k => A c.castSucc k) h0 hδ hr (hL.dot idx hi c.castSucc)
      (fun k => Carried.exact δ (N.P idx k)) (fun k => hch c.castSucc k)
    have e1 : (N.transform (transMat t)).P idx c = ∑ k : Fin 4, N.P idx k * transMat t c.castSucc k := by
      rw [trP]
      simp only [Fin.sum_univ_four]
      fin_cases c <;> simp [transMat, Matrix.one_apply] <;> ring
    have e2 : ∑ k : Fin 4, |N.P idx k| * (Matrix.of fun i j => |transMat t i j|) c.castSucc k ≤ (B c + |t c|) * N.P idx 3 := by
      have b := hB' idx hi c
      have w := hw idx hi
      have : ∑ k : Fin 4, |N.P idx k| * (Matrix.of fun i j => |transMat t i j|) c.castSucc k = |N.P idx c| + |t c| * N.P idx 3 := by
        simp only [Fin.sum_univ_four]
        fin_cases c <;> simp [transMat, Matrix.one_apply, abs_of_pos w] <;> ring
      rw [this]
      linarith
    rw [e1]
    exact k.wide h0 hδ e2
  have hnear := near_call h0 hδ hr jk je (E := E) (R := N.stack 2 4 uk (fun idx j c => if j = 0 then N.P idx c else L.P idx c))
    (by omega) (by rw [eE]; rfl) (by rw [eE]; rfl) (by rw [eE]; rfl) vE hwE (k := 10) (n := 0) (B := fun c => B c + |t c|)
    (fun idx hi c => by
      rw [wE, eE]
      simp only [Nrb.stack]
      split_ifs
      · have w := hw _ (inN idx hi)
        refine ((Carried.exact δ _).mono h0 hδ (by norm_num)).wide h0 hδ ((hB' _ (inN idx hi) c).trans ?_)
        exact mul_le_mul_of_nonneg_right (by linarith [abs_nonneg (t c)]) w.le
      · exact row _ (inN idx hi) c) (fun idx hi => by
      have e : (N.stack 2 4 uk (fun idx j c => if j = 0 then N.P idx c else L.P idx c)).P idx 3 = E.P idx 3 := by
        rw [wE]
        simp only [Nrb.stack]
        split_ifs
        · rfl
        · exact C99_weights hr hAaff hL (inN idx hi) (hf _ (inN idx hi))
      rw [e]
      exact ⟨hwE idx hi, by constructor <;> simp⟩) hn (X := X) (fun a => by
      refine Fin.lastCases ?_ (fun b => ?_) a
      · rw [elo, ehi]
        exact hz
      · rw [eE, Nrb.stack_lo_cast, Nrb.stack_hi_cast]
        exact hx b) (m := m) (by
      rw [hm, Fin.sum_univ_castSucc, Fin.prod_univ_castSucc, eE]
      simp only [Nrb.stack_degree_cast, Nrb.stack_degree_last]
      rfl)
  obtain ⟨C, c1, c2⟩ := hnear
  refine ⟨C, c1, fun g hg c => ?_⟩
  obtain ⟨y, y1, y2⟩ := c2 g hg c
  refine ⟨y, y1, ?_⟩
  have hin : E.InDom (fun a => X a (g a)) := by
    intro a
    refine Fin.lastCases ?_ (fun b => ?_) a
    · rw [elo, ehi]
      exact hz _ (hg _).1 (hg _).2
    · rw [eE, Nrb.stack_lo_cast, Nrb.stack_hi_cast]
      exact hx b _ (hg _).1 (hg _).2
  have hin' : N.InDom (Fin.init fun a => X a (g a)) := fun b => hx b _ (hg _).1 (hg _).2
  have p := (hpt _ hin (ne_of_gt (Nrb.eval_pos hv hin' fun idx hi => hw idx (inNet_of hi)))).2
  rw [p] at y2
  exact y2

/-- C108: `sweep(section, trajectory)(u, v)`, built and evaluated in floating point, is `section(u) + trajectory(v)` up to `2 m + 6`
roundings -/
theorem C108_sweep {rd : ℝ → ℝ} {δ : ℝ} (h0 : 0 ≤ δ) (hδ : δ < 1) (hr : RelErr δ rd) (jk : ℤ → Fp ℝ) (je : ℤ → ℕ → Fp ℝ)
    (h1 : 1 ≤ d) (h2 : d ≤ 2) {S : Nrb ℝ d} {T : Nrb ℝ 1} (hS : S.Valid) (hT : T.Valid)
    (hwS : ∀ idx, S.InNet idx → 0 < S.P idx 3) (hwT : ∀ idx, T.InNet idx → 0 < T.P idx 3) {B D : Fin 3 → ℝ}
    (hB : ∀ idx, S.InNet idx → ∀ c : Fin 3, |S.P idx c / S.P idx 3| ≤ B c)
    (hD : ∀ idx, T.InNet idx → ∀ c : Fin 3, |T.P idx c / T.P idx 3| ≤ D c) {r : Fin (d + 1) → ℤ} {X : Fin (d + 1) → ℤ → ℝ}
    (hn : ∀ a, 0 ≤ r a)
    (hx : ∀ (a : Fin d) i, 0 ≤ i → i ≤ r a.castSucc → S.lo a ≤ X a.castSucc i ∧ X a.castSucc i ≤ S.hi a)
    (hz : ∀ i, 0 ≤ i → i ≤ r (Fin.last d) → T.lo 0 ≤ X (Fin.last d) i ∧ X (Fin.last d) i ≤ T.hi 0) {m : ℕ}
    (hm : m = 6 * (∑ a, (S.degree a).toNat + (T.degree 0).toNat) + (d + 1) +
      (∏ a, ((S.degree a).toNat + 1)) * ((T.degree 0).toNat + 1)) :
    ∃ R C, Cad.sweepF rd S T = .ok R ∧ R.callF rd jk je r X = .ok C ∧
      ∀ g : Fin (d + 1) → ℤ, (∀ a, 0 ≤ g a ∧ g a ≤ r a) → ∀ c : Fin 3, ∃ y, (C g).1 c = some y ∧
      |y - (S.point (fun a => X a.castSucc (g a.castSucc)) c + T.point ![X (Fin.last d) (g (Fin.last d))] c)| ≤
        (growth δ ^ (2 * m + 6) - 1) * (B c + D c) := by
  have hdg : T.len 0 - T.shape 0 - 1 = T.degree 0 := by unfold Nrb.degree; ring
  have hR : Cad.sweepF rd S T = .ok (S.stack (T.shape 0) (T.len 0) (T.U 0) (Cad.sweepEntryF rd S T)) := by
    unfold Cad.sweepF
    rw [pyAssert_ok ⟨h1, h2⟩, res_ok_bind]
    exact ctor_netWith S h2 (valid_len hS) (fun a => (hS a).one_le) rfl (fun _ => rfl) (valid_len hT 0)
      (by rw [hdg]; exact (hT 0).one_le) _
  obtain ⟨E, hE, ext, elo, ehi, edeg, -, -, hpt⟩ := C35_sweep h1 h2 hS hT (fun idx hi => (hwS idx (inNet_of hi)).ne')
    (fun idx hi => (hwT idx (inNet_of hi)).ne')
  have eE : E = S.stack (T.shape 0) (T.len 0) (T.U 0) (fun idx j c =>
      if c < 3 then (S.P idx c / S.weights idx + T.P ![j] c / T.weights ![j]) * (S.weights idx * T.weights ![j])
      else if c = 3 then S.weights idx * T.weights ![j] else 0) := by
    unfold Cad.sweep at hE
    rw [pyAssert_ok ⟨h1, h2⟩, res_ok_bind] at hE
    refine (Except.ok.inj (Eq.trans (Eq.symm ?_) hE)).symm
    refine ctor_netPair S h2 (valid_len hS) (fun a => (hS a).one_le) (l := T.len 0) (V := T.U 0) rfl (fun _ => rfl)
      (valid_len hT 0) ?_ _ (fun idx j => S.weights idx * T.weights ![j]) rfl (fun _ => rfl)
    rw [hdg]; exact (hT 0).one_le
  have inS : ∀ idx, E.InNet idx → S.InNet (Fin.init idx) ∧ T.InNet ![idx (Fin.last d)] := by
    intro idx hi
    rw [eE] at hi
    constructor
    · intro a
      have := hi a.castSucc
      simp only [Nrb.stack, Fin.snoc_castSucc] at this
      exact this
    · intro a
      have := hi (Fin.last d)
      simp only [Nrb.stack, Fin.snoc_last] at this
      rw [Subsingleton.elim a 0]
      exact this
  have wE : ∀ idx, E.P idx 3 = S.P (Fin.init idx) 3 * T.P ![idx (Fin.last d)] 3 := by
    intro idx
    rw [eE]
    simp [Nrb.stack, Nrb.weights]
  have hwE : ∀ idx, E.InNet idx → 0 < E.P idx 3 := fun idx hi => by
    rw [wE]
    exact mul_pos (hwS _ (inS idx hi).1) (hwT _ (inS idx hi).2)
  have w3 : ∀ idx, E.InNet idx → Within δ 1 (rd (E.P idx 3)) (E.P idx 3) := fun idx hi =>
    Within.rd h0 hδ hr (k := 0) (hwE idx hi).le (by constructor <;> simp)
  obtain ⟨C, c1, c2⟩ := near_call h0 hδ hr jk je (E := E)
    (R := S.stack (T.shape 0) (T.len 0) (T.U 0) (Cad.sweepEntryF rd S T))
    (by omega) (by rw [eE]; rfl) (by rw [eE]; rfl) (by rw [eE]; rfl) ext.1 hwE (k := 4) (n := 1) (B := fun c => B c + D c)
    (fun idx hi c => by
      obtain ⟨i1, i2⟩ := inS idx hi
      have a1 := (((Carried.exact δ (S.P (Fin.init idx) c / S.P (Fin.init idx) 3)).wide h0 hδ (hB _ i1 c)).rd h0 hδ hr)
      have a2 := (((Carried.exact δ (T.P ![idx (Fin.last d)] c / T.P ![idx (Fin.last d)] 3)).wide h0 hδ (hD _ i2 c)).rd h0 hδ hr)
      have a3 := ((Carried.exact δ (E.P idx 3)).rd h0 hδ hr)
      have a4 := (((a1.add a2).rd h0 hδ hr).mul h0 hδ a3).rd h0 hδ hr
      rw [abs_of_pos (hwE idx hi)] at a4
      have e1 : E.P idx c = (S.P (Fin.init idx) c / S.P (Fin.init idx) 3 + T.P ![idx (Fin.last d)] c / T.P ![idx (Fin.last d)] 3) *
          E.P idx 3 := by
        rw [wE, eE]
        simp [Nrb.stack, Nrb.weights]
      have e2 : (S.stack (T.shape 0) (T.len 0) (T.U 0) (Cad.sweepEntryF rd S T)).P idx c =
          rd (rd (rd (S.P (Fin.init idx) c / S.P (Fin.init idx) 3) + rd (T.P ![idx (Fin.last d)] c / T.P ![idx (Fin.last d)] 3)) *
            rd (E.P idx 3)) := by
        rw [wE]
        simp [Nrb.stack, Cad.sweepEntryF]
      rw [e2, e1]
      exact a4) (fun idx hi => by
      have e : (S.stack (T.shape 0) (T.len 0) (T.U 0) (Cad.sweepEntryF rd S T)).P idx 3 = rd (E.P idx 3) := by
        rw [wE]
        simp [Nrb.stack, Cad.sweepEntryF]
      rw [e]
      have g : 0 < growth δ ^ 1 := by linarith [Fp.growth_pow h0 hδ 1]
      exact ⟨pos_of_mul_pos_right ((hwE idx hi).trans_le (w3 idx hi).lower) g.le, w3 idx hi⟩) hn (X := X) (fun a => by
      refine Fin.lastCases ?_ (fun b => ?_) a
      · rw [elo, ehi]
        exact hz
      · rw [eE, Nrb.stack_lo_cast, Nrb.stack_hi_cast]
        exact hx b) (m := m) (by
      rw [hm, Fin.sum_univ_castSucc, Fin.prod_univ_castSucc, edeg, eE]
      simp only [Nrb.stack_degree_cast])
  refine ⟨_, C, hR, c1, fun g hg c => ?_⟩
  obtain ⟨y, y1, y2⟩ := c2 g hg c
  refine ⟨y, y1, ?_⟩
  have hin : E.InDom (fun a => X a (g a)) := by
    intro a
    refine Fin.lastCases ?_ (fun b => ?_) a
    · rw [elo, ehi]
      exact hz _ (hg _).1 (hg _).2
    · rw [eE, Nrb.stack_lo_cast, Nrb.stack_hi_cast]
      exact hx b _ (hg _).1 (hg _).2
  have hin1 : S.InDom (Fin.init fun a => X a (g a)) := fun b => hx b _ (hg _).1 (hg _).2
  have hin2 : T.InDom ![X (Fin.last d) (g (Fin.last d))] := by
    intro b
    rw [Subsingleton.elim b 0]
    exact hz _ (hg _).1 (hg _).2
  have p := (hpt _ hin).2 (ne_of_gt (Nrb.eval_pos hS hin1 fun idx hi => hwS idx (inNet_of hi)))
    (ne_of_gt (Nrb.eval_pos hT hin2 fun idx hi => hwT idx (inNet_of hi)))
  rw [p] at y2
  exact y2

/-- there is a result of `extrude` -/
theorem C108_total (rd : ℝ → ℝ) (hd : d ≤ 2) {N : Nrb ℝ d} (hv : N.Valid) (t : Fin 3 → ℝ) : ∃ R, Cad.ExtrudeF rd N t R := by
  obtain ⟨A, hA⟩ := C101_total rd [transMat t]
  exact ⟨_, hd, A, seqTrans rd N A, hA, C99_total rd N A,
    ctor_netWith N hd (valid_len hv) (fun a => (hv a).one_le) rfl (fun _ => rfl) (by norm_num) (by norm_num) _⟩

namespace Ex

theorem patch_net {idx : Fin 2 → ℤ} (hi : patch.InNet idx) : (0 ≤ idx 0 ∧ idx 0 < 3) ∧ 0 ≤ idx 1 ∧ idx 1 < 2 := ⟨hi 0, hi 1⟩

theorem patch_fixed (idx : Fin 2 → ℤ) (hi : patch.InNet idx) : flR 53 (patch.P idx 3) = patch.P idx 3 := by
  obtain ⟨n, hn⟩ := Int.eq_ofNat_of_zero_le (patch_net hi).1.1
  have hn3 := (patch_net hi).1.2
  have := flR_nat (n := 1 + n) (by omega)
  show flR 53 (1 + (idx 0 : ℝ)) = 1 + (idx 0 : ℝ)
  rw [hn]
  push_cast at this ⊢
  exact this

theorem patch_size (idx : Fin 2 → ℤ) (hi : patch.InNet idx) (j : Fin 3) : |patch.P idx j / patch.P idx 3| ≤ (![4, 1, 1] : Fin 3 → ℝ) j := by
  obtain ⟨⟨a1, a2⟩, b1, b2⟩ := patch_net hi
  have p : (1 + (idx 0 : ℝ)) ≠ 0 := (patch_pos idx hi).ne'
  have q1 : (0 : ℝ) ≤ idx 0 := by exact_mod_cast a1
  have q2 : (idx 0 : ℝ) ≤ 2 := by exact_mod_cast (by omega : idx 0 ≤ 2)
  have q3 : (0 : ℝ) ≤ idx 1 := by exact_mod_cast b1
  have q4 : (idx 1 : ℝ) ≤ 1 := by exact_mod_cast (by omega : idx 1 ≤ 1)
  fin_cases j
  · show |(1 + (idx 0 : ℝ)) * ((idx 0 ^ 2 : ℤ) : ℝ) / (1 + (idx 0 : ℝ))| ≤ 4
    push_cast
    rw [mul_div_cancel_left₀ _ p, abs_of_nonneg (by positivity)]
    nlinarith
  · show |(1 + (idx 0 : ℝ)) * (idx 1 : ℝ) / (1 + (idx 0 : ℝ))| ≤ 1
    rw [mul_div_cancel_left₀ _ p, abs_of_nonneg q3]
    exact q4
  · show |(1 + (idx 0 : ℝ)) * (idx 1 : ℝ) / (1 + (idx 0 : ℝ))| ≤ 1
    rw [mul_div_cancel_left₀ _ p, abs_of_nonneg q3]
    exact q4

theorem patch_thirds (a : Fin 2) (i : ℤ) (i0 : 0 ≤ i) (i1 : i ≤ 1) : patch.lo a ≤ (i : ℝ) / 3 ∧ (i : ℝ) / 3 ≤ patch.hi a := by
  have q1 : (0 : ℝ) ≤ i := by exact_mod_cast i0
  have q2 : (i : ℝ) ≤ 1 := by exact_mod_cast i1
  fin_cases a
  · show (if (2 : ℤ) ≤ 2 then (0 : ℝ) else 2) ≤ i / 3 ∧ (i : ℝ) / 3 ≤ if (3 : ℤ) ≤ 2 then (0 : ℝ) else 2
    norm_num
    constructor <;> linarith
  · show (if (1 : ℤ) ≤ 1 then (0 : ℝ) else 1) ≤ i / 3 ∧ (i : ℝ) / 3 ≤ if (2 : ℤ) ≤ 1 then (0 : ℝ) else 1
    norm_num
    constructor <;> linarith

/-- the rational surface `patch` extruded along (1, -2, 5) and evaluated at eight points, with doubles -/
example (jk : ℤ → Fp ℝ) (je : ℤ → ℕ → Fp ℝ) : ∃ R C, Cad.ExtrudeF (flR 53) patch ![1, -2, 5] R ∧
    R.callF (flR 53) jk je (fun _ => 1) (fun _ i => (i : ℝ) / 3) = .ok C ∧
    ∀ g : Fin 3 → ℤ, (∀ a, 0 ≤ g a ∧ g a ≤ 1) → ∀ c : Fin 3, ∃ y, (C g).1 c = some y ∧
      |y - (patch.point (fun a => (g a.castSucc : ℝ) / 3) c + (g 2 : ℝ) / 3 * (![1, -2, 5] : Fin 3 → ℝ) c)| ≤
        (growth (2 ^ (-(53 : ℕ) : ℤ)) ^ 89 - 1) * ((![4, 1, 1] : Fin 3 → ℝ) c + |(![1, -2, 5] : Fin 3 → ℝ) c|) := by
  obtain ⟨R, hR⟩ := C108_total (flR 53) (by norm_num) patch_valid ![1, -2, 5]
  obtain ⟨C, c1, c2⟩ := C108_extrude (m := 39) d53.1 d53.2 (flR_relErr 53) (by exact_mod_cast flR_nat (n := 1) (by norm_num)) jk je
    patch_valid patch_pos patch_fixed patch_size hR (r := fun _ => 1) (X := fun _ i => (i : ℝ) / 3) (fun _ => by norm_num)
    patch_thirds (fun i i0 i1 => by
      have q1 : (0 : ℝ) ≤ i := by exact_mod_cast i0
      have q2 : (i : ℝ) ≤ 1 := by exact_mod_cast i1
      constructor <;> linarith) (by
      rw [Fin.sum_univ_two, Fin.prod_univ_two]
      rfl)
  exact ⟨R, C, hR, c1, c2⟩

/-- a trajectory with different weights: from the origin to (0, 0, 3) -/
noncomputable def track : Nrb ℝ 1 where
  shape _ := 2
  nc := 4
  len _ := 4
  U _ := uk
  P idx c := (1 + (idx 0 : ℝ)) * (if c = 2 then 3 * (idx 0 : ℝ) else if c = 3 then 1 else 0)

/-- `patch` swept along `track` and evaluated at eight points, with doubles -/
example (jk : ℤ → Fp ℝ) (je : ℤ → ℕ → Fp ℝ) : ∃ R C, Cad.sweepF (flR 53) patch track = .ok R ∧
    R.callF (flR 53) jk je (fun _ => 1) (fun _ i => (i : ℝ) / 3) = .ok C ∧
    ∀ g : Fin 3 → ℤ, (∀ a, 0 ≤ g a ∧ g a ≤ 1) → ∀ c : Fin 3, ∃ y, (C g).1 c = some y ∧
      |y - (patch.point (fun a => (g a.castSucc : ℝ) / 3) c + track.point ![(g 2 : ℝ) / 3] c)| ≤
        (growth (2 ^ (-(53 : ℕ) : ℤ)) ^ 84 - 1) * ((![4, 1, 1] : Fin 3 → ℝ) c + (![0, 0, 3] : Fin 3 → ℝ) c) := by
  have net : ∀ idx : Fin 1 → ℤ, track.InNet idx → 0 ≤ idx 0 ∧ idx 0 < 2 := fun idx hi => hi 0
  have pos : ∀ idx, track.InNet idx → 0 < 1 + (idx 0 : ℝ) := fun idx hi => by
    have : (0 : ℝ) ≤ idx 0 := by exact_mod_cast (net idx hi).1
    linarith
  exact C108_sweep (m := 39) (S := patch) (T := track) d53.1 d53.2 (flR_relErr 53) jk je (by norm_num) (by norm_num) patch_valid (fun a => uk_valid) patch_pos
    (fun idx hi => by simpa [track] using pos idx hi) patch_size (fun idx hi c => by
      have p := pos idx hi
      have q1 : (0 : ℝ) ≤ idx 0 := by exact_mod_cast (net idx hi).1
      have q2 : (idx 0 : ℝ) ≤ 1 := by exact_mod_cast (by have := (net idx hi).2; omega : idx 0 ≤ 1)
      fin_cases c
      · simp [track]
      · simp [track]
      · have e : track.P idx 2 / track.P idx 3 = 3 * (idx 0 : ℝ) := by simp [track, p.ne']
        show |track.P idx 2 / track.P idx 3| ≤ 3
        rw [e, abs_of_nonneg (by positivity)]
        linarith) (r := fun _ => 1) (X := fun _ i => (i : ℝ) / 3) (fun _ => by norm_num) patch_thirds (fun i i0 i1 => by
      have q1 : (0 : ℝ) ≤ i := by exact_mod_cast i0
      have q2 : (i : ℝ) ≤ 1 := by exact_mod_cast i1
      show uk 1 ≤ (i : ℝ) / 3 ∧ (i : ℝ) / 3 ≤ uk 2
      rw [uk_one, uk_two]
      constructor <;> linarith) (by
      rw [Fin.sum_univ_two, Fin.prod_univ_two]
      rfl)

end Ex
end Igakit
