import Verif.Model.FloatGrid
import Verif.Props.Greville
import Verif.Props.FloatKnotVector
import Verif.Props.FloatGreville
import Verif.Props.Float

/-!
# Property C111: `cad.grid` in floating point
-/

set_option linter.unusedSectionVars false

namespace Igakit
open Spec

variable {K : Type} [Field K] [LinearOrder K] [IsStrictOrderedRing K] {d : ℕ}

theorem greville_eq_mean (U : ℤ → K) (i : ℤ) (p : ℕ) : greville (p : ℤ) U i = (∑ j ∈ Finset.Icc 1 (p : ℤ), U (i + j)) / p := by
  unfold greville
  have : ∀ q : ℕ, forUp (i + 1) (i + q) (fun j s => s + U j) 0 = ∑ j ∈ Finset.Icc 1 (q : ℤ), U (i + j) := by
    intro q
    induction q with
    | zero => rw [forUp_empty (by simp)]; rfl
    | succ q ih =>
      rw [show i + ((q + 1 : ℕ) : ℤ) = i + q + 1 by push_cast; ring, forUp_last (by omega), show i + q + 1 - 1 = i + (q : ℤ) by ring, ih]
      have : Finset.Icc 1 ((q + 1 : ℕ) : ℤ) = insert ((q : ℤ) + 1) (Finset.Icc 1 (q : ℤ)) := by
        ext j
        simp only [Finset.mem_Icc, Finset.mem_insert]
        omega
      rw [this, Finset.sum_insert (by simp), ← add_assoc, add_comm]
  rw [this p, Int.cast_natCast]

/-- rounded Greville abscissae of knots of size at most `B` -/
theorem greville_close {δ : K} {rd : K → K} (h0 : 0 ≤ δ) (hδ : δ < 1) (hr : RelErr δ rd) {U : ℤ → K} {i : ℤ} {p : ℕ} (hp : 1 ≤ p) {B : K}
    (hB : ∀ j : ℤ, 1 ≤ j → j ≤ p → |U (i + j)| ≤ B) :
    |Fp.greville rd p U i - greville p U i| ≤ (growth δ ^ (p + 1) - 1) * B ∧ |Fp.greville rd p U i| ≤ growth δ ^ (p + 1) * B := by
  have hpK : (0 : K) < (p : K) := by exact_mod_cast hp
  have hg := Fp.growth_pow h0 hδ (p + 1)
  have hs : (∑ j ∈ Finset.Icc 1 (p : ℤ), |U (i + j)|) / p ≤ B := by
    rw [div_le_iff₀ hpK]
    refine (Finset.sum_le_card_nsmul _ _ B fun j hj => ?_).trans ?_
    · have := Finset.mem_Icc.mp hj
      exact hB j this.1 this.2
    · simp [mul_comm]
  have h1 := Fp.greville_err h0 hδ hr U i hp
  rw [← greville_eq_mean] at h1
  have h2 : |Fp.greville rd p U i - greville p U i| ≤ (growth δ ^ (p + 1) - 1) * B :=
    h1.trans (mul_le_mul_of_nonneg_left hs (by linarith))
  have h3 : |greville (p : ℤ) U i| ≤ B := by
    rw [greville_eq_mean, abs_div, abs_of_pos hpK]
    exact (div_le_div_of_nonneg_right (Finset.abs_sum_le_sum_abs _ _) hpK.le).trans hs
  refine ⟨h2, ?_⟩
  have := abs_add_le (Fp.greville rd p U i - greville p U i) (greville (p : ℤ) U i)
  rw [sub_add_cancel] at this
  linarith

/-- the object made by `cad.grid` in floating point with knots `U` -/
def gridObjF (rd : K → K) (len p : Fin d → ℤ) (U : Fin d → ℤ → K) : Nrb K d where
  shape := fun a => len a - 1 - p a
  nc := 4
  len := len
  U := U
  P := fun idx c => grevNet (fun a i => Fp.greville rd (p a) (U a) i) (List.ofFn idx) c

/-- evaluation of that object: near the parameters -/
theorem gridObjF_call {δ : K} {rd : K → K} (h0 : 0 ≤ δ) (hδ : δ < 1) (hr : RelErr δ rd) (jk : ℤ → Fp K) (je : ℤ → ℕ → Fp K) (h3 : d ≤ 3)
    {len : Fin d → ℤ} {p : Fin d → ℕ} {U : Fin d → ℤ → K} {N : Nrb K d} (hN : N = gridObjF rd len (fun a => (p a : ℤ)) U) (hv : N.Valid)
    {r : Fin d → ℤ} {X : Fin d → ℤ → K} (hn : ∀ a, 0 ≤ r a) (hx : ∀ a i, 0 ≤ i → i ≤ r a → N.lo a ≤ X a i ∧ X a i ≤ N.hi a) {m : ℕ}
    (hm : m = 6 * (∑ a, p a) + d + ∏ a, (p a + 1)) :
    ∃ R, N.callF rd jk je r X = .ok R ∧ ∀ g : Fin d → ℤ, (∀ a, 0 ≤ g a ∧ g a ≤ r a) →
      (∀ (a : Fin d) (B : K), (∀ j, 0 ≤ j → j < N.len a → |N.U a j| ≤ B) → ∃ y, (R g).1 a = some y ∧
        |y - X a (g a)| ≤ (growth δ ^ (2 * m + 1 + (p a + 1)) - 1) * B) ∧
      ∀ c : ℕ, d ≤ c → c < 3 → (R g).1 c = some 0 := by
  have hdeg : ∀ a, N.degree a = p a := fun a => by
    rw [hN]; unfold Nrb.degree gridObjF; ring
  have hnn : ∀ a, N.n a = N.len a - 2 - p a := fun a => by
    rw [hN]; unfold Nrb.n gridObjF; ring
  have hP : ∀ idx c, N.P idx c = grevNet (fun a i => Fp.greville rd (p a) (U a) i) (List.ofFn idx) c := fun idx c => by rw [hN]; rfl
  have hUU : N.U = U := by rw [hN]; rfl
  have hw : ∀ idx, N.P idx 3 = 1 := fun idx => by
    rw [hP]; unfold grevNet; rw [dif_neg (by omega), if_pos rfl]
  have hc : ∀ idx (a : Fin d), N.P idx a = Fp.greville rd (p a) (U a) (idx a) := fun idx a => by
    rw [hP]; unfold grevNet; rw [dif_pos a.2]; simp
  have hz : ∀ idx (c : ℕ), d ≤ c → c < 3 → N.P idx c = 0 := fun idx c c0 c1 => by
    rw [hP]; unfold grevNet; rw [dif_neg (by omega), if_neg (by omega)]
  obtain ⟨R, r1, r2⟩ := C72_call h0 hδ hr jk je h3 hv hn hx (fun idx _ => by rw [hw]; exact one_pos) (m := m) (by
    rw [hm]; simp [hdeg])
  refine ⟨R, r1, fun g hg => ⟨fun a B hB => ?_, fun c c0 c1 => ?_⟩⟩
  · have hp1 : 1 ≤ p a := by have := (hv a).one_le; rw [hdeg] at this; omega
    have hin : N.InDom (fun a => X a (g a)) := fun a => hx a _ (hg a).1 (hg a).2
    have cl : ∀ i, 0 ≤ i → i ≤ N.n a → |Fp.greville rd (p a) (U a) i - greville (p a) (U a) i| ≤ (growth δ ^ (p a + 1) - 1) * B ∧
        |Fp.greville rd (p a) (U a) i| ≤ growth δ ^ (p a + 1) * B := fun i i0 i1 =>
      greville_close h0 hδ hr hp1 (fun j j0 j1 => by
        rw [← hUU]
        refine hB _ (by omega) ?_
        have := hnn a
        omega)
    obtain ⟨y, y1, y2⟩ := (r2 g hg a (growth δ ^ (p a + 1) * B)).1 (fun idx hidx => by
      rw [hw, div_one, hc]
      refine (cl _ (hidx a).1 ?_).2
      have := (hidx a).2
      unfold Nrb.n
      omega)
    refine ⟨y, y1, ?_⟩
    set E : Nrb K d := { N with P := fun idx c => grevNet (fun a i => greville (p a : ℤ) (U a) i) (List.ofFn idx) c } with hE
    have hid : E.IsIdentity := identity_of_grevNet h3 hv (by rw [hE, hN]; rfl) (fun idx c _ _ => by
      show grevNet (fun a i => greville (p a : ℤ) (U a) i) (List.ofFn idx) c = grevNet (fun a i => greville (N.degree a) (N.U a) i) (List.ofFn idx) c
      simp only [hdeg, hUU])
    have ee : ∑ idx ∈ Fintype.piFinset (fun a => Finset.Icc 0 (N.n a)), N.wt (fun a => X a (g a)) idx * greville (p a : ℤ) (U a) (idx a) =
        X a (g a) := by
      rw [← (hid.2 (fun a => X a (g a)) hin).1 a, Nrb.eval_apply]
      refine Finset.sum_congr rfl fun idx _ => ?_
      show N.wt (fun a => X a (g a)) idx * _ = N.wt (fun a => X a (g a)) idx *
        grevNet (fun a i => greville (p a : ℤ) (U a) i) (List.ofFn idx) (a : ℕ)
      unfold grevNet
      rw [dif_pos a.2]
      simp
    have e3 : N.eval (fun a => X a (g a)) 3 = 1 := by
      rw [Nrb.eval_apply]
      simp only [hw, mul_one]
      exact Nrb.wt_sum hv hin
    have near : |N.proj (fun a => X a (g a)) a - X a (g a)| ≤ (growth δ ^ (p a + 1) - 1) * B := by
      unfold Nrb.proj
      rw [e3, div_one, Nrb.eval_apply, ← ee, ← Finset.sum_sub_distrib]
      refine (Finset.abs_sum_le_sum_abs _ _).trans (le_trans (Finset.sum_le_sum
        (g := fun idx => N.wt (fun a => X a (g a)) idx * ((growth δ ^ (p a + 1) - 1) * B)) fun idx hi => ?_)
        (by rw [← Finset.sum_mul, Nrb.wt_sum hv hin, one_mul]))
      have hi : ∀ a, 0 ≤ idx a ∧ idx a ≤ N.n a := fun a => Finset.mem_Icc.mp (Fintype.mem_piFinset.mp hi a)
      have w0 := Nrb.wt_nonneg hv hin hi
      rw [← mul_sub, abs_mul, abs_of_nonneg w0, hc]
      exact mul_le_mul_of_nonneg_left (cl _ (hi a).1 (hi a).2).1 w0
    have := abs_add_le (y - N.proj (fun a => X a (g a)) a) (N.proj (fun a => X a (g a)) a - X a (g a))
    rw [sub_add_sub_cancel] at this
    refine this.trans ((add_le_add y2 near).trans (le_of_eq ?_))
    rw [pow_add]
    ring
  · obtain ⟨y, y1, y2⟩ := (r2 g hg c 0).1 (fun idx _ => by rw [hz idx c c0 c1]; simp)
    have e : N.proj (fun a => X a (g a)) c = 0 := by
      unfold Nrb.proj
      rw [Nrb.eval_apply, Finset.sum_eq_zero (fun idx _ => by rw [hz idx c c0 c1, mul_zero]), zero_div]
    rw [e, mul_zero, sub_zero] at y2
    rw [y1, abs_nonpos_iff.mp y2]

/-- C111: `cad.grid` in floating point is close to the identity map: each coordinate is off by at most `2 m + p + 2` roundings of the
largest knot, and for a grid which is not wrapped of the larger of the two limits; the other coordinates are zero.  The knots are
those of `KnotVector` (C75) -/
theorem C111_gridD {F : K → Prop} {δ : K} {rd : K → K} (hF : Rounds F rd) (h0 : 0 ≤ δ) (hδ : δ < 1) (hr : RelErr δ rd) (jk : ℤ → K)
    (h1 : 1 ≤ d) (h3 : d ≤ 3) {E C : Fin d → ℤ} {p : Fin d → ℕ} {lim : Fin d → K × K} {w : Fin d → Bool} {aDeg : BArg ℤ}
    {aCont : Option (BArg ℤ)} {aLim : LimArg K} {aWrap : BArg Bool}
    (hE : ∀ a, 1 ≤ E a) (hp : aDeg.Means (fun a => (p a : ℤ))) (hp1 : ∀ a, 1 ≤ p a) (hC : ContMeans (fun a => (p a : ℤ)) aCont C)
    (hC0 : ∀ a, 0 ≤ C a) (hCp : ∀ a, C a < p a) (hlim : aLim.Means lim) (hlt : ∀ a, (lim a).1 < (lim a).2) (hw : aWrap.Means w)
    (hlF : ∀ a, F (lim a).1 ∧ F (lim a).2) {M : Fin d → K} (hM : ∀ a, |(lim a).1| ≤ M a ∧ |(lim a).2| ≤ M a)
    (hsp : ∀ a, 2 * (δ * M a + (growth δ ^ 4 - 1) * ((lim a).2 - (lim a).1)) < ((lim a).2 - (lim a).1) / (E a : K)) {m : ℕ}
    (hm : m = 6 * (∑ a, p a) + d + ∏ a, (p a + 1)) :
    ∃ N : Nrb K d, Fp.gridD rd jk E aDeg aCont aLim aWrap = .ok N ∧ N.Valid ∧ (∀ a, N.degree a = p a) ∧
      (∀ a, N.lo a = (lim a).1 ∧ N.hi a = (lim a).2) ∧
      (∀ a, NearlyUniform (N.n a) (p a) (N.U a) (E a) (p a - C a) (lim a).1 (lim a).2
        (δ * M a + (growth δ ^ 4 - 1) * ((lim a).2 - (lim a).1))) ∧
      ∀ (jf : ℤ → Fp K) (je : ℤ → ℕ → Fp K) (r : Fin d → ℤ) (X : Fin d → ℤ → K), (∀ a, 0 ≤ r a) →
      (∀ a i, 0 ≤ i → i ≤ r a → (lim a).1 ≤ X a i ∧ X a i ≤ (lim a).2) →
      ∃ R, N.callF rd jf je r X = .ok R ∧ ∀ g : Fin d → ℤ, (∀ a, 0 ≤ g a ∧ g a ≤ r a) →
        (∀ (a : Fin d) (B : K), (∀ j, 0 ≤ j → j < N.len a → |N.U a j| ≤ B) → ∃ y, (R g).1 a = some y ∧
          |y - X a (g a)| ≤ (growth δ ^ (2 * m + 1 + (p a + 1)) - 1) * B) ∧
        (∀ a : Fin d, w a = false → ∃ y, (R g).1 a = some y ∧ |y - X a (g a)| ≤ (growth δ ^ (2 * m + 1 + (p a + 1)) - 1) * M a) ∧
        ∀ c : ℕ, d ≤ c → c < 3 → (R g).1 c = some 0 := by
  have hkv : ∀ a, ∃ U, Fp.iga_KnotVector rd jk (E a) (p a) (C a) (lim a).1 (lim a).2 (w a) = .ok U ∧
      NearlyUniform (p a + (E a - 1) * (p a - C a)) (p a) U (E a) (p a - C a) (lim a).1 (lim a).2
        (δ * M a + (growth δ ^ 4 - 1) * ((lim a).2 - (lim a).1)) ∧
      (w a = false → (U 0 = (lim a).1 ∧ U (p a + (E a - 1) * (p a - C a) + p a + 1) = (lim a).2)) := by
    intro a
    have hp1' : (1 : ℤ) ≤ p a := by exact_mod_cast hp1 a
    obtain ⟨⟨U, u1, u2, u3, u4, -⟩, ⟨V, v1, v2, -⟩⟩ := C75_KnotVector hF h0 hδ hr jk (hE a) hp1' (hC0 a) (hCp a) (hlt a) (hlF a).1 (hlF a).2
      (hM a).1 (hM a).2 (hsp a)
    cases w a with
    | false => exact ⟨U, u1, u2, fun _ => ⟨u3 0 le_rfl (by omega), u4 _ (by omega) le_rfl⟩⟩
    | true => exact ⟨V, v1, v2, fun h => by cases h⟩
  choose U hU hu hends using hkv
  have hmm : ∀ a, knotVectorM (E a) (p a) (C a) = p a + (E a - 1) * (p a - C a) + p a + 1 := by
    intro a; unfold knotVectorM; ring
  have hn : ∀ a, (p a : ℤ) ≤ p a + (E a - 1) * (p a - C a) := fun a => (hu a).valid.le
  have hg : ∀ a, Fp.Greville rd (p a) (knotVectorM (E a) (p a) (C a)) (U a) = .ok (fun i => Fp.greville rd (p a) (U a) i) := by
    intro a
    have := hp1 a
    unfold Fp.Greville
    rw [if_pos ⟨by omega, by rw [hmm]; have := hn a; omega⟩]
  set len : Fin d → ℤ := fun a => knotVectorM (E a) (p a) (C a) + 1 with hlen
  have hgrid : Fp.gridD rd jk E aDeg aCont aLim aWrap = .ok (gridObjF rd len (fun a => (p a : ℤ)) U) := by
    unfold Fp.gridD
    rw [hp.bcast, res_ok_bind, pyAssert_ok (c := ∀ a, 0 < (p a : ℤ)) (fun a => by have := hp1 a; omega), res_ok_bind,
      hC.gridCont hC0 hCp, res_ok_bind,
      hlim.bcast, res_ok_bind, hw.bcast, res_ok_bind]
    rw [seqFin_ok (g := fun a => (U a, fun i => Fp.greville rd (p a) (U a) i)) (fun a => by
      rw [hU a, res_ok_bind, hg a, res_ok_bind, res_pure]), res_ok_bind]
    rw [ctor_homogeneous (sh := fun a => len a - 1 - p a) (len := len) h1 h3 (fun a => rfl) (fun a => by
      have := hn a; have := hp1 a; have := hmm a; simp only [hlen]; omega) rfl (fun a => by
      have := hp1 a; omega)]
    simp only [List.headD_cons, List.dropLast_concat, List.getLastD_concat, Int.toNat_natCast]
    rfl
  refine ⟨_, hgrid, ?_⟩
  set N : Nrb K d := gridObjF rd len (fun a => (p a : ℤ)) U with hN
  have hND : ∀ a, N.degree a = p a := fun a => by rw [hN]; unfold Nrb.degree gridObjF; ring
  have hNn : ∀ a, N.n a = p a + (E a - 1) * (p a - C a) := fun a => by
    rw [hN]; unfold Nrb.n gridObjF; simp only [hlen]; rw [hmm]; ring
  have hv : N.Valid := by
    intro a
    rw [hND, hNn]
    exact (hu a).valid
  have hlo : ∀ a, N.lo a = (lim a).1 := fun a => by rw [Nrb.lo_eq, hND]; exact (hu a).lo
  have hhi : ∀ a, N.hi a = (lim a).2 := fun a => by rw [Nrb.hi_eq, hNn]; exact (hu a).hi
  refine ⟨hv, hND, fun a => ⟨hlo a, hhi a⟩, fun a => by rw [hNn]; exact hu a, fun jf je r X hr0 hx => ?_⟩
  obtain ⟨R, r1, r2⟩ := gridObjF_call h0 hδ hr jf je h3 hN hv hr0 (fun a i i0 i1 => by rw [hlo, hhi]; exact hx a i i0 i1) hm
  refine ⟨R, r1, fun g hgr => ⟨(r2 g hgr).1, fun a ha => (r2 g hgr).1 a (M a) fun j j0 j1 => ?_, (r2 g hgr).2⟩⟩
  have hj : j ≤ p a + (E a - 1) * (p a - C a) + p a + 1 := by
    have : j < len a := j1
    simp only [hlen] at this
    rw [hmm] at this
    omega
  have s1 := (hu a).valid.sorted 0 j le_rfl j0 (by omega)
  have s2 := (hu a).valid.sorted j (p a + (E a - 1) * (p a - C a) + p a + 1) j0 hj (by omega)
  rw [(hends a ha).1] at s1
  rw [(hends a ha).2] at s2
  have m1 := abs_le.mp (hM a).1
  have m2 := abs_le.mp (hM a).2
  show |U a j| ≤ M a
  exact abs_le.mpr ⟨by linarith, by linarith⟩

/-- C111: `cad.grid` called with a sequence of element counts -/
theorem C111_grid {F : K → Prop} {δ : K} {rd : K → K} (hF : Rounds F rd) (h0 : 0 ≤ δ) (hδ : δ < 1) (hr : RelErr δ rd) (jk : ℤ → K)
    {l : List ℤ} (h1 : 1 ≤ l.length) (h3 : l.length ≤ 3) {C : Fin l.length → ℤ} {p : Fin l.length → ℕ} {lim : Fin l.length → K × K}
    {w : Fin l.length → Bool} {aDeg : BArg ℤ} {aCont : Option (BArg ℤ)} {aLim : LimArg K} {aWrap : BArg Bool}
    (hE : ∀ E ∈ l, 1 ≤ E) (hp : aDeg.Means (fun a => (p a : ℤ))) (hp1 : ∀ a, 1 ≤ p a) (hC : ContMeans (fun a => (p a : ℤ)) aCont C)
    (hC0 : ∀ a, 0 ≤ C a) (hCp : ∀ a, C a < p a) (hlim : aLim.Means lim) (hlt : ∀ a, (lim a).1 < (lim a).2) (hw : aWrap.Means w)
    (hlF : ∀ a, F (lim a).1 ∧ F (lim a).2) {M : Fin l.length → K} (hM : ∀ a, |(lim a).1| ≤ M a ∧ |(lim a).2| ≤ M a)
    (hsp : ∀ a, 2 * (δ * M a + (growth δ ^ 4 - 1) * ((lim a).2 - (lim a).1)) < ((lim a).2 - (lim a).1) / (l[a] : K)) {m : ℕ}
    (hm : m = 6 * (∑ a, p a) + l.length + ∏ a, (p a + 1)) :
    ∃ N : Nrb K l.length, Fp.grid rd jk (.vec l) aDeg aCont aLim aWrap = .ok ⟨l.length, N⟩ ∧ (∀ a, N.degree a = p a) ∧
      (∀ a, N.lo a = (lim a).1 ∧ N.hi a = (lim a).2) ∧
      ∀ (jf : ℤ → Fp K) (je : ℤ → ℕ → Fp K) (r : Fin l.length → ℤ) (X : Fin l.length → ℤ → K), (∀ a, 0 ≤ r a) →
      (∀ a i, 0 ≤ i → i ≤ r a → (lim a).1 ≤ X a i ∧ X a i ≤ (lim a).2) →
      ∃ R, N.callF rd jf je r X = .ok R ∧ ∀ g : Fin l.length → ℤ, (∀ a, 0 ≤ g a ∧ g a ≤ r a) →
        (∀ (a : Fin l.length) (B : K), (∀ j, 0 ≤ j → j < N.len a → |N.U a j| ≤ B) → ∃ y, (R g).1 a = some y ∧
          |y - X a (g a)| ≤ (growth δ ^ (2 * m + 1 + (p a + 1)) - 1) * B) ∧
        (∀ a, w a = false → ∃ y, (R g).1 a = some y ∧ |y - X a (g a)| ≤ (growth δ ^ (2 * m + 1 + (p a + 1)) - 1) * M a) ∧
        ∀ c : ℕ, l.length ≤ c → c < 3 → (R g).1 c = some 0 := by
  obtain ⟨N, e, -, n2, n3, -, n5⟩ := C111_gridD hF h0 hδ hr jk (E := fun a => l[a.val]) h1 h3 (fun a => hE _ (List.getElem_mem _)) hp hp1
    hC hC0 hCp hlim hlt hw hlF hM hsp hm
  refine ⟨N, ?_, n2, n3, n5⟩
  unfold Fp.grid
  simp only
  rw [pyAssert_ok ⟨h1, h3⟩, res_ok_bind, e, res_ok_bind, res_pure]

/-- with doubles `grid([10, 4], degree=2, limits=(0, 1))` is off by at most 74 roundings of one -/
example (jk : ℤ → ℚ) (jf : ℤ → Fp ℚ) (je : ℤ → ℕ → Fp ℚ) (x y : ℚ) (hx : 0 ≤ x ∧ x ≤ 1) (hy : 0 ≤ y ∧ y ≤ 1) :
    ∃ N : Nrb ℚ 2, Fp.grid (Ex.fl 53) jk (.vec [10, 4]) (.scalar 2) none (.two 0 1) (.scalar false) = .ok ⟨2, N⟩ ∧
      ∃ R, N.callF (Ex.fl 53) jf je (fun _ => 0) ![fun _ => x, fun _ => y] = .ok R ∧
      (∃ z, (R ![0, 0]).1 0 = some z ∧ |z - x| ≤ growth (2 ^ (-(53 : ℕ) : ℤ)) ^ 74 - 1) ∧ (R ![0, 0]).1 2 = some 0 := by
  obtain ⟨N, n1, -, -, n4⟩ := C111_grid (Ex.fl_rounds (t := 53) (by norm_num)) (δ := 2 ^ (-(53 : ℕ) : ℤ)) (by positivity) (by norm_num)
    (Ex.fl_relErr 53) jk (l := [10, 4]) (by decide) (by decide) (C := fun _ => 1) (p := fun _ => 2) (lim := fun _ => (0, 1))
    (w := fun _ => false) (aDeg := .scalar 2) (aCont := none) (aLim := .two 0 1) (aWrap := .scalar false)
    (by decide) (Or.inl ⟨2, rfl, rfl⟩) (fun _ => by norm_num) (Or.inl ⟨rfl, rfl⟩) (fun _ => by norm_num) (fun _ => by norm_num)
    (Or.inl ⟨0, 1, rfl, rfl⟩) (fun _ => by norm_num) (Or.inl ⟨false, rfl, rfl⟩)
    (fun _ => ⟨(Ex.fl_rounds (t := 53) (by norm_num)).zero, (Ex.fl_rounds (t := 53) (by norm_num)).one⟩) (M := fun _ => 1)
    (fun _ => by norm_num) (fun a => by
      have : ∀ a : Fin 2, (([10, 4] : List ℤ)[a] : ℚ) ≤ 10 ∧ 0 < (([10, 4] : List ℤ)[a] : ℚ) := by decide +kernel
      refine lt_of_lt_of_le ?_ (one_div_le_one_div_of_le (this a).2 (this a).1 |>.trans (by norm_num))
      unfold growth
      norm_num) rfl
  refine ⟨N, n1, ?_⟩
  obtain ⟨R, r1, r2⟩ := n4 jf je (fun _ => 0) ![fun _ => x, fun _ => y] (fun _ => le_rfl) (fun a i _ _ => by
    fin_cases a
    · exact hx
    · exact hy)
  obtain ⟨-, h2, h3⟩ := r2 ![0, 0] (fun a => by fin_cases a <;> exact ⟨le_rfl, le_rfl⟩)
  refine ⟨R, r1, ?_, h3 2 le_rfl (by norm_num)⟩
  obtain ⟨z, z1, z2⟩ := h2 0 rfl
  refine ⟨z, z1, ?_⟩
  rw [mul_one] at z2
  exact z2

end Igakit
