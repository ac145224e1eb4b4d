import Verif.Props.BuiltEx
import Verif.Props.Swap

/-!
# Property C103: what is built depends on the maps, not on their knots and control points

The theorem on `ruled` carries the suffix `_partial` as C35 does: missing are objects that `compat` does not treat correctly.
-/

set_option linter.unusedSectionVars false

namespace Igakit
open Spec Transform

variable {K : Type} [Field K] [LinearOrder K] [IsStrictOrderedRing K] {d : ℕ}

/-- the same domain, and the same homogeneous coordinates at every parameter; degrees and knots may differ -/
structure Nrb.Alike (N N' : Nrb K d) : Prop where
  lo : ∀ a, N'.lo a = N.lo a
  hi : ∀ a, N'.hi a = N.hi a
  eval : ∀ x, N.InDom x → ∀ k < 4, N'.eval x k = N.eval x k

theorem Nrb.Alike.dom {N N' : Nrb K d} (h : N.Alike N') {x : Fin d → K} (hx : N.InDom x) : N'.InDom x := fun a => by
  rw [h.lo, h.hi]
  exact hx a

/-- for two objects built by maps which read four coordinates only -/
theorem Built.alike {N N' : Nrb K d} {R R' : Nrb K (d + 1)} {Φ Φ' : K → (ℕ → K) → ℕ → K} (h : Built N R Φ)
    (h' : Built N' R' Φ') (hN : N.Alike N') (hlo : R'.lo (Fin.last d) = R.lo (Fin.last d))
    (hhi : R'.hi (Fin.last d) = R.hi (Fin.last d))
    (hΦ : ∀ s, R.lo (Fin.last d) ≤ s → s ≤ R.hi (Fin.last d) → ∀ e e' : ℕ → K, (∀ k < 4, e' k = e k) →
      ∀ k < 4, Φ' s e' k = Φ s e k) : R.Alike R' := by
  have l : ∀ a, R'.lo a = R.lo a := fun a => by
    refine Fin.lastCases hlo (fun b => ?_) a
    rw [h'.ext.lo, h.ext.lo, hN.lo]
  have u : ∀ a, R'.hi a = R.hi a := fun a => by
    refine Fin.lastCases hhi (fun b => ?_) a
    rw [h'.ext.hi, h.ext.hi, hN.hi]
  refine ⟨l, u, fun x hx k hk => ?_⟩
  have hx' : R'.InDom x := fun a => by rw [l, u]; exact hx a
  have hi : N.InDom (Fin.init x) := fun a => by
    have := hx a.castSucc
    rw [h.ext.lo, h.ext.hi] at this
    exact this
  rw [h.eval x hx, h'.eval x hx']
  exact hΦ _ (hx _).1 (hx _).2 _ _ (hN.eval _ hi) k hk

theorem homT_four (M : Mat4 K) {e e' : ℕ → K} (h : ∀ k < 4, e' k = e k) : ∀ k < 4, homT M e' k = homT M e k := by
  intro k hk
  unfold homT
  simp only [hk, dif_pos, h 0 (by norm_num), h 1 (by norm_num), h 2 (by norm_num), h 3 (by norm_num)]

/-- C103: extrusions of the same map are the same map -/
theorem C103_extrude (h1 : d ≤ 2) {N N' : Nrb K d} (hv : N.Valid) (hv' : N'.Valid) (h : N.Alike N') {displ : ArrArg K}
    {axis : Option ℤ} {t : Fin 3 → K} (ht : IsDispl displ axis t) :
    ∃ R R', Cad.extrude N displ axis = .ok R ∧ Cad.extrude N' displ axis = .ok R' ∧ R.Alike R' := by
  obtain ⟨R, r1, r2, r3, r4, r5⟩ := extrude_built h1 hv ht
  obtain ⟨R', q1, q2, q3, q4, q5⟩ := extrude_built h1 hv' ht
  obtain ⟨s1, s2, _⟩ := same_last (q2.trans r2.symm) (q3.trans r3.symm) (q4.trans r4.symm)
  refine ⟨R, R', r1, q1, r5.alike q5 h s1 s2 (fun s _ _ e e' he k hk => ?_)⟩
  simp only [Pi.add_apply, Pi.smul_apply]
  rw [he k hk, homT_four _ he k hk]

/-- C103: sweeps of the same section along the same trajectory are the same map -/
theorem C103_sweep (h1 : 1 ≤ d) (h2 : d ≤ 2) {S S' : Nrb K d} {T T' : Nrb K 1} (hS : S.Valid) (hS' : S'.Valid) (hT : T.Valid)
    (hT' : T'.Valid) (hwS : S.WeightsNe) (hwS' : S'.WeightsNe) (hwT : T.WeightsNe) (hwT' : T'.WeightsNe) (h : S.Alike S')
    (g : T.Alike T') :
    ∃ R R', Cad.sweep S T = .ok R ∧ Cad.sweep S' T' = .ok R' ∧ R.Alike R' := by
  obtain ⟨R, r1, r2, r3, r4, r5⟩ := sweep_built h1 h2 hS hT hwS hwT
  obtain ⟨R', q1, q2, q3, q4, q5⟩ := sweep_built h1 h2 hS' hT' hwS' hwT'
  have last : ∀ {R : Nrb K (d + 1)} {T : Nrb K 1}, R.shape (Fin.last d) = T.shape 0 → R.len (Fin.last d) = T.len 0 →
      R.U (Fin.last d) = T.U 0 → R.lo (Fin.last d) = T.lo 0 ∧ R.hi (Fin.last d) = T.hi 0 := by
    intro R T e1 e2 e3
    have hd : R.degree (Fin.last d) = T.degree 0 := by unfold Nrb.degree; rw [e1, e2]
    exact ⟨by unfold Nrb.lo; rw [hd, e3], by unfold Nrb.hi; rw [hd, e2, e3]⟩
  obtain ⟨a1, a2⟩ := last r2 r3 r4
  obtain ⟨b1, b2⟩ := last q2 q3 q4
  refine ⟨R, R', r1, q1, r5.alike q5 h (by rw [a1, b1, g.lo]) (by rw [a2, b2, g.hi]) (fun s s0 s1 e e' he k hk => ?_)⟩
  rw [a1] at s0
  rw [a2] at s1
  have hs : T.InDom ![s] := fun a => by rw [Subsingleton.elim a 0]; exact ⟨s0, s1⟩
  have ge := g.eval _ hs
  unfold sweepHom
  simp only [he 3 (by norm_num), ge 3 (by norm_num), he k hk, ge k hk]

theorem turnHom_four (g : ℕ → ℝ) {e e' : ℕ → ℝ} (h : ∀ k < 4, e' k = e k) (k : ℕ) : turnHom g e' k = turnHom g e k := by
  unfold turnHom
  simp only [h 0 (by norm_num), h 1 (by norm_num), h 2 (by norm_num), h 3 (by norm_num)]

/-- C103: revolutions of the same map are the same map, whatever uninitialised memory contains -/
theorem C103_revolve {d : ℕ} (junk junk' : ℤ → Fin 4 → ℝ) (h1 : d ≤ 2) {N N' : Nrb ℝ d} (hv : N.Valid) (hv' : N'.Valid)
    (h : N.Alike N') {point : ArrArg ℝ} {p : Fin 3 → ℝ} (hp : IsDispl point none p) {axis : AxisArg} {v : Fin 3 → ℝ}
    (hax : IsAxis axis v) (hz : v 2 ≠ -1) (angle : AngleArg) (h0 : (angles angle).1 ≠ (angles angle).2)
    (h4 : |(angles angle).2 - (angles angle).1| < 4 * Real.pi) :
    ∃ R R', Cad.revolve junk N point axis angle = .ok R ∧ Cad.revolve junk' N' point axis angle = .ok R' ∧ R.Alike R' := by
  obtain ⟨A, A', hA, hA', vA, vA', _, eS, eL, eU, ev⟩ := two_arcs junk junk' h0 h4
  obtain ⟨R, r1, r2, r3, r4, r5⟩ := revolve_built h1 hv hp hax hz hA vA
  obtain ⟨R', q1, q2, q3, q4, q5⟩ := revolve_built h1 hv' hp hax hz hA' vA'
  obtain ⟨s1, s2, _⟩ := same_last (q2.trans (eS.trans r2.symm)) (q3.trans (eL.trans r3.symm)) (q4.trans (eU.trans r4.symm))
  refine ⟨R, R', r1, q1, r5.alike q5 h s1 s2 (fun s _ _ e e' he k hk => ?_)⟩
  rw [ev]
  exact homT_four _ (fun j _ => turnHom_four _ (homT_four _ he) j) k hk

/-- C103: ruled objects between the same maps are the same map -/
theorem C103_ruled_partial {eps : K} (heps : 0 < eps) (M1 M2 M1' M2' : Fin 2 → Fin (d + 1) → Mem K d) (hd : d + 1 ≤ 2)
    {N1 N2 N1' N2' : Nrb K (d + 1)} (hv1 : N1.Valid) (hv2 : N2.Valid) (hv1' : N1'.Valid) (hv2' : N2'.Valid)
    (h1 : N1.Alike N1') (h2 : N2.Alike N2')
    (hcomp : ∀ a, Compatible eps ![N1, N2] a (min (N1.lo a) (N2.lo a)) (max (N1.hi a) (N2.hi a)))
    (hcomp' : ∀ a, Compatible eps ![N1', N2'] a (min (N1'.lo a) (N2'.lo a)) (max (N1'.hi a) (N2'.hi a))) :
    ∃ R R', Cad.ruled eps M1 M2 N1 N2 = .ok R ∧ Cad.ruled eps M1' M2' N1' N2' = .ok R' ∧ R.Alike R' := by
  obtain ⟨R, e1, _, e3, e4, _, e6, e7⟩ := C35_ruled_partial heps M1 M2 hd hv1 hv2 (fun _ => rfl) (fun _ => rfl) hcomp
  obtain ⟨R', f1, _, f3, f4, _, f6, f7⟩ := C35_ruled_partial heps M1' M2' hd hv1' hv2' (fun _ => rfl) (fun _ => rfl) hcomp'
  have l : ∀ a, R'.lo a = R.lo a := fun a => by
    refine Fin.lastCases (by rw [e3, f3]) (fun b => ?_) a
    rw [(e6 b).1, (f6 b).1, h1.lo, h2.lo]
  have u : ∀ a, R'.hi a = R.hi a := fun a => by
    refine Fin.lastCases (by rw [e4, f4]) (fun b => ?_) a
    rw [(e6 b).2.1, (f6 b).2.1, h1.hi, h2.hi]
  refine ⟨R, R', e1, f1, l, u, fun x hx k hk => ?_⟩
  have hx' : R'.InDom x := fun a => by rw [l, u]; exact hx a
  have dom : ∀ {N : Nrb K (d + 1)}, N.Valid → N.InDom (fun a => affMap (min (N1.lo a) (N2.lo a)) (max (N1.hi a) (N2.hi a))
      (N.lo a) (N.hi a) (x a.castSucc)) := by
    intro N hN a
    have hce : min (N1.lo a) (N2.lo a) < max (N1.hi a) (N2.hi a) :=
      (min_le_left _ _).trans_lt ((Nrb.lo_lt_hi hv1 a).trans_le (le_max_left _ _))
    have hb := hx a.castSucc
    rw [(e6 a).1, (e6 a).2.1] at hb
    have hlt := Nrb.lo_lt_hi hN a
    constructor
    · have := (affMap_le hce hlt).2 hb.1
      rwa [affMap_left hce] at this
    · have := (affMap_le hce hlt).2 hb.2
      rwa [affMap_right hce] at this
  rw [f7 x hx' k hk, e7 x hx k hk]
  simp only [h1.lo, h1.hi, h2.lo, h2.hi]
  rw [h1.eval _ (dom hv1) k hk, h2.eval _ (dom hv2) k hk]

/-- C103: coons patches between the same curves are the same map -/
theorem C103_coons_partial {eps : K} (heps : 0 < eps) (M M' : Cad.CoonsMem K) {C0 C1 C0' C1' : Fin 2 → Nrb K 1}
    (hC : CoonsCurves eps C0 C1) (hC' : CoonsCurves eps C0' C1') (h0 : ∀ i, (C0 i).Alike (C0' i))
    (h1 : ∀ i, (C1 i).Alike (C1' i)) (hgap : ∀ i j : Fin 2, ∀ k < 3, cornerGap C0 C1 i j k ≤ 1 / 10 ^ 15) :
    ∃ R R', Cad.coons eps M (C0 0) (C0 1) (C1 0) (C1 1) = .ok R ∧
      Cad.coons eps M' (C0' 0) (C0' 1) (C1' 0) (C1' 1) = .ok R' ∧ R.Alike R' := by
  have ends : ∀ {C C' : Nrb K 1}, C.Valid → C.Alike C' → ∀ j, ∀ k < 4, C'.eval (C'.endParam j) k = C.eval (C.endParam j) k := by
    intro C C' hv h j k hk
    have e : C'.endParam j = C.endParam j := by
      unfold Nrb.endParam
      rw [h.lo, h.hi]
    rw [e]
    exact h.eval _ (Nrb.endParam_inDom hv j) k hk
  have pr : ∀ {C C' : Nrb K 1}, C.Valid → C.Alike C' → ∀ j, ∀ k < 4, C'.proj (C'.endParam j) k = C.proj (C.endParam j) k := by
    intro C C' hv h j k hk
    unfold Nrb.proj
    rw [ends hv h j k hk, ends hv h j 3 (by norm_num)]
  obtain ⟨R, e1, hv, _, l0, u0, l1, u1, hR⟩ := coons_formula heps M hC.valid0 hC.valid1 rfl rfl rfl rfl hC.pair0 hC.pair1 hgap
  obtain ⟨R', e1', hv', _, l0', u0', l1', u1', hR'⟩ := coons_formula heps M' hC'.valid0 hC'.valid1 rfl rfl rfl rfl hC'.pair0
    hC'.pair1 (fun i j k hk => by
      rw [pr (hC.valid1 j) (h1 j) i k (by omega), pr (hC.valid0 i) (h0 i) j k (by omega)]
      exact hgap i j k hk)
  have l : ∀ a, R'.lo a = R.lo a := fun a => by
    fin_cases a
    · exact l0'.trans (by rw [(h1 0).lo, (h1 1).lo, ← l0]; rfl)
    · exact l1'.trans (by rw [(h0 0).lo, (h0 1).lo, ← l1]; rfl)
  have u : ∀ a, R'.hi a = R.hi a := fun a => by
    fin_cases a
    · exact u0'.trans (by rw [(h1 0).hi, (h1 1).hi, ← u0]; rfl)
    · exact u1'.trans (by rw [(h0 0).hi, (h0 1).hi, ← u1]; rfl)
  refine ⟨R, R', e1, e1', l, u, fun x hx k hk => ?_⟩
  have hx' : R'.InDom x := fun a => by rw [l, u]; exact hx a
  have dom : ∀ {C : Nrb K 1}, C.Valid → ∀ b, C.InDom (fun a => affMap (R.lo b) (R.hi b) (C.lo a) (C.hi a) (x b)) := by
    intro C hC b a
    have hce := Nrb.lo_lt_hi hv b
    have hlt := Nrb.lo_lt_hi hC a
    constructor
    · have := (affMap_le hce hlt).2 (hx b).1
      rwa [affMap_left hce] at this
    · have := (affMap_le hce hlt).2 (hx b).2
      rwa [affMap_right hce] at this
  have ec : ∀ {C C' : Nrb K 1}, C.Valid → C.Alike C' → ∀ j, C'.endCoord j k = C.endCoord j k := by
    intro C C' hv h j
    unfold Nrb.endCoord
    split_ifs
    · rfl
    · exact pr hv h j k hk
  rw [hR' x hx' _ _ rfl rfl k hk, hR x hx _ _ rfl rfl k hk]
  simp only [l, u, (h0 0).lo, (h0 0).hi, (h0 1).lo, (h0 1).hi, (h1 0).lo, (h1 0).hi, (h1 1).lo, (h1 1).hi]
  rw [(h0 0).eval _ (dom (hC.valid0 0) 1) k hk, (h0 1).eval _ (dom (hC.valid0 1) 1) k hk,
    (h1 0).eval _ (dom (hC.valid1 0) 0) k hk, (h1 1).eval _ (dom (hC.valid1 1) 0) k hk,
    ec (hC.valid1 0) (h1 0), ec (hC.valid1 0) (h1 0), ec (hC.valid1 1) (h1 1), ec (hC.valid1 1) (h1 1)]

/-- C103: on objects with the same domain, `compat` changes representations only -/
theorem C103_compat_partial {eps : K} (heps : 0 < eps) {m : ℕ} (M1 M2 : Fin m → Fin (d + 1) → Mem K d) (hm : 2 ≤ m)
    {N : Fin m → Nrb K (d + 1)} (hv : ∀ i, (N i).Valid) {c e : Fin (d + 1) → K} (hlo : ∀ i a, (N i).lo a = c a)
    (hhi : ∀ i a, (N i).hi a = e a) (hcomp : ∀ a, Compatible eps N a (c a) (e a)) :
    ∃ R, Cad.compat eps M1 M2 N none = .ok R ∧ (∀ i, (R i).Valid) ∧ (∀ i, (N i).Alike (R i)) ∧
      ∀ a, Compatible eps R a (c a) (e a) := by
  have i0 : Fin m := ⟨0, by omega⟩
  have hc : ∀ a, IsLeast (Set.range fun i => (N i).lo a) (c a) := fun a =>
    ⟨⟨i0, hlo i0 a⟩, by rintro _ ⟨j, rfl⟩; exact (hlo j a).ge⟩
  have he : ∀ a, IsGreatest (Set.range fun i => (N i).hi a) (e a) := fun a =>
    ⟨⟨i0, hhi i0 a⟩, by rintro _ ⟨j, rfl⟩; exact (hhi j a).le⟩
  have hce := compat_lt hv i0 hc he
  obtain ⟨R, h1, h2, h3, h4, _⟩ := C39_compat_partial heps M1 M2 hm hv (axes := none) (A := List.finRange (d + 1)) rfl
    (List.nodup_finRange _) hc he (fun a _ => hcomp a)
  have g : ∀ a, Merged N R a (c a) (e a) := fun a => h4 a (List.mem_finRange a)
  refine ⟨R, h1, h2, fun i => ⟨fun a => by rw [(g a).lo, hlo], fun a => by rw [(g a).hi, hhi], fun x hx k _ => ?_⟩,
    fun a => (g a).compatible hv h2 (hce a) (hcomp a)⟩
  have hx' : (R i).InDom x := fun a => by
    rw [(g a).lo, (g a).hi, ← hlo i a, ← hhi i a]
    exact hx a
  rw [(h3 i).eval x hx']
  congr 2
  funext b
  rw [(g b).lo, (g b).hi, hlo, hhi, affMap_id (hce b)]

theorem Nrb.SameMap.alike {N N' : Nrb K d} (h : N.SameMap N') : N.Alike N' :=
  ⟨h.lo, h.hi, fun x hx k _ => by rw [h.eval x hx]⟩

namespace Ex

/-- a surface before and after the insertion of knots -/
theorem S_alike (jn : Scratch ℚ) : S.Alike (history env S (order1 jn)) ∧ (history env S (order1 jn)).Valid := by
  obtain ⟨h, _⟩ := added_history (env := env) (by norm_num [env]) (order1 jn) S_valid S_inner (order1_refines jn) (order1_canAdd jn)
  exact ⟨h.map.alike, h.valid⟩

example (jn : Scratch ℚ) := C103_extrude (by norm_num) S_valid (S_alike jn).2 (S_alike jn).1 displ123

/-- the section is refined, the trajectory is not -/
example (jn : Scratch ℚ) := C103_sweep (by norm_num) (by norm_num) S_valid (S_alike jn).2 T1_valid T1_valid S_weightsPos.ne
  (refine_pos (env := env) (by norm_num [env]) S_valid S_inner (order1_refines jn) (order1_canAdd jn) S_weightsPos).ne
  T1_weightsPos.ne T1_weightsPos.ne (S_alike jn).1 ⟨fun _ => rfl, fun _ => rfl, fun _ _ _ _ => rfl⟩

/-- a curve of degree 1 on `[0, 3]` -/
def K3 : Nrb ℚ 1 where
  shape := ![3]
  nc := 4
  len := ![5]
  U := ![vec [0, 0, 3 / 2, 3, 3]]
  P := fun idx c => if c = 3 then 1 else 5 - idx 0 + c

theorem K3_valid : K3.Valid := by apply valid_of <;> decide +kernel

theorem K13_compatible : ∀ a : Fin 1, Compatible (1 / 1000) ![K1, K3] a ((fun _ => 0 : Fin 1 → ℚ) a) ((fun _ => 3 : Fin 1 → ℚ) a) := by
  intro a
  fin_cases a
  show Compatible (1 / 1000) ![K1, K3] 0 0 3
  refine ⟨fun i => ?_, fun i => ?_, fun i => ?_, fun i j k l h1 h2 h3 h4 => ?_, fun i j _ h => ?_⟩
  · fin_cases i <;> exact clampedL_of_list (by decide +kernel)
  · fin_cases i <;> exact clampedR_of_list (by decide +kernel)
  · fin_cases i <;> exact multLe_of_list (by decide +kernel) (by decide +kernel)
  · have key : ∀ i j : Fin 2, ∀ k ∈ Finset.Ico 0 ((![K1, K3] i).len 0), ∀ l ∈ Finset.Ico 0 ((![K1, K3] j).len 0),
        affMap ((![K1, K3] i).lo 0) ((![K1, K3] i).hi 0) 0 3 ((![K1, K3] i).U 0 k) =
          affMap ((![K1, K3] j).lo 0) ((![K1, K3] j).hi 0) 0 3 ((![K1, K3] j).U 0 l) ∨
        1 / 1000 < |affMap ((![K1, K3] i).lo 0) ((![K1, K3] i).hi 0) 0 3 ((![K1, K3] i).U 0 k) -
          affMap ((![K1, K3] j).lo 0) ((![K1, K3] j).hi 0) 0 3 ((![K1, K3] j).U 0 l)| := by
      decide +kernel
    exact key i j k (Finset.mem_Ico.mpr ⟨h1, h2⟩) l (Finset.mem_Ico.mpr ⟨h3, h4⟩)
  · left
    fin_cases i <;> decide +kernel

/-- curves of degrees 2 and 1, ruled as they are and after `compat` (degree 2 both, knots of both) -/
example : ∃ Q R R', Cad.compat (1 / 1000) memA memB ![K1, K3] none = .ok Q ∧ Cad.ruled (1 / 1000) memA memB K1 K3 = .ok R ∧
    Cad.ruled (1 / 1000) memB memA (Q 0) (Q 1) = .ok R' ∧ R.Alike R' := by
  obtain ⟨Q, q1, q2, q3, q4⟩ := C103_compat_partial (eps := 1 / 1000) (by norm_num) memA memB le_rfl (N := ![K1, K3])
    (fun i => by fin_cases i; exacts [K1_valid, K3_valid]) (c := fun _ => 0) (e := fun _ => 3) (by decide +kernel)
    (by decide +kernel) K13_compatible
  have e1 : ∀ a, min (K1.lo a) (K3.lo a) = 0 ∧ max (K1.hi a) (K3.hi a) = 3 := by decide +kernel
  have hQ : ![Q 0, Q 1] = Q := by funext i; fin_cases i <;> rfl
  obtain ⟨R, R', r1, r2, r3⟩ := C103_ruled_partial (eps := 1 / 1000) (by norm_num) memA memB memB memA (d := 0) (by norm_num)
    K1_valid K3_valid (q2 0) (q2 1) (q3 0) (q3 1) (fun a => by rw [(e1 a).1, (e1 a).2]; exact K13_compatible a)
    (fun a => by
      rw [(q3 0).lo, (q3 1).lo, (q3 0).hi, (q3 1).hi, hQ]
      show Compatible _ _ a (min (K1.lo a) (K3.lo a)) (max (K1.hi a) (K3.hi a))
      rw [(e1 a).1, (e1 a).2]
      exact q4 a)
  exact ⟨Q, R, R', q1, r1, r2, r3⟩

/-- the left and right curves of a patch, of degrees 2 and 1, replaced by the results of `compat` -/
example (M M' : Cad.CoonsMem ℚ) : ∃ Q R R', Cad.compat (1 / 1000) memA memB (bd0 1) none = .ok Q ∧
    Cad.coons (1 / 1000) M (bd0 1 0) (bd0 1 1) (bd1 1 0 0) (bd1 1 0 1) = .ok R ∧
    Cad.coons (1 / 1000) M' (Q 0) (Q 1) (bd1 1 0 0) (bd1 1 0 1) = .ok R' ∧ R.Alike R' := by
  have e1 : min ((bd0 1 0).lo 0) ((bd0 1 1).lo 0) = 0 ∧ max ((bd0 1 0).hi 0) ((bd0 1 1).hi 0) = 1 := by decide +kernel
  obtain ⟨Q, q1, q2, q3, q4⟩ := C103_compat_partial (eps := 1 / 1000) (by norm_num) memA memB le_rfl (N := bd0 1)
    bd_curves1.valid0 (c := fun _ => 0) (e := fun _ => 1) (by decide +kernel) (by decide +kernel) (fun a => by
      fin_cases a
      have := bd_curves1.pair0
      rw [e1.1, e1.2] at this
      exact this)
  have hQ : CoonsCurves (1 / 1000) Q (bd1 1 0) := by
    refine ⟨q2, bd_curves1.valid1, ?_, bd_curves1.pair1⟩
    rw [(q3 0).lo, (q3 1).lo, (q3 0).hi, (q3 1).hi, e1.1, e1.2]
    exact q4 0
  obtain ⟨R, R', r1, r2, r3⟩ := C103_coons_partial (by norm_num) M M' bd_curves1 hQ q3
    (fun _ => ⟨fun _ => rfl, fun _ => rfl, fun _ _ _ _ => rfl⟩) (fun i j k hk => by rw [bd_gap1 i j k hk]; norm_num)
  exact ⟨Q, R, R', q1, r1, r2, r3⟩

/-- a line turned about an oblique axis, with and without a knot in its middle -/
example (junk junk' : ℤ → Fin 4 → ℝ) (jn : Scratch ℝ) : ∃ (N : Nrb ℝ 1) (R R' : Nrb ℝ 2),
    Cad.line (.vec [1, 2]) (.scalar 5) = .ok N ∧
    Cad.revolve junk N (.vec [0, 1]) (.vec [3, 0, -4]) (.one (-2)) = .ok R ∧
    Cad.revolve junk' (history (Env.real (1 / 1000)) N [(jn, .insert 0 (1 / 2) (some 1))]) (.vec [0, 1]) (.vec [3, 0, -4])
      (.one (-2)) = .ok R' ∧ R.Alike R' := by
  obtain ⟨N, hN, hU, _⟩ := C34_line (K := ℝ) (.vec [1, 2]) (.scalar 5) (by simp [ArrArg.toList])
    (by simp [ArrArg.toList])
  have hd : IsDispl (.vec [0, 1]) none (![0, 1, 0] : Fin 3 → ℝ) := by
    have := IsDispl.vec (K := ℝ) [0, 1] (by norm_num)
    have e : (fun i : Fin 3 => ([0, 1] : List ℝ).getD i 0) = ![0, 1, 0] := by
      funext i; fin_cases i <;> rfl
    rwa [e] at this
  have e1 : addedAll (0 : Fin 1) [(jn, Geo.insert (0 : ℤ) (1 / 2 : ℝ) (some 1))] = {1 / 2} := by
    simp [addedAll, Geo.added, normAxis_self]
    rfl
  obtain ⟨h, _⟩ := added_history (env := Env.real (1 / 1000)) (by norm_num [Env.real]) [(jn, Geo.insert 0 (1 / 2) (some 1))]
    hU.valid (line_inner hU)
    (by
      intro c hc
      obtain rfl := List.mem_singleton.1 hc
      exact ⟨by decide, 0, rfl⟩)
    (by
      intro a
      rw [Subsingleton.elim a 0, e1]
      obtain ⟨hl, u0, u1, u2, u3⟩ := line_knots hU
      refine ⟨?_, ?_, ?_, ?_, ?_⟩ <;> intro x hx <;> obtain rfl := Multiset.mem_singleton.1 hx
      · rw [hU.lo]; norm_num
      · rw [hU.hi]; norm_num
      · intro j j0 j3
        rw [hl] at j3
        right
        obtain rfl | rfl | rfl | rfl : j = 0 ∨ j = 1 ∨ j = 2 ∨ j = 3 := by omega
        all_goals simp only [u0, u1, u2, u3]
        all_goals norm_num [abs_of_nonneg, abs_of_nonpos, Env.real]
      · intro y hy
        left
        exact (Multiset.mem_singleton.1 hy).symm
      · rw [line_mult hU (by norm_num) (by norm_num), hU.degree]
        simp)
  obtain ⟨R, R', hR, hR', g⟩ := C103_revolve junk junk' (by norm_num) hU.valid h.valid h.map.alike hd oblique_axis
    (by simp; norm_num) (.one (-2)) (by simp [angles]) (by
      show |(-2 : ℝ) - 0| < _
      rw [sub_zero, abs_neg, abs_of_pos (by norm_num)]
      linarith [Real.pi_gt_three])
  exact ⟨N, R, R', hN, hR, hR', g⟩

end Ex
end Igakit
