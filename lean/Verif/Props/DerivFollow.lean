import Verif.Spec.DerivFollow
import Verif.Proofs.NrbSub
import Verif.Props.Part
import Verif.Props.Averages
import Verif.Props.History
import Verif.Proofs.Join
import Mathlib.Analysis.Calculus.Deriv.Shift

/-!
# C86: derivatives follow the object
-/

set_option linter.unusedSectionVars false

namespace Igakit
open Spec

variable {d : ℕ} {N N' : Nrb ℝ d} {x : Fin d → ℝ}

theorem denom_ne (hv : N.Valid) (hw : ∀ idx, N.InNet idx → 0 < N.P idx 3) {y : Fin d → ℝ} (hy : N.InDom y) : N.denom y ≠ 0 :=
  (Nrb.eval_pos hv hy (fun idx h => hw idx fun a => by have := h a; unfold Nrb.n at this; omega)).ne'

theorem net_ne (hw : ∀ idx, N.InNet idx → N.P idx 3 ≠ 0) : ∀ idx, (∀ a, 0 ≤ idx a ∧ idx a ≤ N.n a) → N.P idx 3 ≠ 0 :=
  fun idx h => hw idx fun a => by have := h a; unfold Nrb.n at this; omega

/-- equal maps on a box have equal derivatives there -/
theorem derivAt_same (J J' : Junk ℝ) (hv : N.Valid) (hv' : N'.Valid) (hd : d = 1 ∨ d = 2 ∨ d = 3) {T : Fin d → Set ℝ}
    (hT : N.SubCell x T) (hT' : N'.SubCell x T) (hden : ∀ y, N.InDom y → N.denom y ≠ 0)
    (hmap : ∀ y, N.InDom y → N'.InDom y → N'.eval y = N.eval y) {F F' : (Fin d → ℤ) → ℕ → ℝ} {c k : ℕ}
    (hF : N.ratField F c = fun y => N.proj y k) (hF' : N'.ratField F' c = fun y => N'.proj y k) {m : ℕ} (hm : m ≤ 3)
    (l : List (Fin d)) (hl : l.length ≤ m) : N'.derivAt J' m F' x l c = N.derivAt J m F x l c := by
  have e : ∀ y, (∀ a, y a ∈ T a) → N'.eval y = N.eval y := fun y hy => hmap y (SubCell.inDom hv hT hy) (SubCell.inDom hv' hT' hy)
  rw [derivAt_sub J hv hd hT (fun y hy => hden y (SubCell.inDom hv hT hy)) hm F c l hl,
    derivAt_sub J' hv' hd hT' (fun y hy => ?_) hm F' c l hl, hF, hF']
  · refine pd_congr (fun y hy => ?_) l x hT.mem
    unfold Nrb.proj
    rw [e y hy]
  · unfold Nrb.denom
    rw [e y hy]
    exact hden y (SubCell.inDom hv hT hy)

/-- C86: derivatives depend on the map only: two objects that agree where both are defined have the same derivatives up to third order
and the same mapped gradients.  Parameters may be knots; then it is the derivative from the right, and from the left at the end of the
domain, which therefore has to be the end of both or of none. -/
theorem C86_same (hv : N.Valid) (hv' : N'.Valid) (hd : d = 1 ∨ d = 2 ∨ d = 3) (hw : ∀ idx, N.InNet idx → 0 < N.P idx 3)
    (hw' : ∀ idx, N'.InNet idx → N'.P idx 3 ≠ 0) (hnc : N'.nc = N.nc)
    (hmap : ∀ y, N.InDom y → N'.InDom y → N'.eval y = N.eval y) {r : Fin d → ℤ} {X : Fin d → ℤ → ℝ} (hr : ∀ a, 0 ≤ r a)
    (hx : ∀ a i, 0 ≤ i → i ≤ r a → N.lo a ≤ X a i ∧ X a i ≤ N.hi a)
    (hx' : ∀ a i, 0 ≤ i → i ≤ r a → N'.lo a ≤ X a i ∧ X a i ≤ N'.hi a)
    (hs : ∀ a i, 0 ≤ i → i ≤ r a → (X a i = N.hi a ↔ X a i = N'.hi a)) : N.SameDerivs N' r X := by
  have n1 := net_ne fun idx h => (hw idx h).ne'
  have n2 := net_ne hw'
  have hfc : N'.firstComp = N.firstComp := by unfold Nrb.firstComp; rw [hnc]
  have hbox : ∀ g : Fin d → ℤ, (∀ a, 0 ≤ g a ∧ g a ≤ r a) → ∃ T, N.SubCell (fun a => X a (g a)) T ∧ N'.SubCell (fun a => X a (g a)) T := by
    intro g hg
    refine common_box hv hv' (fun a => hx a _ (hg a).1 (hg a).2) (fun a => hx' a _ (hg a).1 (hg a).2) fun a => ?_
    have h1 := hx a _ (hg a).1 (hg a).2
    have h2 := hx' a _ (hg a).1 (hg a).2
    have h3 := hs a _ (hg a).1 (hg a).2
    by_cases h : X a (g a) = N.hi a
    · exact Or.inr ⟨h, h3.1 h⟩
    · exact Or.inl ⟨lt_of_le_of_ne h1.2 h, lt_of_le_of_ne h2.2 fun h' => h (h3.2 h')⟩
  have hden := fun y (hy : N.InDom y) => denom_ne hv hw hy
  constructor
  · intro J J' order h1 h3
    obtain ⟨F, e1, e2⟩ := deriv_default J hv hd h1 h3 n1
    obtain ⟨F', e1', e2'⟩ := deriv_default J' hv' hd h1 h3 n2
    refine ⟨_, _, (e2 hr hx).1, (e2' hr hx').1, fun g hg l hl c => ?_⟩
    obtain ⟨T, t1, t2⟩ := hbox g hg
    exact derivAt_same J J' hv hv' hd t1 t2 hden hmap (e1 c) ((e1' c).trans (by rw [hfc])) h3 l hl.le
  · intro J J'
    obtain ⟨F, e1, e2⟩ := deriv_default J hv hd (order := 1) le_rfl (by omega) n1
    obtain ⟨F', e1', e2'⟩ := deriv_default J' hv' hd (order := 1) le_rfl (by omega) n2
    obtain ⟨G, g1, g2⟩ := (e2 hr hx).2
    obtain ⟨G', g1', g2'⟩ := (e2' hr hx').2
    refine ⟨G, G', g1, g1', fun g hg i c => ?_⟩
    obtain ⟨T, t1, t2⟩ := hbox g hg
    rw [g2, g2', mappedAt_derivAt, mappedAt_derivAt]
    have a1 : ∀ j : Fin d, N'.derivAt J' 1 F' (fun a => X a (g a)) [j] c = N.derivAt J 1 F (fun a => X a (g a)) [j] c := fun j =>
      derivAt_same J J' hv hv' hd t1 t2 hden hmap (e1 c) ((e1' c).trans (by rw [hfc])) (by omega) [j] (by simp)
    have a2 : (fun i j : Fin d => N'.derivAt J' 1 N'.geoF (fun a => X a (g a)) [j] i) =
        fun i j : Fin d => N.derivAt J 1 N.geoF (fun a => X a (g a)) [j] i := by
      funext i j
      exact derivAt_same J J' hv hv' hd t1 t2 hden hmap (geoF_proj n1 i) (geoF_proj n2 i) (by omega) [j] (by simp)
    rw [a2]
    simp only [a1]

/-- C86: calls that neither change parameters nor transform do not change derivatives: `insert`, `refine`, `elevate`, `clamp`, `unclamp`,
and `reverse`, `swap`, `transpose`, `remap`, `transform` if in the end they cancel. -/
theorem C86_history {env : Env ℝ} (heps : 0 < env.eps) (hv : N.Valid) (hm : ∀ a, N.InnerMult a) (hd : d = 1 ∨ d = 2 ∨ d = 3)
    (hw : ∀ idx, N.InNet idx → 0 < N.P idx 3) {p : List (Call ℝ)} (ht : TameAll env N p)
    (hs : placement env N (Placed.start N) p = Placed.start N)
    (hw' : (∀ c ∈ p, c.2.Adds) ∨ ∀ idx, (history env N p).InNet idx → (history env N p).P idx 3 ≠ 0) {r : Fin d → ℤ}
    {X : Fin d → ℤ → ℝ} (hr : ∀ a, 0 ≤ r a) (hx : ∀ a i, 0 ≤ i → i ≤ r a → N.lo a ≤ X a i ∧ X a i ≤ N.hi a) :
    N.SameDerivs (history env N p) r X := by
  have hF := C46_history heps hv hm p ht
  rw [hs] at hF
  have e1 : ∀ y, (Placed.start N).par y = y := fun y => by funext i; simp [Placed.par, Placed.start]
  have e2 : ∀ v, (Placed.start N).space v = v := fun v => by
    funext c
    unfold Placed.space Placed.start
    split_ifs with h
    · simp
    · rfl
  have hlo : (history env N p).lo = N.lo := hF.lo
  have hhi : (history env N p).hi = N.hi := hF.hi
  refine C86_same hv hF.valid hd hw ?_ hF.nc (fun y hy _ => ?_) hr hx (by rw [hlo, hhi]; exact hx) (fun a i _ _ => by rw [hhi])
  · rcases hw' with h | h
    · intro idx hi
      have hA := C83_history heps hv hm p ht h
      have e : (Placed.start N).mat = fun i j => if i = j then 1 else 0 := rfl
      rw [hs, e, transform_one] at hA
      exact (C83_points hA (T := Set.univ) convex_univ hw (fun _ _ => trivial) hi).1.ne'
    · exact h
  · have := hF.eval y hy
    rwa [e1, e2] at this

/-- C86: a slice has the derivatives of the object.  At its last parameter it has the derivative from the left, so there the object must
end too. -/
theorem C86_slice {eps : ℝ} (heps : 0 < eps) (jk : ℤ → ℝ) (je : ℤ → (Fin d → ℤ) → ℕ → ℝ) {N : Nrb ℝ (d + 1)} (hv : N.Valid)
    (hi : ∀ a, N.InnerMult a) (hd : d + 1 = 1 ∨ d + 1 = 2 ∨ d + 1 = 3) (hw : ∀ idx, N.InNet idx → 0 < N.P idx 3)
    {axis : ℤ} {a : Fin (d + 1)} (ha : normAxis (d + 1) axis = .ok a) {start stop : Option ℝ}
    (h : N.CanSlice eps a (start.getD (N.lo a)) (stop.getD (N.hi a))) {r : Fin (d + 1) → ℤ} {X : Fin (d + 1) → ℤ → ℝ}
    (hr : ∀ b, 0 ≤ r b) (hx : ∀ b i, 0 ≤ i → i ≤ r b → N.lo b ≤ X b i ∧ X b i ≤ N.hi b)
    (hX : ∀ i, 0 ≤ i → i ≤ r a → start.getD (N.lo a) ≤ X a i ∧
      (X a i < stop.getD (N.hi a) ∨ X a i = N.hi a ∧ stop.getD (N.hi a) = N.hi a)) :
    ∃ N', N.slice eps jk je axis start stop = .ok N' ∧ N.SameDerivs N' r X := by
  obtain ⟨N', e1, e2⟩ := slice_part heps jk je hv ha h
  obtain ⟨N'', e1', e3⟩ := C83_slice heps jk je hv hi ha rfl rfl h.lo h.hi h.lt h.long h.sep0 h.sep1 h.mult
  obtain rfl : N' = N'' := by rw [e1] at e1'; exact Except.ok.inj e1'
  refine ⟨N', e1, ?_⟩
  have hlh : ∀ b, b ≠ a → N'.lo b = N.lo b ∧ N'.hi b = N.hi b := fun b hb => by
    obtain ⟨q1, q2⟩ := e2.others b hb
    have q3 := e2.degree b
    constructor
    · unfold Nrb.lo; rw [q2, q3]
    · rw [N'.hi_eq, N.hi_eq]; unfold Nrb.n; rw [q1, q2]
  refine C86_same hv e2.valid hd hw
    (fun idx hi => (C83_points e3 (T := Set.univ) convex_univ hw (fun _ _ => trivial) hi).1.ne') e2.nc (fun y _ hy => e2.map y hy) hr hx
    (fun b i i0 i1 => ?_) (fun b i i0 i1 => ?_)
  · by_cases hb : b = a
    · subst hb
      rw [e2.lo, e2.hi]
      refine ⟨(hX i i0 i1).1, ?_⟩
      rcases (hX i i0 i1).2 with q | q
      · exact q.le
      · rw [q.1, q.2]
    · rw [(hlh b hb).1, (hlh b hb).2]
      exact hx b i i0 i1
  · by_cases hb : b = a
    · subst hb
      rw [e2.hi]
      rcases (hX i i0 i1).2 with q | q
      · have := h.hi
        constructor <;> intro q' <;> linarith
      · rw [q.2]
    · rw [(hlh b hb).2]

theorem pd_section {f : (Fin (d + 1) → ℝ) → ℝ} {a : Fin (d + 1)} {u : ℝ} {T : Fin (d + 1) → Set ℝ} : ∀ (l : List (Fin d)) (y : Fin d → ℝ),
    pd (fun b => T (a.succAbove b)) l (fun y => f (a.insertNth (α := fun _ => ℝ) u y)) y =
      pd T (l.map a.succAbove) f (a.insertNth (α := fun _ => ℝ) u y) := by
  intro l
  induction l with
  | nil => intro y; rfl
  | cons b l ih =>
    intro y
    simp only [pd, List.map_cons]
    rw [Fin.insertNth_apply_succAbove]
    congr 1
    funext t
    rw [ih, Fin.insertNth_update]

/-- C86: derivatives of a section are those of the object in the remaining directions. -/
theorem C86_section {eps : ℝ} (heps : 0 < eps) (je : ℤ → (Fin d → ℤ) → ℕ → ℝ) {N : Nrb ℝ (d + 1)} (hv : N.Valid)
    (hi : ∀ a, N.InnerMult a) (hd : d = 1 ∨ d = 2) (hw : ∀ idx, N.InNet idx → 0 < N.P idx 3)
    {axis : ℤ} {a : Fin (d + 1)} (ha : normAxis (d + 1) axis = .ok a) {u : ℝ} (h : N.CanExtract eps a u) {r : Fin d → ℤ}
    {X : Fin d → ℤ → ℝ} (hr : ∀ b, 0 ≤ r b)
    (hx : ∀ b i, 0 ≤ i → i ≤ r b → N.lo (a.succAbove b) ≤ X b i ∧ X b i ≤ N.hi (a.succAbove b))
    (J J' : Junk ℝ) {order : ℕ} (h1 : 1 ≤ order) (h3 : order ≤ 3) :
    ∃ N' G G', N.extract eps je axis u = .ok N' ∧
      N.derivative J order none false (a.insertNth (α := fun _ => ℤ) 0 r) (a.insertNth (α := fun _ => ℤ → ℝ) (fun _ => u) X) = .ok G ∧
      N'.derivative J' order none false r X = .ok G' ∧
      ∀ g, (∀ b, 0 ≤ g b ∧ g b ≤ r b) → ∀ l : List (Fin d), l.length = order → ∀ c,
        G' g l c = G (a.insertNth (α := fun _ => ℤ) 0 g) (l.map a.succAbove) c := by
  obtain ⟨N', e1, e2, e3⟩ := C11_extract heps je hv ha h.lo h.hi h.sep h.mult h.right
  obtain ⟨N'', e1', e4⟩ := C83_extract heps je hv hi ha h
  obtain rfl : N' = N'' := by rw [e1] at e1'; exact Except.ok.inj e1'
  have hdeg : ∀ b, N'.degree b = N.degree (a.succAbove b) := fun b => by unfold Nrb.degree; rw [e3.shape, e3.len]
  have hn : ∀ b, N'.n b = N.n (a.succAbove b) := fun b => by unfold Nrb.n; rw [e3.shape]
  have hlo : ∀ b, N'.lo b = N.lo (a.succAbove b) := fun b => by unfold Nrb.lo; rw [hdeg, e3.U]
  have hhi : ∀ b, N'.hi b = N.hi (a.succAbove b) := fun b => by rw [N'.hi_eq, N.hi_eq, hn, e3.U]
  have n1 := net_ne fun idx h => (hw idx h).ne'
  have n2 : ∀ idx, (∀ b, 0 ≤ idx b ∧ idx b ≤ N'.n b) → N'.P idx 3 ≠ 0 := net_ne fun idx hi =>
    (C83_points e4 (T := Set.univ) convex_univ hw (fun _ _ => trivial) hi).1.ne'
  obtain ⟨F, f1, f2⟩ := deriv_default (N := N) J hv (by omega) h1 h3 n1
  obtain ⟨F', f1', f2'⟩ := deriv_default (N := N') J' e2 (by omega) h1 h3 n2
  have hfc : N'.firstComp = N.firstComp := by unfold Nrb.firstComp; rw [e3.nc]
  have hx0 : ∀ b i, 0 ≤ i → i ≤ (a.insertNth (α := fun _ => ℤ) 0 r) b →
      N.lo b ≤ (a.insertNth (α := fun _ => ℤ → ℝ) (fun _ => u) X) b i ∧ (a.insertNth (α := fun _ => ℤ → ℝ) (fun _ => u) X) b i ≤ N.hi b := by
    intro b
    refine Fin.succAboveCases a ?_ (fun b => ?_) b
    · intro i _ _
      rw [Fin.insertNth_apply_same]
      exact ⟨h.lo, h.hi⟩
    · intro i i0 i1
      rw [Fin.insertNth_apply_succAbove] at i1 ⊢
      exact hx b i i0 i1
  have hr0 : ∀ b, 0 ≤ (a.insertNth (α := fun _ => ℤ) 0 r) b := by
    intro b
    refine Fin.succAboveCases a ?_ (fun b => ?_) b
    · rw [Fin.insertNth_apply_same]
    · rw [Fin.insertNth_apply_succAbove]; exact hr b
  refine ⟨N', _, _, e1, (f2 hr0 hx0).1, (f2' hr (fun b i i0 i1 => by rw [hlo, hhi]; exact hx b i i0 i1)).1, fun g hg l hl c => ?_⟩
  have ex : (fun b => (a.insertNth (α := fun _ => ℤ → ℝ) (fun _ => u) X) b ((a.insertNth (α := fun _ => ℤ) 0 g) b)) =
      a.insertNth (α := fun _ => ℝ) u (fun b => X b (g b)) := by
    funext b
    refine Fin.succAboveCases a ?_ (fun b => ?_) b
    · simp
    · simp
  have hin : N.InDom (a.insertNth (α := fun _ => ℝ) u (fun b => X b (g b))) := by
    intro b
    refine Fin.succAboveCases a ?_ (fun b => ?_) b
    · rw [Fin.insertNth_apply_same]; exact ⟨h.lo, h.hi⟩
    · rw [Fin.insertNth_apply_succAbove]; exact hx b _ (hg b).1 (hg b).2
  obtain ⟨T, t1, -⟩ := common_box hv hv hin hin fun b => by
    rcases (hin b).2.eq_or_lt with q | q
    · exact Or.inr ⟨q, q⟩
    · exact Or.inl ⟨q, q⟩
  have t2 : N'.SubCell (fun b => X b (g b)) (fun b => T (a.succAbove b)) := by
    refine ⟨fun b => ?_, fun b => t1.uniq _, fun b t ht => ?_⟩
    · have := t1.mem (a.succAbove b)
      rwa [Fin.insertNth_apply_succAbove] at this
    · have := t1.span (a.succAbove b) t ht
      have e : N'.spanAt (fun b => X b (g b)) b = N.spanAt (a.insertNth (α := fun _ => ℝ) u (fun b => X b (g b))) (a.succAbove b) := by
        unfold Nrb.spanAt
        rw [hn, hdeg, e3.U, Fin.insertNth_apply_succAbove]
      rw [hn, hdeg, e3.U, e]
      exact this
  have hden : ∀ y, (∀ b, y b ∈ T b) → N.denom y ≠ 0 := fun y hy => denom_ne hv hw (SubCell.inDom hv t1 hy)
  rw [ex, derivAt_sub J hv (by omega) t1 hden h3 F c _ (by simpa using hl.le),
    derivAt_sub J' e2 (by omega) t2 (fun y hy => ?_) h3 F' c l hl.le, f1, f1', ← pd_section, hfc]
  · refine pd_congr (fun y _ => ?_) l _ t2.mem
    unfold Nrb.proj
    rw [e3.eval]
  · unfold Nrb.denom
    rw [e3.eval]
    refine hden _ fun b => ?_
    refine Fin.succAboveCases a ?_ (fun b => ?_) b
    · have := t1.mem a
      rw [Fin.insertNth_apply_same] at this ⊢
      exact this
    · rw [Fin.insertNth_apply_succAbove]
      exact hy b

/-! ## change of parameters -/

theorem update_par (s : Placed ℝ d) (hs : ∀ i, s.slope i ≠ 0) (hb : Function.Injective s.axis) (x : Fin d → ℝ) (i : Fin d) (t : ℝ) :
    Function.update (s.par x) i t = s.par (Function.update x (s.axis i) ((s.slope i)⁻¹ * (t - s.off i))) := by
  funext j
  unfold Placed.par
  by_cases h : j = i
  · subst h
    rw [Function.update_self, Function.update_self, mul_inv_cancel_left₀ (hs j)]
    ring
  · rw [Function.update_of_ne h, Function.update_of_ne fun e => h (hb e)]

theorem pdo_par (s : Placed ℝ d) (hs : ∀ i, s.slope i ≠ 0) (hb : Function.Injective s.axis) (f : (Fin d → ℝ) → ℝ) :
    ∀ (l : List (Fin d)) (x : Fin d → ℝ),
      pdo l f (s.par x) = (l.map fun i => (s.slope i)⁻¹).prod * pdo (l.map s.axis) (fun y => f (s.par y)) x := by
  intro l
  induction l with
  | nil => intro x; simp [pdo]
  | cons i l ih =>
    intro x
    simp only [pdo, List.map_cons, List.prod_cons]
    have e : (fun t => pdo l f (Function.update (s.par x) i t)) = fun t => (l.map fun i => (s.slope i)⁻¹).prod *
        (fun t => pdo (l.map s.axis) (fun y => f (s.par y)) (Function.update x (s.axis i) t)) ((s.slope i)⁻¹ * (t - s.off i)) := by
      funext t
      rw [update_par s hs hb, ih]
    rw [e, deriv_const_mul_field]
    have e' := deriv_comp_sub_const (fun t => (fun t => pdo (l.map s.axis) (fun y => f (s.par y)) (Function.update x (s.axis i) t))
      ((s.slope i)⁻¹ * t)) (s.off i) (s.par x i)
    have e'' := deriv_comp_mul_left (s.slope i)⁻¹ (fun t => pdo (l.map s.axis) (fun y => f (s.par y)) (Function.update x (s.axis i) t))
      (s.par x i - s.off i)
    rw [e', e'', smul_eq_mul]
    have : (s.slope i)⁻¹ * (s.par x i - s.off i) = x (s.axis i) := by
      unfold Placed.par
      rw [add_sub_cancel_right, inv_mul_cancel_left₀ (hs i)]
    rw [this]
    ring

theorem open_box (hv : N.Valid) (hx : N.InDom x) (ho : N.OffKnots x) : ∃ T, N.SubCell x T ∧ ∀ a, IsOpen (T a) := by
  have h := fun a => spanAt_ok hv hx a
  refine ⟨fun a => Set.Ioo (N.U a (N.spanAt x a)) (N.U a (N.spanAt x a + 1)), ⟨fun a => ?_, fun a => uniqueDiffOn_Ioo _ _, fun a t ht =>
    ⟨(h a).lo, (h a).hi, Or.inl ⟨ht.1.le, ht.2⟩⟩⟩, fun a => isOpen_Ioo⟩
  have hl := (h a).lo
  have hh := (h a).hi
  have h0 := (hv a).one_le
  have hlen := N.len_eq a
  rw [hv.degNat] at hl
  exact ⟨lt_of_le_of_ne (h a).left (ho a _ (by omega) (by omega)), lt_of_le_of_ne (h a).right (ho a _ (by omega) (by omega)).symm⟩

theorem space_weight {s : Placed ℝ d} (hs : s.Affine) (v : ℕ → ℝ) : s.space v 3 = v 3 := by
  unfold Placed.space
  rw [dif_pos (by omega)]
  have : (⟨3, by omega⟩ : Fin 4) = 3 := rfl
  rw [this, Fin.sum_univ_four, hs.left 0 (by decide), hs.left 1 (by decide), hs.left 2 (by decide), hs.one]
  simp

theorem par_surj (s : Placed ℝ d) (hs : ∀ i, s.slope i ≠ 0) (hb : Function.Bijective s.axis) (y : Fin d → ℝ) : ∃ x, s.par x = y := by
  refine ⟨fun b => (s.slope ((Equiv.ofBijective _ hb).symm b))⁻¹ * (y ((Equiv.ofBijective _ hb).symm b) - s.off ((Equiv.ofBijective _ hb).symm b)), ?_⟩
  funext i
  unfold Placed.par
  have : (Equiv.ofBijective _ hb).symm (s.axis i) = i := (Equiv.ofBijective _ hb).symm_apply_apply i
  dsimp only
  rw [this, mul_inv_cancel_left₀ (hs i)]
  ring

theorem derivAt_follow (J J' : Junk ℝ) (hv : N.Valid) (hd : d = 1 ∨ d = 2 ∨ d = 3) {s : Placed ℝ d} (hF : N.Follows N' s) (hs : s.Affine)
    (hden : ∀ y, N.InDom y → N.denom y ≠ 0) (hx : N.InDom x) (ho : N.OffKnots x) (ho' : N'.OffKnots (s.par x))
    {F F' : (Fin d → ℤ) → ℕ → ℝ} {c c' : ℕ} (hFF : ∀ y, N.InDom y → N'.ratField F' c' (s.par y) = N.ratField F c y)
    {m : ℕ} (hm : m ≤ 3) (l : List (Fin d)) (hl : l.length ≤ m) :
    N'.derivAt J' m F' (s.par x) l c' = (l.map fun i => (s.slope i)⁻¹).prod * N.derivAt J m F x (l.map s.axis) c := by
  obtain ⟨T, t1, t2⟩ := open_box hv hx ho
  obtain ⟨T', t1', t2'⟩ := open_box hF.valid ((hF.dom x).2 hx) ho'
  rw [derivAt_sub J' hF.valid hd t1' (fun y hy => ?_) hm F' c' l hl, pd_open t2' _ _ _ t1'.mem, pdo_par s hF.slope hF.axis.injective,
    derivAt_sub J hv hd t1 (fun y hy => hden y (SubCell.inDom hv t1 hy)) hm F c _ (by simpa using hl), ← pd_open t2 _ _ _ t1.mem]
  · congr 1
    exact pd_congr (fun y hy => hFF y (SubCell.inDom hv t1 hy)) _ _ t1.mem
  · obtain ⟨z, rfl⟩ := par_surj s hF.slope hF.axis y
    have hz := (hF.dom z).1 (SubCell.inDom hF.valid t1' hy)
    unfold Nrb.denom
    rw [hF.eval z hz, space_weight hs]
    exact hden z hz

theorem derivAt_add_mul (J : Junk ℝ) (m : ℕ) (F : (Fin d → ℤ) → ℕ → ℝ) (A : Fin 3 → ℝ) (b : ℝ) (l : List (Fin d)) (c c' : ℕ) :
    N.derivAt J m (fun idx _ => (∑ j : Fin 3, A j * F idx j) + b * 1) x l c =
      (∑ j : Fin 3, A j * N.derivAt J m F x l j) + b * N.derivAt J m (fun _ _ => 1) x l c' := by
  unfold Nrb.derivAt interpolate
  dsimp only
  simp only [mul_add, Finset.sum_add_distrib, Finset.mul_sum]
  congr 1
  · rw [Finset.sum_comm]
    exact Finset.sum_congr rfl fun _ _ => Finset.sum_congr rfl fun _ _ => by ring
  · exact Finset.sum_congr rfl fun _ _ => by ring

theorem derivAt_one (J : Junk ℝ) (hv : N.Valid) (hd : d = 1 ∨ d = 2 ∨ d = 3) (hden : ∀ y, N.InDom y → N.denom y ≠ 0) (hx : N.InDom x)
    (ho : N.OffKnots x) {m : ℕ} (hm : m ≤ 3) (i : Fin d) (l : List (Fin d)) (hl : (i :: l).length ≤ m) (c : ℕ) :
    N.derivAt J m (fun _ _ => 1) x (i :: l) c = 0 := by
  obtain ⟨T, t1, t2⟩ := open_box hv hx ho
  rw [derivAt_sub J hv hd t1 (fun y hy => hden y (SubCell.inDom hv t1 hy)) hm _ c _ hl, pd_congr (g := fun _ => 1) (fun y hy => ?_) _ _ t1.mem,
    pd_const]
  have e : N.ratField (fun _ _ => 1) c y = N.denom y / N.denom y := by
    unfold Nrb.ratField
    simp only [mul_one]
    unfold Nrb.denom Nrb.eval
    rw [tensor_apply]
  rw [e, div_self (hden y (SubCell.inDom hv t1 hy))]

/-- coordinate `c` of the control points after the matrix -/
theorem ratField_affine (hw : ∀ idx, (∀ a, 0 ≤ idx a ∧ idx a ≤ N.n a) → N.P idx 3 ≠ 0) (hden : ∀ y, N.InDom y → N.denom y ≠ 0)
    (A : Fin 3 → ℝ) (b : ℝ) (c : ℕ) {y : Fin d → ℝ} (hy : N.InDom y) :
    N.ratField (fun idx _ => (∑ j : Fin 3, A j * N.geoF idx j) + b * 1) c y = (∑ j : Fin 3, A j * N.proj y j) + b := by
  have e : N.ratField (fun idx _ => (∑ j : Fin 3, A j * N.geoF idx j) + b * 1) c y =
      (∑ j : Fin 3, A j * N.ratField N.geoF j y) + b * (N.denom y / N.denom y) := by
    unfold Nrb.ratField
    have e1 : (fun idx => N.P idx 3 * ((∑ j : Fin 3, A j * N.geoF idx j) + b * 1)) =
        (fun idx => ∑ j : Fin 3, A j * (N.P idx 3 * N.geoF idx j)) + b • fun idx => N.P idx 3 := by
      funext idx
      simp only [Pi.add_apply, Pi.smul_apply, smul_eq_mul, mul_add, Finset.mul_sum]
      congr 1
      · exact Finset.sum_congr rfl fun _ _ => by ring
      · ring
    rw [e1, tensor_add, tensor_smul, tensor_sum, add_div, Finset.sum_div]
    congr 1
    · exact Finset.sum_congr rfl fun _ _ => by ring
    · rw [smul_eq_mul, mul_div_assoc]
      unfold Nrb.denom Nrb.eval
      rw [tensor_apply]
  rw [e, div_self (hden y hy), mul_one]
  congr 1
  exact Finset.sum_congr rfl fun j _ => by rw [geoF_proj hw]

theorem proj_follow {s : Placed ℝ d} (hF : N.Follows N' s) (hs : s.Affine) (hden : ∀ y, N.InDom y → N.denom y ≠ 0) {y : Fin d → ℝ}
    (hy : N.InDom y) : (∀ c, N'.proj (s.par y) (4 + c) = N.proj y (4 + c)) ∧
      ∀ c : Fin 3, N'.proj (s.par y) c = (∑ j : Fin 3, s.mat c.castSucc j.castSucc * N.proj y j) + s.mat c.castSucc 3 := by
  have h3 : N.eval y 3 ≠ 0 := hden y hy
  constructor
  · intro c
    unfold Nrb.proj
    rw [hF.eval y hy, space_weight hs]
    unfold Placed.space
    rw [dif_neg (by omega)]
  · intro c
    unfold Nrb.proj
    rw [hF.eval y hy, space_weight hs]
    unfold Placed.space
    have hc : (c : ℕ) < 4 := by omega
    rw [dif_pos hc]
    have e : (⟨c, hc⟩ : Fin 4) = c.castSucc := rfl
    rw [e, Fin.sum_univ_four, Fin.sum_univ_three]
    have e0 : ((0 : Fin 4) : ℕ) = 0 := rfl
    have e1 : ((1 : Fin 4) : ℕ) = 1 := rfl
    have e2 : ((2 : Fin 4) : ℕ) = 2 := rfl
    have e3 : ((3 : Fin 4) : ℕ) = 3 := rfl
    have f0 : ((0 : Fin 3) : ℕ) = 0 := rfl
    have f1 : ((1 : Fin 3) : ℕ) = 1 := rfl
    have f2 : ((2 : Fin 3) : ℕ) = 2 := rfl
    have g0 : (0 : Fin 3).castSucc = 0 := rfl
    have g1 : (1 : Fin 3).castSucc = 1 := rfl
    have g2 : (2 : Fin 3).castSucc = 2 := rfl
    rw [e0, e1, e2, e3, f0, f1, f2, g0, g1, g2]
    field_simp

/-- derivatives of the coordinates -/
theorem derivAt_geo (J J' : Junk ℝ) (hv : N.Valid) (hd : d = 1 ∨ d = 2 ∨ d = 3) {s : Placed ℝ d} (hF : N.Follows N' s) (hs : s.Affine)
    (hw : ∀ idx, (∀ a, 0 ≤ idx a ∧ idx a ≤ N.n a) → N.P idx 3 ≠ 0) (hden : ∀ y, N.InDom y → N.denom y ≠ 0)
    (hx : N.InDom x) (ho : N.OffKnots x) (ho' : N'.OffKnots (s.par x)) {F F' : (Fin d → ℤ) → ℕ → ℝ}
    (h1 : ∀ c, N.ratField F c = fun y => N.proj y c) (c : Fin 3) (h1' : N'.ratField F' c = fun y => N'.proj y c) {m : ℕ} (hm : m ≤ 3)
    (i : Fin d) (l : List (Fin d)) (hl : (i :: l).length ≤ m) :
    N'.derivAt J' m F' (s.par x) (i :: l) c = ((i :: l).map fun i => (s.slope i)⁻¹).prod *
      ∑ j : Fin 3, s.mat c.castSucc j.castSucc * N.derivAt J m F x ((i :: l).map s.axis) j := by
  obtain ⟨T, t1, t2⟩ := open_box hv hx ho
  have e : ∀ j : ℕ, N.derivAt J m F x ((i :: l).map s.axis) j = N.derivAt J m N.geoF x ((i :: l).map s.axis) j := fun j => by
    rw [derivAt_sub J hv hd t1 (fun y hy => hden y (SubCell.inDom hv t1 hy)) hm F j _ (by simpa using hl),
      derivAt_sub J hv hd t1 (fun y hy => hden y (SubCell.inDom hv t1 hy)) hm N.geoF j _ (by simpa using hl), h1, geoF_proj hw]
  rw [derivAt_follow J J' hv hd hF hs hden hx ho ho' (c := 0) (F := fun idx _ => (∑ j : Fin 3, s.mat c.castSucc j.castSucc * N.geoF idx j) +
    s.mat c.castSucc 3 * 1) (fun y hy => ?_) hm _ hl, derivAt_add_mul J m N.geoF _ _ _ 0 0, List.map_cons (f := s.axis),
    derivAt_one J hv hd hden hx ho hm _ _ (by simpa using hl), mul_zero, add_zero]
  · simp only [← List.map_cons, e]
  · rw [ratField_affine hw hden _ _ _ hy, h1']
    exact (proj_follow hF hs hden hy).2 c

/-- C86: after any calls that `C46_history` covers, derivatives are those of the original object by the chain rule: a derivative by a
present parameter is that by the original parameter it stems from divided by the factor of the change, and coordinates are multiplied
by the matrix that has been applied.  Parameters are no knots, before and after. -/
theorem C86_chain (hv : N.Valid) (hd : d = 1 ∨ d = 2 ∨ d = 3) (hw : ∀ idx, N.InNet idx → 0 < N.P idx 3)
    {s : Placed ℝ d} (hF : N.Follows N' s) (hs : s.Affine) (hw' : ∀ idx, N'.InNet idx → N'.P idx 3 ≠ 0)
    {r r' : Fin d → ℤ} {X X' : Fin d → ℤ → ℝ} (hr : ∀ a, 0 ≤ r a) (hr' : ∀ a, 0 ≤ r' a)
    (hx : ∀ a i, 0 ≤ i → i ≤ r a → N.lo a ≤ X a i ∧ X a i ≤ N.hi a)
    (hx' : ∀ a i, 0 ≤ i → i ≤ r' a → s.lo a ≤ X' a i ∧ X' a i ≤ s.hi a) : N.ChainDerivs N' s r r' X X' := by
  intro J J' order h1 h3
  have n1 := net_ne fun idx h => (hw idx h).ne'
  have n2 := net_ne hw'
  have hden := fun y (hy : N.InDom y) => denom_ne hv hw hy
  obtain ⟨F, f1, f2⟩ := deriv_default J hv hd h1 h3 n1
  obtain ⟨F', f1', f2'⟩ := deriv_default J' hF.valid hd h1 h3 n2
  refine ⟨_, _, (f2 hr hx).1, (f2' hr' (by rw [hF.lo, hF.hi]; exact hx')).1, fun g g' hg hgg ho ho' l hl => ?_⟩
  have hpar : (fun a => X' a (g' a)) = s.par (fun a => X a (g a)) := funext fun a => hgg a
  have hin : N.InDom (fun a => X a (g a)) := fun a => hx a _ (hg a).1 (hg a).2
  rw [hpar] at ho' ⊢
  have hfc : N'.firstComp = N.firstComp := by unfold Nrb.firstComp; rw [hF.nc]
  constructor
  · intro hnc c
    refine derivAt_follow J J' hv hd hF hs hden hin ho ho' (fun y hy => ?_) h3 l hl.le
    rw [f1, f1', hfc]
    unfold Nrb.firstComp
    rw [if_pos hnc]
    exact (proj_follow hF hs hden hy).1 c
  · intro hnc c
    have e0 : N.firstComp = 0 := by unfold Nrb.firstComp; rw [if_neg (by omega)]
    rw [hfc, e0] at f1'
    rw [e0] at f1
    simp only [Nat.zero_add] at f1 f1'
    match l, hl with
    | [], hl => simp at hl; omega
    | i :: l, hl => exact derivAt_geo J J' hv hd hF hs n1 hden hin ho ho' f1 c (f1' c) h3 i l hl.le

theorem inverse_param (hd : d = 1 ∨ d = 2 ∨ d = 3) (A : Fin d → Fin d → ℝ) (hA : (Matrix.of A).det ≠ 0) (m : Fin d → ℝ) (hm : ∀ i, m i ≠ 0)
    (σ : Fin d → Fin d) (hσ : Function.Bijective σ) (b : Fin d → ℝ) (i : Fin d) :
    ∑ j, inverse d (fun i j => (m j)⁻¹ * A i (σ j)) j i * ((m j)⁻¹ * b (σ j)) = ∑ j, inverse d A j i * b j := by
  have hdet : (Matrix.of fun i j => (m j)⁻¹ * A i (σ j)).det ≠ 0 := by
    have e := Matrix.det_mul_row (fun j => (m j)⁻¹) (Matrix.of fun i j => A i (σ j))
    have e2 := Matrix.det_permute' (Equiv.ofBijective σ hσ) (Matrix.of A)
    have e3 : (Matrix.of A).submatrix id (Equiv.ofBijective σ hσ) = Matrix.of fun i j => A i (σ j) := rfl
    rw [e3] at e2
    have e4 : (Matrix.of fun i j => (m j)⁻¹ * (Matrix.of fun i j => A i (σ j)) i j) = Matrix.of fun i j => (m j)⁻¹ * A i (σ j) := rfl
    rw [e4] at e
    rw [e, e2]
    refine mul_ne_zero (Finset.prod_ne_zero_iff.mpr fun i _ => inv_ne_zero (hm i)) (mul_ne_zero ?_ hA)
    rcases Int.units_eq_one_or (Equiv.Perm.sign (Equiv.ofBijective σ hσ)) with h | h <;> rw [h] <;> simp
  rw [← C29_determinant hd] at hA hdet
  obtain ⟨p1, p2⟩ := C29_inverse hd _ hA
  obtain ⟨q1, q2⟩ := C29_inverse hd _ hdet
  have hb : ∀ k, b k = ∑ i', (∑ j, inverse d A j i' * b j) * A i' k := fun k => by
    simp only [Finset.sum_mul]
    rw [Finset.sum_comm, Finset.sum_congr rfl (g := fun j => b j * if j = k then 1 else 0)]
    · simp
    · intro j _
      rw [← p1 j k, Finset.mul_sum]
      exact Finset.sum_congr rfl fun i _ => by ring
  generalize hv : (fun i' => ∑ j, inverse d A j i' * b j) = v at hb
  have hv' : ∑ j, inverse d A j i * b j = v i := by rw [← hv]
  have hb' : ∀ k, b k = ∑ i', v i' * A i' k := fun k => by rw [← hv]; exact hb k
  rw [hv', Finset.sum_congr rfl (g := fun j => ∑ i', v i' * ((m j)⁻¹ * A i' (σ j) * inverse d (fun i j => (m j)⁻¹ * A i (σ j)) j i))]
  · rw [Finset.sum_comm]
    simp only [← Finset.mul_sum, q2]
    simp
  · intro j _
    rw [hb', Finset.mul_sum, Finset.mul_sum]
    exact Finset.sum_congr rfl fun i' _ => by ring

/-- C86: the mapped gradient, which is by the coordinates, does not depend on the parameters. -/
theorem C86_mapped (hv : N.Valid) (hd : d = 1 ∨ d = 2 ∨ d = 3) (hw : ∀ idx, N.InNet idx → 0 < N.P idx 3)
    {s : Placed ℝ d} (hF : N.Follows N' s) (hs : ∀ i j, s.mat i j = if i = j then 1 else 0) (hw' : ∀ idx, N'.InNet idx → N'.P idx 3 ≠ 0)
    {r r' : Fin d → ℤ} {X X' : Fin d → ℤ → ℝ} (hr : ∀ a, 0 ≤ r a) (hr' : ∀ a, 0 ≤ r' a)
    (hx : ∀ a i, 0 ≤ i → i ≤ r a → N.lo a ≤ X a i ∧ X a i ≤ N.hi a)
    (hx' : ∀ a i, 0 ≤ i → i ≤ r' a → s.lo a ≤ X' a i ∧ X' a i ≤ s.hi a) : N.SameMapped N' s r r' X X' := by
  intro J J'
  have n1 := net_ne fun idx h => (hw idx h).ne'
  have n2 := net_ne hw'
  have hden := fun y (hy : N.InDom y) => denom_ne hv hw hy
  obtain ⟨F, f1, f2⟩ := deriv_default J hv hd (order := 1) le_rfl (by omega) n1
  obtain ⟨F', f1', f2'⟩ := deriv_default J' hF.valid hd (order := 1) le_rfl (by omega) n2
  obtain ⟨G, g1, g2⟩ := (f2 hr hx).2
  obtain ⟨G', g1', g2'⟩ := (f2' hr' (by rw [hF.lo, hF.hi]; exact hx')).2
  refine ⟨G, G', g1, g1', fun g g' hg hgg ho ho' hJ i c => ?_⟩
  have hpar : (fun a => X' a (g' a)) = s.par (fun a => X a (g a)) := funext fun a => hgg a
  have hin : N.InDom (fun a => X a (g a)) := fun a => hx a _ (hg a).1 (hg a).2
  rw [g2, g2', hpar, mappedAt_derivAt, mappedAt_derivAt]
  rw [hpar] at ho'
  have hA : s.Affine := ⟨fun j hj => by rw [hs, if_neg hj.symm], by rw [hs, if_pos rfl]⟩
  have hfc : N'.firstComp = N.firstComp := by unfold Nrb.firstComp; rw [hF.nc]
  have hproj : ∀ y, N.InDom y → ∀ k, N'.proj (s.par y) k = N.proj y k := fun y hy k => by
    unfold Nrb.proj
    rw [hF.eval y hy, space_weight hA]
    congr 1
    unfold Placed.space
    split_ifs with h
    · simp [hs]
    · rfl
  generalize hz : (fun a => X a (g a)) = x at *
  have a1 : ∀ j : Fin d, N'.derivAt J' 1 F' (s.par x) [j] c = (s.slope j)⁻¹ * N.derivAt J 1 F x [s.axis j] c := fun j => by
    have := derivAt_follow J J' hv hd hF hA hden hin ho ho' (F := F) (F' := F') (c := c) (c' := c)
      (fun y hy => by rw [f1, f1', hfc]; exact hproj y hy _) (m := 1) (by omega) [j] (by simp)
    simpa using this
  have a2 : ∀ i j : Fin d, N'.derivAt J' 1 N'.geoF (s.par x) [j] i = (s.slope j)⁻¹ * N.derivAt J 1 N.geoF x [s.axis j] i := fun i j => by
    have := derivAt_follow J J' hv hd hF hA hden hin ho ho' (F := N.geoF) (F' := N'.geoF) (c := (i : ℕ)) (c' := i)
      (fun y hy => by rw [geoF_proj n1, geoF_proj n2]; exact hproj y hy _) (m := 1) (by omega) [j] (by simp)
    simpa using this
  have hdet : (Matrix.of fun i j : Fin d => N.derivAt J 1 N.geoF x [j] i).det ≠ 0 := by
    obtain ⟨T, t1, t2⟩ := open_box hv hin ho
    convert hJ using 4 with i'
    funext j'
    rw [derivAt_sub J hv hd t1 (fun y hy => hden y (SubCell.inDom hv t1 hy)) (by omega) _ _ _ (by simp), geoF_proj n1, pd_open t2 _ _ _ t1.mem]
  simp only [a1, a2]
  exact inverse_param hd (fun i j => N.derivAt J 1 N.geoF x [j] i) hdet s.slope hF.slope s.axis hF.axis (fun j => N.derivAt J 1 F x [j] c) i

theorem adds_weights {env : Env ℝ} (heps : 0 < env.eps) (hv : N.Valid) (hm : ∀ a, N.InnerMult a)
    (hw : ∀ idx, N.InNet idx → 0 < N.P idx 3) {p : List (Call ℝ)} (ht : TameAll env N p) (ha : ∀ c ∈ p, c.2.Adds)
    (hs : (placement env N (Placed.start N) p).Affine) :
    ∀ idx, (history env N p).InNet idx → (history env N p).P idx 3 ≠ 0 := by
  intro idx hi
  have hA := C83_history heps hv hm p ht ha
  refine (C83_points hA (T := Set.univ) convex_univ (fun idx h => ?_) (fun _ _ => trivial) hi).1.ne'
  have : (N.transform (placement env N (Placed.start N) p).mat).P idx 3 = N.P idx 3 := by
    unfold Nrb.transform
    dsimp only
    rw [dif_pos (by omega)]
    have : (⟨3, by omega⟩ : Fin 4) = 3 := rfl
    rw [this, hs.left 0 (by decide), hs.left 1 (by decide), hs.left 2 (by decide), hs.one]
    ring
  rw [this]
  exact hw idx h

/-- C86: the chain rule after any calls of `insert`, `refine`, `elevate`, `clamp`, `reverse`, `swap`, `transpose`, `remap` and of
transformations that are affine altogether; mapped gradients are the same if the latter cancel. -/
theorem C86_calls {env : Env ℝ} (heps : 0 < env.eps) (hv : N.Valid) (hm : ∀ a, N.InnerMult a) (hd : d = 1 ∨ d = 2 ∨ d = 3)
    (hw : ∀ idx, N.InNet idx → 0 < N.P idx 3) {p : List (Call ℝ)} (ht : TameAll env N p) (ha : ∀ c ∈ p, c.2.Adds)
    {s : Placed ℝ d} (hp : placement env N (Placed.start N) p = s) (hs : s.Affine)
    {r r' : Fin d → ℤ} {X X' : Fin d → ℤ → ℝ} (hr : ∀ a, 0 ≤ r a) (hr' : ∀ a, 0 ≤ r' a)
    (hx : ∀ a i, 0 ≤ i → i ≤ r a → N.lo a ≤ X a i ∧ X a i ≤ N.hi a)
    (hx' : ∀ a i, 0 ≤ i → i ≤ r' a → s.lo a ≤ X' a i ∧ X' a i ≤ s.hi a) :
    N.ChainDerivs (history env N p) s r r' X X' ∧
      ((∀ i j, s.mat i j = if i = j then 1 else 0) → N.SameMapped (history env N p) s r r' X X') := by
  subst hp
  have hF := C46_history heps hv hm p ht
  have hw' := adds_weights heps hv hm hw ht ha hs
  exact ⟨C86_chain hv hd hw hF hs hw' hr hr' hx hx', fun h => C86_mapped hv hd hw hF h hw' hr hr' hx hx'⟩

end Igakit
