import Verif.Spec.Affine
import Verif.Proofs.Affine
import Verif.Props.Slice

/-!
# C18-C20: reversal, remapping and permutation of the parameters
-/

set_option linter.unusedSectionVars false

namespace Igakit
open Spec

variable {K : Type} [Field K] [LinearOrder K] [IsStrictOrderedRing K] {d : ℕ}

/-- interior knots of axis `a` occur at most `degree` times -/
def Nrb.InnerMult (N : Nrb K d) (a : Fin d) : Prop :=
  ∀ x, N.lo a < x → x < N.hi a → (N.multOf a x : ℤ) ≤ N.degree a

/-! ## C18 -/

/-- the axes in `L` reflected about the middle of the domain, as often as they occur -/
def Nrb.reflect (N : Nrb K d) (L : List (Fin d)) (x : Fin d → K) : Fin d → K :=
  fun b => if Odd (L.count b) then N.lo b + N.hi b - x b else x b

theorem reverse1_lo (N : Nrb K d) (a b : Fin d) : (N.reverse1 a).lo b = N.lo b := by
  by_cases h : b = a
  · subst h
    simp only [Nrb.lo, Nrb.reverse1, Nrb.degree, Function.update_self, Nrb.kntRev]
    ring_nf
  · simp [Nrb.lo, Nrb.reverse1, Nrb.degree, h]

theorem reverse1_hi (N : Nrb K d) (a b : Fin d) : (N.reverse1 a).hi b = N.hi b := by
  by_cases h : b = a
  · subst h
    simp only [Nrb.hi, Nrb.reverse1, Nrb.degree, Function.update_self, Nrb.kntRev]
    ring_nf
  · simp [Nrb.hi, Nrb.reverse1, Nrb.degree, h]

theorem reverse1_eq (N : Nrb K (d + 1)) (a : Fin (d + 1)) :
    N.reverse1 a = N.setAxis a (N.shape a) (N.len a) (Nrb.kntRev (N.degree a) (N.len a) (N.U a))
      (fun i => N.row a (N.n a - i)) := by
  unfold Nrb.reverse1 Nrb.setAxis
  congr 1
  · simp
  · simp
  · funext idx
    show N.P _ = N.P (a.insertNth _ _)
    rw [Fin.insertNth_removeNth]
    rfl

theorem kntRev_eq {N : Nrb K d} (a : Fin d) {p : ℕ} (hp : N.degree a = p) (j : ℤ) :
    Nrb.kntRev (N.degree a) (N.len a) (N.U a) j =
      (N.U a (N.n a + 1) + N.U a p) - N.U a (N.n a + p + 1 - j) := by
  unfold Nrb.kntRev
  have := N.len_eq a
  rw [hp] at this ⊢
  rw [this]
  congr 3 <;> ring

theorem reverse1_valid {N : Nrb K d} (hv : N.Valid) (a : Fin d) : (N.reverse1 a).Valid := by
  obtain ⟨p, hp, hk, e⟩ := deg_nat hv a
  intro b
  have h1 : (N.reverse1 a).n b = N.n b := rfl
  have h2 : (N.reverse1 a).degree b = N.degree b := rfl
  rw [h1, h2]
  by_cases h : b = a
  · subst h
    have hU : (N.reverse1 b).U b = Nrb.kntRev (N.degree b) (N.len b) (N.U b) := by
      simp [Nrb.reverse1]
    rw [hU, hp]
    have hV := fun j => kntRev_eq b hp j
    rw [hp] at hV
    refine ⟨hk.one_le, hk.le, ?_, ?_, ?_⟩
    · intro i j h1 h2 h3
      rw [hV, hV]
      have := hk.sorted (N.n b + p + 1 - j) (N.n b + p + 1 - i) (by omega) (by omega) (by omega)
      linarith
    · rw [hV, hV]
      have := hk.last
      rw [show N.n b + (p : ℤ) + 1 - p = N.n b + 1 by ring,
        show N.n b + (p : ℤ) + 1 - (p + 1) = N.n b by ring]
      linarith
    · rw [hV, hV]
      have := hk.first
      rw [show N.n b + (p : ℤ) + 1 - N.n b = p + 1 by ring,
        show N.n b + (p : ℤ) + 1 - (N.n b + 1) = p by ring]
      linarith
  · have hU : (N.reverse1 a).U b = N.U b := by simp [Nrb.reverse1, h]
    rw [hU]; exact hv b

theorem reverse1_innerMult {N : Nrb K d} (hv : N.Valid) (a b : Fin d) (h : N.InnerMult b) :
    (N.reverse1 a).InnerMult b := by
  obtain ⟨p, hp, hk, e⟩ := deg_nat hv a
  intro x hx1 hx2
  rw [reverse1_lo] at hx1
  rw [reverse1_hi] at hx2
  show _ ≤ N.degree b
  by_cases hb : b = a
  · subst hb
    refine le_trans (le_of_eq ?_) (h (N.lo b + N.hi b - x) (by linarith) (by linarith))
    congr 1
    have hU : (N.reverse1 b).U b = Nrb.kntRev (N.degree b) (N.len b) (N.U b) := by
      simp [Nrb.reverse1]
    unfold Nrb.multOf
    rw [hU]
    show mult _ 0 (N.len b - 1) x = mult _ 0 (N.len b - 1) _
    have hV := fun j => kntRev_eq b hp j
    have hl : N.lo b = N.U b p := by rw [N.lo_eq, hp]
    have hh := N.hi_eq b
    rw [e]
    unfold mult
    refine Finset.card_bij (fun i _ => N.n b + p + 1 - i) ?_ ?_ ?_
    · intro i hi
      simp only [Finset.mem_filter, Finset.mem_Icc, hV] at hi ⊢
      exact ⟨by omega, by rw [hl, hh]; linarith [hi.2]⟩
    · intro i _ j _ h; omega
    · intro i hi
      simp only [Finset.mem_filter, Finset.mem_Icc] at hi
      refine ⟨N.n b + p + 1 - i, ?_, by omega⟩
      simp only [Finset.mem_filter, Finset.mem_Icc, hV]
      refine ⟨by omega, ?_⟩
      rw [show N.n b + (p : ℤ) + 1 - (N.n b + p + 1 - i) = i by ring, hi.2, hl, hh]
      ring
  · have hU : (N.reverse1 a).U b = N.U b := by simp [Nrb.reverse1, hb]
    have hm : (N.reverse1 a).multOf b x = N.multOf b x := by
      unfold Nrb.multOf; rw [hU]; rfl
    rw [hm]
    exact h x hx1 hx2

theorem reverse1_eval {N : Nrb K d} (hv : N.Valid) (a : Fin d) (hm : N.InnerMult a)
    {x : Fin d → K} (hx : N.InDom x) :
    (N.reverse1 a).eval (Function.update x a (N.lo a + N.hi a - x a)) = N.eval x := by
  cases d with
  | zero => exact a.elim0
  | succ d =>
    obtain ⟨p, hp, hk, e⟩ := deg_nat hv a
    have hl : N.lo a = N.U a p := by rw [N.lo_eq, hp]
    have hh := N.hi_eq a
    rw [reverse1_eq]
    apply Nrb.setAxis_eval_eq
    · intro b hb; simp [hb]
    · have hd : N.len a - N.shape a - 1 = p := by rw [← hp]; unfold Nrb.degree; ring
      have hpn : (N.degree a).toNat = p := by omega
      rw [hd, Int.toNat_natCast, hpn, Function.update_self, hl, hh, add_comm (N.U a p)]
      refine curve_reverse (n := N.n a) hk.sorted hk.le (fun j => kntRev_eq a hp j)
        (fun _ => rfl) ?_ ?_ ?_ ?_
      · exact lt_of_lt_of_le hk.first (hk.sorted _ _ (by have := hk.one_le; omega)
          (by have := hk.le; omega) (by omega))
      · intro y h1 h2
        have := hm y (by rwa [hl]) (by rwa [hh])
        unfold Nrb.multOf at this
        rw [hp, e] at this
        exact_mod_cast this
      · rw [← hl]; exact (hx a).1
      · rw [← hh]; exact (hx a).2

/-- what every sequence of reversals does -/
theorem reverseL {L : List (Fin d)} : ∀ {N : Nrb K d}, N.Valid → (∀ a ∈ L, N.InnerMult a) →
    (L.foldl Nrb.reverse1 N).Valid ∧ (L.foldl Nrb.reverse1 N).nc = N.nc ∧
    (L.foldl Nrb.reverse1 N).shape = N.shape ∧ (L.foldl Nrb.reverse1 N).len = N.len ∧
    (L.foldl Nrb.reverse1 N).lo = N.lo ∧ (L.foldl Nrb.reverse1 N).hi = N.hi ∧
    ∀ x, N.InDom x → (L.foldl Nrb.reverse1 N).eval (N.reflect L x) = N.eval x := by
  induction L with
  | nil =>
    intro N hv _
    refine ⟨hv, rfl, rfl, rfl, rfl, rfl, fun x _ => ?_⟩
    have : N.reflect [] x = x := by funext b; simp [Nrb.reflect]
    rw [this]; rfl
  | cons a L ih =>
    intro N hv hm
    rw [List.foldl_cons]
    obtain ⟨h1, h2, h3, h4, h5, h6, h7⟩ := ih (N := N.reverse1 a) (reverse1_valid hv a)
      (fun b hb => reverse1_innerMult hv a b (hm b (by simp [hb])))
    have hlo : (N.reverse1 a).lo = N.lo := funext (reverse1_lo N a)
    have hhi : (N.reverse1 a).hi = N.hi := funext (reverse1_hi N a)
    refine ⟨h1, h2, h3, h4, h5.trans hlo, h6.trans hhi, ?_⟩
    intro x hx
    rw [← reverse1_eval hv a (hm a (by simp)) hx, ← h7]
    · congr 1
      funext b
      simp only [Nrb.reflect, hlo, hhi, List.count_cons]
      by_cases hb : b = a
      · subst hb
        simp only [beq_self_eq_true, if_true, Function.update_self, Nat.odd_add_one]
        by_cases ho : Odd (L.count b)
        · simp [ho]
        · simp [ho]
      · have hb' : ¬ a = b := fun h => hb h.symm
        simp [hb, hb']
    · intro b
      rw [hlo, hhi]
      by_cases hb : b = a
      · subst hb
        rw [Function.update_self]
        have := hx b
        exact ⟨by linarith, by linarith⟩
      · simp only [Function.update_of_ne hb]; exact hx b

theorem foldlM_reverse {axes : List ℤ} : ∀ {L : List (Fin d)} {N : Nrb K d},
    axes.mapM (normAxis d) = .ok L →
    axes.foldlM (fun (N : Nrb K d) axis => do
      let a ← normAxis d axis
      pure (Nrb.reverse1 N a)) N = (.ok (L.foldl Nrb.reverse1 N) : Res (Nrb K d)) := by
  induction axes with
  | nil => intro L N h; cases h; rfl
  | cons x xs ih =>
    intro L N h
    rw [List.mapM_cons] at h
    rw [List.foldlM_cons]
    cases hx : normAxis d x with
    | error e => rw [hx] at h; cases h
    | ok a =>
      rw [hx, res_ok_bind] at h
      cases hxs : xs.mapM (normAxis d) with
      | error e => rw [hxs] at h; cases h
      | ok L' =>
        rw [hxs] at h
        cases h
        rw [res_ok_bind, res_pure, res_ok_bind]
        exact ih hxs

/-- the axes addressed by `reverse(*axes)`: no axes means all of them -/
def revAxes (d : ℕ) (axes : List ℤ) : List ℤ :=
  if axes = [] then (List.finRange d).map (fun a : Fin d => ((a : ℕ) : ℤ)) else axes

theorem reverse_eq {N : Nrb K d} {axes : List ℤ} {L : List (Fin d)}
    (hL : (revAxes d axes).mapM (normAxis d) = .ok L) :
    N.reverse axes = .ok (L.foldl Nrb.reverse1 N) := foldlM_reverse hL

theorem mapM_all : ∀ (l : List (Fin d)),
    (l.map (fun a : Fin d => ((a : ℕ) : ℤ))).mapM (normAxis d) = (.ok l : Res (List (Fin d))) := by
  intro l
  induction l with
  | nil => rfl
  | cons a l ih =>
    rw [List.map_cons, List.mapM_cons, normAxis_self, res_ok_bind, ih]
    rfl

/-- C18: `nrb.reverse(axes)` keeps sizes, degrees and domain, and takes at the reflected parameters the
values that the original takes; negative axis numbers, repeated axes and several axes included. -/
theorem C18_reverse {N : Nrb K d} (hv : N.Valid) {axes : List ℤ} {L : List (Fin d)}
    (hL : (revAxes d axes).mapM (normAxis d) = .ok L) (hm : ∀ a ∈ L, N.InnerMult a) :
    ∃ N', N.reverse axes = .ok N' ∧ N'.Valid ∧ N'.nc = N.nc ∧ N'.shape = N.shape ∧ N'.len = N.len ∧
      N'.lo = N.lo ∧ N'.hi = N.hi ∧ ∀ x, N.InDom x → N'.eval (N.reflect L x) = N.eval x :=
  ⟨_, reverse_eq hL, reverseL hv hm⟩

/-- C18, no axes: all parameters are reflected -/
theorem C18_reverse_all {N : Nrb K d} (hv : N.Valid) (hm : ∀ a, N.InnerMult a) :
    ∃ N', N.reverse [] = .ok N' ∧
      ∀ x, N.InDom x → N'.eval (fun a => N.lo a + N.hi a - x a) = N.eval x := by
  obtain ⟨N', h, _, _, _, _, _, _, hx⟩ := C18_reverse hv (axes := []) (L := List.finRange d)
    (mapM_all _) (fun a _ => hm a)
  refine ⟨N', h, fun x hd => ?_⟩
  rw [← hx x hd]
  congr 1
  funext b
  have : (List.finRange d).count b = 1 := List.count_eq_one_of_mem (List.nodup_finRange d) (by simp)
  simp [Nrb.reflect, this]

theorem reverse1_comm (N : Nrb K d) (a b : Fin d) : (N.reverse1 a).reverse1 b = (N.reverse1 b).reverse1 a := by
  by_cases h : a = b
  · subst h; rfl
  · have h' : b ≠ a := fun e => h e.symm
    simp only [Nrb.reverse1, Nrb.degree, Function.update_of_ne h, Function.update_of_ne h']
    congr 1
    · exact Function.update_comm h _ _ _
    · funext idx
      congr 1
      exact Function.update_comm h' _ _ _

theorem reverse1_twice (N : Nrb K d) (a : Fin d) : (N.reverse1 a).reverse1 a = N := by
  cases N with
  | mk shape nc len U P =>
  simp only [Nrb.reverse1, Nrb.degree, Function.update_self, Function.update_idem, Nrb.mk.injEq,
    true_and]
  constructor
  · rw [Function.update_eq_self_iff]
    funext j
    unfold Nrb.kntRev
    ring_nf
  · funext idx
    congr 1
    rw [Function.update_eq_self_iff]
    ring

/-- C18: reversing twice gives back the object, knots and control points included -/
theorem C18_involution {N N' : Nrb K d} {axes : List ℤ} (h : N.reverse axes = .ok N') :
    N'.reverse axes = .ok N := by
  have hex : ∃ L, (revAxes d axes).mapM (normAxis d) = .ok L := by
    by_contra hne
    push Not at hne
    have key : ∀ (l : List ℤ) (M M' : Nrb K d), l.foldlM (fun (N : Nrb K d) axis => do
        let a ← normAxis d axis
        pure (Nrb.reverse1 N a)) M = (.ok M' : Res (Nrb K d)) → ∃ L, l.mapM (normAxis d) = .ok L := by
      intro l
      induction l with
      | nil => intro M M' _; exact ⟨[], rfl⟩
      | cons x xs ih =>
        intro M M' h
        rw [List.foldlM_cons] at h
        cases hx : normAxis d x with
        | error e => rw [hx] at h; cases h
        | ok a =>
          rw [hx, res_ok_bind, res_pure, res_ok_bind] at h
          obtain ⟨L, hL⟩ := ih _ _ h
          exact ⟨a :: L, by rw [List.mapM_cons, hx, res_ok_bind, hL]; rfl⟩
    obtain ⟨L, hL⟩ := key _ _ _ h
    exact hne L hL
  obtain ⟨L, hL⟩ := hex
  rw [reverse_eq hL] at h
  cases h
  rw [reverse_eq hL]
  congr 1
  clear hL
  have push : ∀ (L : List (Fin d)) (M : Nrb K d) (a : Fin d),
      L.foldl Nrb.reverse1 (M.reverse1 a) = (L.foldl Nrb.reverse1 M).reverse1 a := by
    intro L
    induction L with
    | nil => intro M a; rfl
    | cons b L ih => intro M a; rw [List.foldl_cons, List.foldl_cons, reverse1_comm, ih]
  induction L generalizing N with
  | nil => rfl
  | cons a L ih =>
    rw [List.foldl_cons, List.foldl_cons, push, push, push, ih, reverse1_twice]

theorem innerMult_of_list {N : Nrb K d} {a : Fin d}
    (h : ∀ x ∈ Nrb.slab (N.U a) 0 (N.len a - 1), N.lo a < x → x < N.hi a →
      (((Nrb.slab (N.U a) 0 (N.len a - 1)).count x : ℕ) : ℤ) ≤ N.degree a) (hp : 0 ≤ N.degree a) :
    N.InnerMult a := by
  intro x h1 h2
  unfold Nrb.multOf
  rw [← slab_count]
  by_cases hx : x ∈ Nrb.slab (N.U a) 0 (N.len a - 1)
  · exact h x hx h1 h2
  · rw [List.count_eq_zero.mpr hx]; exact hp

example := C18_reverse Ex.S_valid (axes := [1, -2, 1]) (L := [1, 0, 1]) rfl (by
  intro a _
  fin_cases a <;> exact innerMult_of_list (by decide +kernel) (by decide +kernel))
example := C18_involution (reverse_eq (N := Ex.S) (axes := []) (L := [0, 1]) rfl)

/-! ## C19 -/

/-- C19: `nrb.remap(axis, c, e)` has domain `[c, e]` on the axis and at the affine image of the
parameter takes the value of the original; a missing argument means the present end of the domain. -/
theorem C19_remap {N : Nrb K d} (hv : N.Valid) {axis : ℤ} {a : Fin d} (ha : normAxis d axis = .ok a)
    {start stop : Option K} {c e : K} (hc : c = start.getD (N.lo a)) (he : e = stop.getD (N.hi a))
    (hce : c < e) :
    ∃ N', N.remap axis start stop = .ok N' ∧ N'.Valid ∧ N'.nc = N.nc ∧ N'.shape = N.shape ∧
      N'.len = N.len ∧ N'.P = N.P ∧ N'.lo a = c ∧ N'.hi a = e ∧ (∀ b, b ≠ a → N'.U b = N.U b) ∧
      ∀ x, N'.eval (Function.update x a (affMap (N.lo a) (N.hi a) c e (x a))) = N.eval x := by
  have hlt : N.lo a < N.hi a := by
    obtain ⟨p, hp, hk, _⟩ := deg_nat hv a
    rw [N.hi_eq, N.lo_eq, hp]
    exact lt_of_lt_of_le hk.first (hk.sorted _ _ (by have := hk.one_le; omega)
      (by have := hk.le; omega) (by omega))
  have hba : N.hi a - N.lo a ≠ 0 := (sub_pos.mpr hlt).ne'
  by_cases hsame : N.lo a = c ∧ N.hi a = e
  · refine ⟨N, ?_, hv, rfl, rfl, rfl, rfl, hsame.1, hsame.2, fun _ _ => rfl, ?_⟩
    · unfold Nrb.remap
      rw [ha, res_ok_bind]
      dsimp only
      rw [if_pos (by rw [← hc, ← he]; exact hsame)]
      rfl
    · intro x
      have : affMap (N.lo a) (N.hi a) c e (x a) = x a := by
        rw [← hsame.1, ← hsame.2]; unfold affMap; field_simp; ring
      rw [this, Function.update_eq_self]
  · set α := (e - c) / (N.hi a - N.lo a) with hα
    have hαpos : 0 < α := div_pos (by linarith) (by linarith)
    have hV : ∀ j, (N.U a j - N.lo a) * α + c = α * N.U a j + (c - α * N.lo a) := by intro j; ring
    refine ⟨{ N with U := Function.update N.U a (fun j => (N.U a j - N.lo a) * α + c) }, ?_, ?_, rfl,
      rfl, rfl, rfl, ?_, ?_, ?_, ?_⟩
    · unfold Nrb.remap
      rw [ha, res_ok_bind]
      dsimp only
      rw [if_neg (by rw [← hc, ← he]; exact hsame), ← hc, ← he, pyAssert_ok hce, res_ok_bind]
      rfl
    · intro b
      by_cases hb : b = a
      · subst hb
        have h := hv b
        show ValidKnots (N.n b) (N.degree b) (Function.update N.U b _ b)
        rw [Function.update_self]
        refine ⟨h.one_le, h.le, ?_, ?_, ?_⟩
        · intro i j h1 h2 h3
          have := mul_le_mul_of_nonneg_left (h.sorted i j h1 h2 h3) hαpos.le
          simp only [hV]; linarith
        · have := mul_lt_mul_of_pos_left h.first hαpos
          simp only [hV]; linarith
        · have := mul_lt_mul_of_pos_left h.last hαpos
          simp only [hV]; linarith
      · show ValidKnots (N.n b) (N.degree b) (Function.update N.U a _ b)
        rw [Function.update_of_ne hb]; exact hv b
    · show Function.update N.U a _ a (N.degree a) = c
      rw [Function.update_self]
      show (N.lo a - N.lo a) * α + c = c
      ring
    · show Function.update N.U a _ a (N.len a + (-N.degree a - 1)) = e
      rw [Function.update_self]
      show (N.hi a - N.lo a) * α + c = e
      rw [hα]; field_simp; ring
    · intro b hb
      show Function.update N.U a _ b = _
      rw [Function.update_of_ne hb]
    · intro x
      have hx : affMap (N.lo a) (N.hi a) c e (x a) = α * x a + (c - α * N.lo a) := by
        unfold affMap; rw [hα]; field_simp; ring
      rw [hx]
      unfold Nrb.eval tensor
      apply Finset.sum_congr rfl
      intro idx _
      congr 1
      apply Finset.prod_congr rfl
      intro b _
      by_cases hb : b = a
      · subst hb
        rw [Function.update_self]
        show bsplineD (N.n b) (Function.update N.U b _ b) _ _ _ = _
        rw [Function.update_self]
        exact bsplineD_affine hαpos hV _ _ _ _
      · rw [Function.update_of_ne hb]
        show bsplineD (N.n b) (Function.update N.U a _ b) _ _ _ = _
        rw [Function.update_of_ne hb]
        rfl

/-- C19: an empty or reversed target interval is rejected -/
theorem C19_remap_rejects {N : Nrb K d} {axis : ℤ} {a : Fin d} (ha : normAxis d axis = .ok a) {c e : K}
    (hlt : N.lo a < N.hi a) (hce : e ≤ c) :
    N.remap axis (some c) (some e) = .error .assertion := by
  unfold Nrb.remap
  rw [ha, res_ok_bind]
  dsimp only [Option.getD]
  rw [if_neg (by rintro ⟨rfl, rfl⟩; exact absurd hlt (not_lt.mpr hce)), pyAssert_err (not_lt.mpr hce)]
  rfl

/-- C19: remapping back restores the object, every knot included -/
theorem C19_remap_back {N N' : Nrb K d} (hv : N.Valid) {axis : ℤ} {a : Fin d}
    (ha : normAxis d axis = .ok a) {start stop : Option K} (h : N.remap axis start stop = .ok N') :
    N'.remap axis (some (N.lo a)) (some (N.hi a)) = .ok N := by
  have hlt : N.lo a < N.hi a := by
    obtain ⟨p, hp, hk, _⟩ := deg_nat hv a
    rw [N.hi_eq, N.lo_eq, hp]
    exact lt_of_lt_of_le hk.first (hk.sorted _ _ (by have := hk.one_le; omega)
      (by have := hk.le; omega) (by omega))
  have hba : N.hi a - N.lo a ≠ 0 := (sub_pos.mpr hlt).ne'
  unfold Nrb.remap at h
  rw [ha, res_ok_bind] at h
  dsimp only at h
  split_ifs at h with hs
  · cases h
    unfold Nrb.remap
    rw [ha, res_ok_bind]
    dsimp only [Option.getD]
    rw [if_pos ⟨rfl, rfl⟩]
    rfl
  · generalize hc : start.getD (N.lo a) = c at h hs
    generalize he : stop.getD (N.hi a) = e at h hs
    by_cases hce : c < e
    · rw [pyAssert_ok hce, res_ok_bind] at h
      cases h
      have hec : e - c ≠ 0 := (sub_pos.mpr hce).ne'
      generalize hM : ({ N with U := Function.update N.U a fun j =>
        (N.U a j - N.lo a) * ((e - c) / (N.hi a - N.lo a)) + c } : Nrb K d) = M
      have hU : M.U a = fun j => (N.U a j - N.lo a) * ((e - c) / (N.hi a - N.lo a)) + c := by
        rw [← hM]; simp
      have hlo : M.lo a = c := by
        have : M.lo a = M.U a (N.degree a) := by rw [← hM]; rfl
        rw [this, hU, N.lo_eq]; ring
      have hhi : M.hi a = e := by
        have : M.hi a = M.U a (N.len a + (-N.degree a - 1)) := by rw [← hM]; rfl
        rw [this, hU]
        show (N.hi a - N.lo a) * _ + c = e
        field_simp; ring
      unfold Nrb.remap
      rw [ha, res_ok_bind]
      dsimp only [Option.getD]
      rw [hlo, hhi, if_neg (by rintro ⟨h1, h2⟩; exact hs ⟨h1.symm, h2.symm⟩), pyAssert_ok hlt,
        res_ok_bind, hU]
      show Except.ok _ = Except.ok _
      congr 1
      rw [← hM]
      cases N with
      | mk shape nc len U P =>
        dsimp only at *
        congr 1
        rw [Function.update_idem, Function.update_eq_self_iff]
        funext j
        field_simp
        ring
    · rw [pyAssert_err hce] at h; cases h

example := C19_remap Ex.S_valid (axis := -1) (a := 1) rfl (start := some (-2)) (stop := none) rfl rfl
  (by decide +kernel)
example := C19_remap_rejects (N := Ex.S) (axis := 0) (a := 0) rfl (c := 1) (e := 1) (by decide +kernel)
  le_rfl
example := C19_remap_back Ex.S_valid (axis := 0) (a := 0) rfl (start := some 5) (stop := some 7) rfl

/-! ## C20 -/

theorem tensor_perm {E : Type*} [AddCommGroup E] [Module K E] (n : Fin d → ℤ) (p : Fin d → ℕ)
    (U : Fin d → ℤ → K) (P : (Fin d → ℤ) → E) (x : Fin d → K) (σ : Equiv.Perm (Fin d)) :
    tensor (n ∘ σ) (p ∘ σ) (U ∘ σ) (fun idx => P (idx ∘ σ.symm)) (x ∘ σ) = tensor n p U P x := by
  unfold tensor
  refine Finset.sum_bij' (fun idx _ => idx ∘ σ.symm) (fun idx _ => idx ∘ σ) ?_ ?_ ?_ ?_ ?_
  · intro idx h
    rw [Fintype.mem_piFinset] at h ⊢
    intro a
    have := h (σ.symm a)
    simpa using this
  · intro idx h
    rw [Fintype.mem_piFinset] at h ⊢
    intro a
    exact h (σ a)
  · intro idx _; funext a; simp
  · intro idx _; funext a; simp
  · intro idx _
    congr 1
    rw [← Equiv.prod_comp σ (fun a => bsplineD (n a) (U a) (p a) ((idx ∘ σ.symm) a) (x a))]
    simp

/-- `N'` is `N` with parameters, sizes and knots permuted: axis `i` of `N'` is axis `σ i` of `N` -/
structure Nrb.Permuted (N N' : Nrb K d) (σ : Equiv.Perm (Fin d)) : Prop where
  nc : N'.nc = N.nc
  shape : ∀ i, N'.shape i = N.shape (σ i)
  len : ∀ i, N'.len i = N.len (σ i)
  U : ∀ i, N'.U i = N.U (σ i)
  eval : ∀ x, N'.eval (x ∘ σ) = N.eval x

/-- the permuted object -/
def Nrb.permute (N : Nrb K d) (σ : Equiv.Perm (Fin d)) : Nrb K d where
  shape := N.shape ∘ σ
  nc := N.nc
  len := N.len ∘ σ
  U := N.U ∘ σ
  P := fun idx => N.P (idx ∘ σ.symm)

theorem permuted_of (N : Nrb K d) (σ : Equiv.Perm (Fin d)) : N.Permuted (N.permute σ) σ :=
  ⟨rfl, fun _ => rfl, fun _ => rfl, fun _ => rfl,
    fun x => tensor_perm N.n (fun a => (N.degree a).toNat) N.U N.P x σ⟩

theorem Nrb.Permuted.valid {N N' : Nrb K d} {σ : Equiv.Perm (Fin d)} (h : N.Permuted N' σ)
    (hv : N.Valid) : N'.Valid := by
  intro a
  have h1 : N'.n a = N.n (σ a) := by unfold Nrb.n; rw [h.shape]
  have h2 : N'.degree a = N.degree (σ a) := by unfold Nrb.degree; rw [h.shape, h.len]
  rw [h1, h2, h.U]
  exact hv _

/-- C20: `nrb.swap(axis1, axis2)` exchanges the two parameters (negative axis numbers included) -/
theorem C20_swap (N : Nrb K d) {axis1 axis2 : ℤ} {a b : Fin d} (ha : normAxis d axis1 = .ok a)
    (hb : normAxis d axis2 = .ok b) :
    ∃ N', N.swap axis1 axis2 = .ok N' ∧ N.Permuted N' (Equiv.swap a b) := by
  refine ⟨_, ?_, permuted_of N (Equiv.swap a b)⟩
  unfold Nrb.swap
  rw [ha, res_ok_bind, hb, res_ok_bind]
  rfl

/-- C20: swapping twice gives back the object -/
theorem C20_swap_twice {N N' : Nrb K d} {axis1 axis2 : ℤ} (h : N.swap axis1 axis2 = .ok N') :
    N'.swap axis1 axis2 = .ok N := by
  unfold Nrb.swap at h ⊢
  cases ha : normAxis d axis1 with
  | error e => rw [ha] at h; cases h
  | ok a =>
    cases hb : normAxis d axis2 with
    | error e => rw [ha, hb] at h; cases h
    | ok b =>
      rw [ha, hb] at h
      cases h
      simp only [res_ok_bind, res_pure, Except.ok.injEq]
      have e : ∀ {α : Type} (f : Fin d → α), (f ∘ Equiv.swap a b) ∘ Equiv.swap a b = f := by
        intro α f; funext i; simp
      simp only [e]

/-- the axes of `transpose()` (none given: reversed order) -/
def transAxes (d : ℕ) (axes : Option (List ℤ)) : List ℤ :=
  axes.getD ((List.finRange d).reverse.map (fun a : Fin d => ((a : ℕ) : ℤ)))

theorem mapM_npAxis : ∀ (l : List ℕ), (∀ x ∈ l, x < d + 1) →
    (l.map (fun a : ℕ => (a : ℤ))).mapM (Nrb.npAxis (d + 1)) = (.ok l : Res (List ℕ)) := by
  intro l
  induction l with
  | nil => intro _; rfl
  | cons a l ih =>
    intro h
    have ha : Nrb.npAxis (d + 1) (a : ℤ) = .ok a := by
      unfold Nrb.npAxis
      have := h a (by simp)
      rw [if_pos ⟨by omega, by exact_mod_cast this⟩]
      simp
    rw [List.map_cons, List.mapM_cons, ha, res_ok_bind, ih (fun x hx => h x (by simp [hx]))]
    rfl

/-- C20: `nrb.transpose(axes)` with `axes` a permutation of `0..dim-1` permutes the parameters: axis `i`
of the result is axis `axes[i]` of the original. -/
theorem C20_transpose (N : Nrb K d) {axes : Option (List ℤ)} (σ : Equiv.Perm (Fin d))
    (h : transAxes d axes = (List.finRange d).map (fun i => ((σ i : ℕ) : ℤ))) :
    ∃ N', N.transpose axes = .ok N' ∧ N.Permuted N' σ := by
  refine ⟨N.permute σ, ?_, permuted_of N σ⟩
  unfold Nrb.transpose
  dsimp only
  unfold transAxes at h
  rw [h, pyAssert_ok (by simp), res_ok_bind]
  have h1 : ((List.finRange d).map (fun i => ((σ i : ℕ) : ℤ)) ++ [(d : ℤ)]) =
      (((List.finRange d).map (fun i => (σ i : ℕ))) ++ [d]).map (fun a : ℕ => (a : ℤ)) := by
    simp [List.map_map, Function.comp_def]
  rw [h1, mapM_npAxis _ (by
    intro x hx
    simp only [List.mem_append, List.mem_map, List.mem_singleton] at hx
    rcases hx with ⟨i, _, rfl⟩ | rfl
    · have := (σ i).isLt; omega
    · omega), res_ok_bind]
  have hnd : (((List.finRange d).map (fun i => (σ i : ℕ))) ++ [d]).Nodup := by
    rw [List.nodup_append]
    refine ⟨(List.nodup_finRange d).map (fun i j e => σ.injective (Fin.ext e)), by simp, ?_⟩
    intro x hx y hy
    simp only [List.mem_map, List.mem_singleton] at hx hy
    obtain ⟨i, _, rfl⟩ := hx
    have := (σ i).isLt
    omega
  have h2 : ((List.finRange d).map (fun i => ((σ i : ℕ) : ℤ))) =
      ((List.finRange d).map σ).map (fun a : Fin d => ((a : ℕ) : ℤ)) := by
    simp [List.map_map, Function.comp_def]
  rw [if_neg (not_not.mpr hnd), h2, mapM_all]
  simp only [res_pure, res_ok_bind]
  have hc : ∀ i : Fin d, (((List.finRange d).map (fun i => (σ i : ℕ))) ++ [d]).getD i 0 = σ i := by
    intro i
    have hi : (i : ℕ) < ((List.finRange d).map (fun i => (σ i : ℕ))).length := by simp
    rw [List.getD_eq_getElem?_getD, List.getElem?_append_left hi, List.getElem?_eq_getElem hi]
    simp
  rw [dif_pos ⟨fun i => by rw [hc]; exact (σ i).isLt, by simp⟩]
  congr 1
  have e1 : (fun i : Fin d => (⟨(((List.finRange d).map (fun i => (σ i : ℕ))) ++ [d]).getD i 0,
      by rw [hc]; exact (σ i).isLt⟩ : Fin d)) = σ := by
    funext i; exact Fin.ext (hc i)
  have e2 : (fun i : Fin d => ((List.finRange d).map σ)[i.val]'(by simp)) = σ := by
    funext i; simp
  have e3 : ∀ (idx : Fin d → ℤ), (fun j => match (List.finRange d).find? (fun i => σ i = j) with
      | some i => idx i
      | none => 0) = idx ∘ σ.symm := by
    intro idx
    funext j
    cases hf : (List.finRange d).find? (fun i => decide (σ i = j)) with
    | none =>
      rw [List.find?_eq_none] at hf
      exact absurd (hf (σ.symm j) (by simp)) (by simp)
    | some i =>
      have := List.find?_some hf
      simp only [decide_eq_true_eq] at this
      simp [← this]
  rw [e1, e2]
  unfold Nrb.relabel Nrb.permute
  congr 1
  funext idx
  exact congrArg N.P (e3 idx)

/-- C20: `nrb.transpose()` reverses the order of the parameters -/
theorem C20_transpose_default (N : Nrb K d) :
    ∃ N', N.transpose none = .ok N' ∧ N.Permuted N' Fin.revPerm := by
  apply C20_transpose
  unfold transAxes
  rw [Option.getD_none, List.finRange_reverse, List.map_map]
  rfl

/-- C20: the number of axes must be right -/
theorem C20_transpose_rejects (N : Nrb K d) {axes : List ℤ} (h : axes.length ≠ d) :
    N.transpose (some axes) = .error .assertion := by
  unfold Nrb.transpose
  dsimp only [Option.getD]
  rw [pyAssert_err h]
  rfl

/-- C20 fails for negative axis numbers: `nrb.transpose([0, -2])` on a surface (as `[0, 0]`, which is
no permutation, or as the identity, whichever way one counts) is accepted and returns an object with
the untouched control net and the first knot vector on both axes; whenever the two knot vectors differ
in length this is no permutation of the original. -/
theorem C20_transpose_negative_wrong (N : Nrb K 2) :
    ∃ N', N.transpose (some [0, -2]) = .ok N' ∧ N'.P = N.P ∧ N'.shape = N.shape ∧
      (∀ i, N'.U i = N.U 0) ∧ (N.len 0 ≠ N.len 1 → ∀ σ, ¬ N.Permuted N' σ) := by
  refine ⟨_, rfl, ?_, ?_, ?_, ?_⟩
  · funext idx
    show N.P _ = N.P _
    congr 1
    funext j
    fin_cases j <;> rfl
  · funext i; fin_cases i <;> rfl
  · intro i; fin_cases i <;> rfl
  · intro hne σ h
    have h1 := h.len (σ.symm 1)
    rw [Equiv.apply_symm_apply] at h1
    apply hne
    rw [← h1]
    generalize σ.symm 1 = i
    fin_cases i <;> rfl

/-- the wrong result on the example surface -/
example := (C20_transpose_negative_wrong Ex.S).choose_spec.2.2.2.2 (by decide +kernel)
/-- a volume: clamped, unclamped and partially clamped axes -/
def Ex.Vol : Nrb ℚ 3 where
  shape := ![6, 3, 5]
  nc := 4
  len := ![9, 6, 8]
  U := ![Ex.U, Ex.W, Ex.H]
  P := fun idx c => if c = 3 then 2 else (c + 1) * idx 0 * idx 1 + idx 2 * 3 - c

theorem Ex.Vol_valid : Ex.Vol.Valid := by
  intro a
  fin_cases a
  · exact Ex.U_valid
  · exact Ex.W_valid
  · exact Ex.H_valid

example := C20_swap Ex.Vol (axis1 := 0) (axis2 := -1) (a := 0) (b := 2) rfl rfl
example := C20_transpose Ex.Vol (axes := some [1, 2, 0]) 
  (Equiv.swap 0 2 * Equiv.swap 0 1) (by decide)
example := C20_transpose_default Ex.Vol

end Igakit
