import Verif.Proofs.HullCalls
import Verif.Props.HistoryEx

/-!
# C83: new control points are averages of the old ones
-/

set_option linter.unusedSectionVars false

namespace Igakit
open Spec

variable {K : Type} [Field K] [LinearOrder K] [IsStrictOrderedRing K] {d d' : ℕ}

theorem transform_transform (N : Nrb K d) (A B : Fin 4 → Fin 4 → K) :
    (N.transform A).transform B = N.transform (fun i k => ∑ j : Fin 4, B i j * A j k) := by
  unfold Nrb.transform
  congr 1
  funext idx c
  by_cases h : c < 4
  · simp only [dif_pos h, Fin.sum_univ_four, show (0 : ℕ) < 4 by omega, show (1 : ℕ) < 4 by omega,
      show (2 : ℕ) < 4 by omega, show (3 : ℕ) < 4 by omega, dite_true, Fin.mk_zero, Fin.mk_one]
    have e2 : (⟨2, by omega⟩ : Fin 4) = 2 := rfl
    have e3 : (⟨3, by omega⟩ : Fin 4) = 3 := rfl
    rw [e2, e3]
    ring
  · simp only [dif_neg h]

theorem transform_averages {N : Nrb K d} {N' : Nrb K d'} (h : N.Averages N') (M : Fin 4 → Fin 4 → K) :
    (N.transform M).Averages (N'.transform M) := by
  intro C hC hP idx hidx
  let T : (ℕ → K) → ℕ → K := fun v c =>
    if h : c < 4 then v 0 * M ⟨c, h⟩ 0 + v 1 * M ⟨c, h⟩ 1 + v 2 * M ⟨c, h⟩ 2 + v 3 * M ⟨c, h⟩ 3 else v c
  refine h {v | T v ∈ C} ?_ hP idx hidx
  intro x hx y hy
  intro a b ha hb hab
  have := hC hx hy ha hb hab
  have e : T (a • x + b • y) = a • T x + b • T y := by
    funext c
    simp only [T, Pi.add_apply, Pi.smul_apply, smul_eq_mul]
    split_ifs with h <;> ring
  show T (a • x + b • y) ∈ C
  rw [e]
  exact this

theorem transform_one (N : Nrb K d) : N.transform (fun i j => if i = j then 1 else 0) = N := by
  unfold Nrb.transform
  have : (fun idx c => if h : c < 4 then
      N.P idx 0 * (if (⟨c, h⟩ : Fin 4) = 0 then 1 else 0) + N.P idx 1 * (if (⟨c, h⟩ : Fin 4) = 1 then 1 else 0) +
        N.P idx 2 * (if (⟨c, h⟩ : Fin 4) = 2 then 1 else 0) + N.P idx 3 * (if (⟨c, h⟩ : Fin 4) = 3 then 1 else 0)
      else N.P idx c) = N.P := by
    funext idx c
    by_cases h : c < 4
    · simp only [dif_pos h]
      interval_cases c <;> simp [Fin.ext_iff]
    · simp only [dif_neg h]
  simp only [this]

/-- one accepted call other than `transform` -/
theorem call_averages {env : Env K} (heps : 0 < env.eps) {jn : Scratch K} {N N' : Nrb K d} (hv : N.Valid)
    (hm : ∀ a, N.InnerMult a) {g : Geo K} (ht : g.Tame env.eps N) (hA : g.Adds) (hM : ∀ M, g ≠ .transform M)
    (h : g.apply env jn g.vals N = .ok N') : N.Averages N' := by
  cases g with
  | transform M => exact absurd rfl (hM M)
  | transpose axes =>
    obtain ⟨σ, hσ⟩ := ht
    obtain ⟨N2, e1, e2⟩ := C20_transpose N σ hσ
    have h : N.transpose axes = .ok N' := h
    rw [e1] at h
    obtain rfl : N2 = N' := by injection h
    exact permuted_averages hv hm e2
  | swap i j =>
    have h : N.swap i j = .ok N' := h
    have h0 := h
    unfold Nrb.swap at h
    obtain ⟨a, ha, h⟩ := res_bind_inv h
    obtain ⟨b, hb, _⟩ := res_bind_inv h
    obtain ⟨N2, e1, e2⟩ := C20_swap N ha hb
    rw [e1] at h0
    obtain rfl : N2 = N' := by injection h0
    exact permuted_averages hv hm e2
  | reverse axes =>
    have h : N.reverse axes = .ok N' := h
    cases hL : (revAxes d axes).mapM (normAxis d) with
    | ok L =>
      rw [reverse_eq hL] at h
      obtain rfl : L.foldl Nrb.reverse1 N = N' := by injection h
      exact reverse_averages L N
    | error e =>
      exact absurd h (reverse_err hL)
  | remap axis start stop =>
    have h : N.remap axis start stop = .ok N' := h
    exact remap_averages h
  | insert axis value times =>
    cases d with
    | zero => cases h
    | succ d => exact insert_averages heps hv hm ht h
  | remove => exact ht.elim
  | clamp axis side =>
    cases d with
    | zero => cases h
    | succ d => exact clamp_averages heps hv hm ht h
  | unclamp axis side cont => exact hA.elim
  | refine axis values =>
    cases values with
    | block => exact ht.elim
    | fresh vals =>
      have h : (if vals = [] then .ok N else
        onAxis N (fun N => N.refine env.eps jn.k jn.rows axis vals)) = .ok N' := h
      split_ifs at h with hn
      · obtain rfl : N = N' := by injection h
        exact averages_refl N
      · cases d with
        | zero => cases h
        | succ d => exact refine_averages heps hv hm ht h
  | elevate axis times =>
    cases d with
    | zero =>
      have : N = N' := by
        cases times with
        | none => injection h
        | some t =>
          have h : (if t ≥ 0 then (if t = 0 then .ok N else .error .index) else .error .assertion) = (.ok N' : Res (Nrb K 0)) := h
          split_ifs at h
          injection h
      rw [← this]
      exact averages_refl N
    | succ d => exact elevate_averages heps hv hm ht h

theorem place_mat {g : Geo K} (hM : ∀ M, g ≠ .transform M) (s : Placed K d) : (g.place s).mat = s.mat := by
  cases g with
  | transform M => exact absurd rfl (hM M)
  | transpose axes => rfl
  | swap i j => simp only [Geo.place]; split <;> rfl
  | reverse axes => simp only [Geo.place]; split <;> rfl
  | remap axis start stop => simp only [Geo.place]; split <;> rfl
  | _ => rfl

theorem history_averages {env : Env K} (heps : 0 < env.eps) {N0 : Nrb K d} : ∀ (p : List (Call K)) {N : Nrb K d} {s : Placed K d},
    N0.Follows N s → (N0.transform s.mat).Averages N → TameAll env N p → (∀ c ∈ p, c.2.Adds) →
      (N0.transform (placement env N s p).mat).Averages (history env N p)
  | [], _, _, _, hA, _, _ => hA
  | c :: p, N, s, hF, hA, ht, ha => by
    obtain ⟨h1, h2⟩ := ht
    unfold history placement
    unfold Call.after at h2 ⊢
    cases hc : c.2.apply env c.1 c.2.vals N with
    | ok N' =>
      rw [hc] at h2
      refine history_averages heps p (call_follows heps hF h1 hc) ?_ h2 (fun c hc => ha c (List.mem_cons_of_mem _ hc))
      by_cases hM : ∃ M, c.2 = .transform M
      · obtain ⟨M, hM⟩ := hM
        rw [hM] at hc ⊢
        cases M with
        | error e => cases hc
        | ok M =>
          obtain rfl : N.transform M = N' := by injection hc
          have := transform_averages hA M
          rw [transform_transform] at this
          exact this
      · push Not at hM
        rw [place_mat hM]
        exact hA.trans (call_averages heps hF.valid hF.inner h1 (ha c List.mem_cons_self) hM hc)
    | error e =>
      rw [hc] at h2
      exact history_averages heps p hF hA h2 (fun c hc => ha c (List.mem_cons_of_mem _ hc))

/-- C83: start with a valid object and call `insert`, `refine`, `clamp`, `elevate`, `remap`, `reverse`, `swap`,
`transpose` and `transform` any number of times in any order.  The control points are averages of the original
ones multiplied by the product of the matrices: every convex set that contains these contains them. -/
theorem C83_history {env : Env K} (heps : 0 < env.eps) {N : Nrb K d} (hv : N.Valid) (hm : ∀ a, N.InnerMult a)
    (p : List (Call K)) (ht : TameAll env N p) (ha : ∀ c ∈ p, c.2.Adds) :
    (N.transform (placement env N (Placed.start N) p).mat).Averages (history env N p) := by
  refine history_averages heps p (follows_start hv hm) ?_ ht ha
  have e : (Placed.start N).mat = fun i j => if i = j then 1 else 0 := rfl
  rw [e, transform_one]
  exact averages_refl N

theorem placement_mat (env : Env K) : ∀ (p : List (Call K)) (N : Nrb K d) (s : Placed K d),
    (∀ c ∈ p, ∀ M, c.2 ≠ .transform M) → (placement env N s p).mat = s.mat
  | [], _, _, _ => rfl
  | c :: p, N, s, h => by
    unfold placement
    have hp := fun c hc => h c (List.mem_cons_of_mem _ hc)
    cases c.2.apply env c.1 c.2.vals N with
    | ok N' => exact (placement_mat env p N' _ hp).trans (place_mat (h c List.mem_cons_self) s)
    | error e => exact placement_mat env p N s hp

/-- C83 without `transform`: averages of the original control points themselves -/
theorem C83_history_same {env : Env K} (heps : 0 < env.eps) {N : Nrb K d} (hv : N.Valid) (hm : ∀ a, N.InnerMult a)
    (p : List (Call K)) (ht : TameAll env N p) (ha : ∀ c ∈ p, c.2.Adds) (hM : ∀ c ∈ p, ∀ M, c.2 ≠ .transform M) :
    N.Averages (history env N p) := by
  have := C83_history heps hv hm p ht ha
  rw [placement_mat env p N _ hM] at this
  have e : (Placed.start N).mat = fun i j => if i = j then 1 else 0 := rfl
  rwa [e, transform_one] at this

/-- C83 for `slice` -/
theorem C83_slice {eps : K} (heps : 0 < eps) (jk : ℤ → K) (je : ℤ → (Fin d → ℤ) → ℕ → K)
    {N : Nrb K (d + 1)} (hv : N.Valid) (hi : ∀ a, N.InnerMult a) {axis : ℤ} {a : Fin (d + 1)}
    (ha : normAxis (d + 1) axis = .ok a) {start stop : Option K} {u0 u1 : K}
    (hst : u0 = start.getD (N.lo a)) (hsp : u1 = stop.getD (N.hi a))
    (h0 : N.lo a ≤ u0) (h1 : u1 ≤ N.hi a) (h01 : u0 < u1) (h01' : eps ≤ u1 - u0)
    (hs0 : N.Sep eps a u0) (hs1 : N.Sep eps a u1) (hm : N.MultOK a) :
    ∃ N', N.slice eps jk je axis start stop = .ok N' ∧ N.Averages N' := by
  obtain ⟨N', e1, e2, e3, e4, e5, e6, e7, e8, e9, e10, e11⟩ :=
    C10_slice_knots heps jk je hv ha hst hsp h0 h1 h01 h01' hs0 hs1 hm
  refine ⟨N', e1, ?_⟩
  obtain ⟨p, hp, hk, e⟩ := deg_nat e2 a
  have hle := hk.le
  have h1p := hk.one_le
  refine hull_axis (a := a) hv e2 e4 (fun b hb => ⟨(e7 b hb).2.1, (e7 b hb).1⟩) (e5 ▸ h0) (e6 ▸ h1) e11 ?_ ?_
  · intro y y0 y1
    rw [hp] at e8 e9
    refine (e10 y ?_ ?_).ge
    · rw [e8 0 le_rfl (by omega)] at y0
      rw [← e5, N'.lo_eq, hp]; exact y0
    · rw [e, e9 _ (by omega) le_rfl] at y1
      rw [← e6, N'.hi_eq]; exact y1
  · intro b x x1 x2
    rw [e4]
    by_cases hb : b = a
    · subst hb
      rw [e5] at x1; rw [e6] at x2
      rw [e10 x x1 x2]
      have := hi b x (lt_of_le_of_lt h0 x1) (lt_of_lt_of_le x2 h1)
      omega
    · obtain ⟨b1, b2, b3, b4⟩ := e7 b hb
      have := innerMult_other (hi b) (e4 b) b3 b4 b2 (len_of_degree (e4 b) b1) x x1 x2
      rw [e4] at this
      omega

/-- C83 for `extract` -/
theorem C83_extract {eps : K} (heps : 0 < eps) (je : ℤ → (Fin d → ℤ) → ℕ → K) {N : Nrb K (d + 1)} (hv : N.Valid)
    (hi : ∀ a, N.InnerMult a) {axis : ℤ} {a : Fin (d + 1)} (ha : normAxis (d + 1) axis = .ok a) {u : K}
    (h : N.CanExtract eps a u) : ∃ N', N.extract eps je axis u = .ok N' ∧ N.Averages N' := by
  obtain ⟨N', e1, -, e2⟩ := C11_extract heps je hv ha h.lo h.hi h.sep h.mult h.right
  exact ⟨N', e1, section_averages hv hi h.lo h.hi e2⟩

/-- C83 for `boundary` -/
theorem C83_boundary {eps : K} (heps : 0 < eps) (je : ℤ → (Fin d → ℤ) → ℕ → K) {N : Nrb K (d + 1)} (hv : N.Valid)
    (hi : ∀ a, N.InnerMult a) {axis : ℤ} {a : Fin (d + 1)} (ha : normAxis (d + 1) axis = .ok a) {side : ℤ}
    (hs : side = 0 ∨ side = 1) (hsep : N.SepBoth eps a) (hm : (N.multOf a (N.lo a) : ℤ) ≤ N.degree a + 1)
    (hend : N.multOf a (N.hi a) = 1 ∨ N.degree a ≤ N.multOf a (N.hi a)) :
    ∃ N', N.boundary eps je axis side = .ok N' ∧ N.Averages N' := by
  obtain ⟨N', e1, -, e2⟩ := C11_boundary heps je hv ha hs hsep hm hend
  have hlt := valid_lo_lt_hi hv a
  refine ⟨N', e1, section_averages hv hi ?_ ?_ e2⟩ <;> split_ifs <;> first | exact le_rfl | exact hlt.le

/-! ## What averages mean for weights and points -/

/-- bounds for a component of all control points, such as the weight, stay bounds -/
theorem C83_bounds {N : Nrb K d} {N' : Nrb K d'} (h : N.Averages N') {c : ℕ} {lo hi : K}
    (hP : ∀ idx, N.InNet idx → lo ≤ N.P idx c ∧ N.P idx c ≤ hi) {idx : Fin d' → ℤ} (hi' : N'.InNet idx) :
    lo ≤ N'.P idx c ∧ N'.P idx c ≤ hi := by
  refine h {v | lo ≤ v c ∧ v c ≤ hi} ?_ hP idx hi'
  intro x hx y hy a b ha hb hab
  obtain rfl : a = 1 - b := by linarith
  simp only [Set.mem_setOf_eq, Pi.add_apply, Pi.smul_apply, smul_eq_mul] at hx hy ⊢
  constructor <;> nlinarith [mul_le_mul_of_nonneg_left hx.1 ha, mul_le_mul_of_nonneg_left hy.1 hb,
    mul_le_mul_of_nonneg_left hx.2 ha, mul_le_mul_of_nonneg_left hy.2 hb]

/-- positive weights stay positive, and every convex set of points of space (and fields) that contains the old
points contains the new ones -/
theorem C83_points {N : Nrb K d} {N' : Nrb K d'} (h : N.Averages N') {T : Set (ℕ → K)} (hT : Convex K T)
    (hw : ∀ idx, N.InNet idx → 0 < N.P idx 3) (hP : ∀ idx, N.InNet idx → (fun c => N.P idx c / N.P idx 3) ∈ T)
    {idx : Fin d' → ℤ} (hi : N'.InNet idx) : 0 < N'.P idx 3 ∧ (fun c => N'.P idx c / N'.P idx 3) ∈ T := by
  refine h {v | 0 < v 3 ∧ (fun c => v c / v 3) ∈ T} ?_ (fun idx hi => ⟨hw idx hi, hP idx hi⟩) idx hi
  rintro x ⟨x1, x2⟩ y ⟨y1, y2⟩ a b ha hb hab
  have hpos : 0 < a * x 3 + b * y 3 := by
    rcases ha.eq_or_lt with h0 | h0
    · subst h0
      obtain rfl : b = 1 := by linarith
      simpa using y1
    · have := mul_pos h0 x1
      have := mul_nonneg hb y1.le
      linarith
  refine ⟨hpos, ?_⟩
  have := hT x2 y2 (a := a * x 3 / (a * x 3 + b * y 3)) (b := b * y 3 / (a * x 3 + b * y 3)) (by positivity) (by positivity)
    (by field_simp)
  convert this using 1
  funext c
  simp only [Pi.add_apply, Pi.smul_apply, smul_eq_mul]
  field_simp

end Igakit
