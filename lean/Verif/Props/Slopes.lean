import Verif.Proofs.SlopeNrb
import Verif.Proofs.Support
import Verif.Props.Averages

/-!
# C87: differences of control points under refinement, and convergence of the control net
-/

set_option linter.unusedSectionVars false

namespace Igakit
open Spec

variable {K : Type} [Field K] [LinearOrder K] [IsStrictOrderedRing K] {d : ℕ}

/-- what calls that add knots keep -/
structure Finer (N N' : Nrb K d) : Prop where
  valid : N'.Valid
  inner : ∀ a, N'.InnerMult a
  same : N.SameMap N'
  averages : N.Averages N'
  slopes : ∀ b S, Convex K S → N.Slopes b S → N'.Slopes b S

theorem Finer.refl {N : Nrb K d} (hv : N.Valid) (hm : ∀ a, N.InnerMult a) : Finer N N :=
  ⟨hv, hm, Nrb.SameMap.refl N, averages_refl N, fun _ _ _ h => h⟩

theorem Finer.trans {N N' N'' : Nrb K d} (h : Finer N N') (h' : Finer N' N'') : Finer N N'' :=
  ⟨h'.valid, h'.inner, sameMap_trans h.same h'.same, h.averages.trans h'.averages,
    fun b S hS hN => h'.slopes b S hS (h.slopes b S hS hN)⟩

theorem MoreKnots.finer {N N' : Nrb K (d + 1)} (hv : N.Valid) {a : Fin (d + 1)} (h : MoreKnots N N' a) : Finer N N' :=
  ⟨h.valid, h.inner, h.same, h.averages hv, fun b _ hS hN => h.slopes hv b hS hN⟩

theorem call_finer {env : Env K} (heps : 0 < env.eps) {jn : Scratch K} {N N' : Nrb K d} (hv : N.Valid)
    (hm : ∀ a, N.InnerMult a) {g : Geo K} (ht : g.Tame env.eps N) (hA : g.AddsKnots)
    (h : g.apply env jn g.vals N = .ok N') : Finer N N' := by
  cases g with
  | insert axis value times =>
    cases d with
    | zero => cases h
    | succ d =>
      obtain ⟨a, h⟩ := insert_more heps hv hm ht h
      exact h.finer hv
  | clamp axis side =>
    cases d with
    | zero => cases h
    | succ d =>
      obtain ⟨a, h⟩ := clamp_more heps hv hm ht h
      exact h.finer hv
  | refine axis values =>
    cases values with
    | block => exact ht.elim
    | fresh vals =>
      have h : (if vals = [] then .ok N else
        onAxis N (fun N => N.refine env.eps jn.k jn.rows axis vals)) = .ok N' := h
      split_ifs at h with hn
      · obtain rfl : N = N' := by injection h
        exact Finer.refl hv hm
      · cases d with
        | zero => cases h
        | succ d =>
          obtain ⟨a, h⟩ := refine_more heps hv hm ht h
          exact h.finer hv
  | _ => exact hA.elim

theorem history_finer {env : Env K} (heps : 0 < env.eps) : ∀ (p : List (Call K)) {N : Nrb K d}, N.Valid → (∀ a, N.InnerMult a) →
    TameAll env N p → (∀ c ∈ p, c.2.AddsKnots) → Finer N (history env N p)
  | [], _, hv, hm, _, _ => Finer.refl hv hm
  | c :: p, N, hv, hm, ht, ha => by
    obtain ⟨h1, h2⟩ := ht
    unfold history
    unfold Call.after at h2 ⊢
    cases hc : c.2.apply env c.1 c.2.vals N with
    | ok N' =>
      rw [hc] at h2
      have h := call_finer heps hv hm h1 (ha c List.mem_cons_self) hc
      exact h.trans (history_finer heps p h.valid h.inner h2 (fun c hc => ha c (List.mem_cons_of_mem _ hc)))
    | error e =>
      rw [hc] at h2
      exact history_finer heps p hv hm h2 (fun c hc => ha c (List.mem_cons_of_mem _ hc))

/-- C87: call `insert`, `refine` and `clamp` any number of times in any order.  On every axis the differences of
neighbouring control points, divided by the distances of the knots between them, are averages of the original ones: every
convex set that contains these contains them. -/
theorem C87_slopes {env : Env K} (heps : 0 < env.eps) {N : Nrb K d} (hv : N.Valid) (hm : ∀ a, N.InnerMult a)
    (p : List (Call K)) (ht : TameAll env N p) (ha : ∀ c ∈ p, c.2.AddsKnots) (a : Fin d) {S : Set (ℕ → K)} (hS : Convex K S)
    (h : N.Slopes a S) : (history env N p).Slopes a S :=
  (history_finer heps p hv hm ht ha).slopes a S hS h

/-! ## distance of control points from the object -/

/-- a bound for all steps in a box bounds all differences in the box -/
theorem box_path {F : (Fin d → ℤ) → K} {lo up : Fin d → ℤ} {B : Fin d → K}
    (h : ∀ idx a, (∀ b, lo b ≤ idx b ∧ idx b ≤ up b) → idx a + 1 ≤ up a → |F (Function.update idx a (idx a + 1)) - F idx| ≤ B a)
    {i j : Fin d → ℤ} (hi : ∀ b, lo b ≤ i b ∧ i b ≤ up b) (hj : ∀ b, lo b ≤ j b ∧ j b ≤ up b) :
    |F i - F j| ≤ ∑ a, |((i a - j a : ℤ) : K)| * B a := by
  classical
  -- along one axis, upwards
  have h1 : ∀ (n : ℕ) (k : Fin d → ℤ) (a : Fin d), (∀ b, lo b ≤ k b ∧ k b ≤ up b) → k a + n ≤ up a →
      |F (Function.update k a (k a + n)) - F k| ≤ n * B a := by
    intro n
    induction n with
    | zero => intro k a _ _; simp
    | succ n ih =>
      intro k a hk hle
      push_cast at hle
      have e1 := ih k a hk (by omega)
      have e2 := h (Function.update k a (k a + n)) a (fun b => by
        by_cases hb : b = a
        · subst hb; rw [Function.update_self]; have := hk b; omega
        · rw [Function.update_of_ne hb]; exact hk b) (by rw [Function.update_self]; omega)
      rw [Function.update_self, Function.update_idem] at e2
      push_cast
      rw [← add_assoc]
      have := abs_sub_le (F (Function.update k a (k a + n + 1))) (F (Function.update k a (k a + n))) (F k)
      linarith
  -- along one axis
  have h2 : ∀ (k : Fin d → ℤ) (a : Fin d) (y : ℤ), (∀ b, lo b ≤ k b ∧ k b ≤ up b) → lo a ≤ y → y ≤ up a →
      |F (Function.update k a y) - F k| ≤ |((y - k a : ℤ) : K)| * B a := by
    intro k a y hk y1 y2
    rcases le_total (k a) y with hc | hc
    · obtain ⟨n, rfl⟩ := Int.le.dest hc
      have := h1 n k a hk y2
      rw [show k a + (n : ℤ) - k a = n by ring]
      simpa using this
    · obtain ⟨n, hn⟩ := Int.le.dest hc
      have := h1 n (Function.update k a y) a (fun b => by
        by_cases hb : b = a
        · subst hb; rw [Function.update_self]; exact ⟨y1, y2⟩
        · rw [Function.update_of_ne hb]; exact hk b) (by rw [Function.update_self, hn]; exact (hk a).2)
      rw [Function.update_self, Function.update_idem, hn, Function.update_eq_self, abs_sub_comm] at this
      rw [show y - k a = -(n : ℤ) by omega]
      simpa using this
  have h3 : ∀ (s : Finset (Fin d)) (k : Fin d → ℤ), (∀ b, lo b ≤ k b ∧ k b ≤ up b) →
      |F (fun b => if b ∈ s then i b else k b) - F k| ≤ ∑ a ∈ s, |((i a - k a : ℤ) : K)| * B a := by
    intro s
    induction s using Finset.induction_on with
    | empty => intro k _; simp
    | insert a s has ih =>
      intro k hk
      have hk' : ∀ b, lo b ≤ (fun b => if b ∈ s then i b else k b) b ∧ (fun b => if b ∈ s then i b else k b) b ≤ up b := by
        intro b
        dsimp only
        split_ifs
        · exact hi b
        · exact hk b
      have e1 := h2 _ a (i a) hk' (hi a).1 (hi a).2
      have e : (Function.update (fun b => if b ∈ s then i b else k b) a (i a)) = fun b => if b ∈ insert a s then i b else k b := by
        funext b
        by_cases hb : b = a
        · subst hb; rw [Function.update_self, if_pos (Finset.mem_insert_self _ _)]
        · rw [Function.update_of_ne hb]
          simp only [Finset.mem_insert, hb, false_or]
      rw [e, if_neg has] at e1
      have e2 := ih k hk
      rw [Finset.sum_insert has]
      have := abs_sub_le (F (fun b => if b ∈ insert a s then i b else k b)) (F (fun b => if b ∈ s then i b else k b)) (F k)
      linarith
  have := h3 Finset.univ j hj
  simpa using this

theorem knot_gap {U : ℤ → K} {h : K} : ∀ (n : ℕ) {i : ℤ}, (∀ j, i ≤ j → j < i + n → U (j + 1) - U j ≤ h) → U (i + n) - U i ≤ n * h
  | 0, i, _ => by simp
  | n + 1, i, H => by
    have h1 := knot_gap n (fun j a b => H j a (by push_cast; omega))
    have h2 := H (i + n) (by omega) (by push_cast; omega)
    push_cast
    rw [← add_assoc]
    linarith

theorem Nrb.Acts.mem {N : Nrb K d} (hv : N.Valid) {x : Fin d → K} (hx : N.InDom x) {idx : Fin d → ℤ} (h : N.Acts idx x) (a : Fin d) :
    findSpan (N.n a) (N.degree a) (x a) (N.U a) - N.degree a ≤ idx a ∧ idx a ≤ findSpan (N.n a) (N.degree a) (x a) (N.U a) := by
  obtain ⟨p, hp, hk, e⟩ := deg_nat hv a
  obtain ⟨h1, h2⟩ := h
  have h2 := h2 a
  have h1 := h1 a
  have h3 := hx a
  rw [N.lo_eq, N.hi_eq, hp] at h3
  rw [hp] at h2 ⊢
  rw [Int.toNat_natCast] at h2
  by_contra hc
  refine h2 (bsplineD_zero_outside hk h3.1 h3.2 (idx a) h1.1 (by unfold Nrb.n; omega) ?_)
  by_contra hd
  push Not at hd
  exact hc ⟨by omega, hd.2⟩

/-- C87: if the divided differences of component `c` along axis `a` are at most `M a` and neighbouring knots at most `h` apart,
every control point is within `h` times the sum of `M a` times the squared degree of the values where it acts. -/
theorem C87_distance {N : Nrb K d} (hv : N.Valid) {c : ℕ} {M : Fin d → K} (hM : ∀ a, N.Slopes a {v | |v c| ≤ M a}) {h : K}
    (hh : N.Mesh h) {x : Fin d → K} (hx : N.InDom x) {idx : Fin d → ℤ} (hi : N.Acts idx x) :
    |N.P idx c - N.eval x c| ≤ (∑ a, (N.degree a : K) ^ 2 * M a) * h := by
  have hw : ∀ j ∈ Fintype.piFinset (fun a => Finset.Icc 0 (N.n a)), N.wt x j ≠ 0 →
      |N.P idx c - N.P j c| ≤ (∑ a, (N.degree a : K) ^ 2 * M a) * h := by
    intro j hj hne
    have hjn : ∀ a, 0 ≤ j a ∧ j a ≤ N.n a := fun a => Finset.mem_Icc.mp (Fintype.mem_piFinset.mp hj a)
    have hja : N.Acts j x := ⟨fun a => by have := hjn a; unfold Nrb.n at this; omega, fun a ha => hne (Finset.prod_eq_zero (Finset.mem_univ a) ha)⟩
    refine (box_path (F := fun i => N.P i c) (lo := fun a => findSpan (N.n a) (N.degree a) (x a) (N.U a) - N.degree a)
      (up := fun a => findSpan (N.n a) (N.degree a) (x a) (N.U a)) (B := fun a => (N.degree a : K) * M a * h)
      (fun k a hk hka => ?_) (hi.mem hv hx) (hja.mem hv hx)).trans ?_
    · have hb : ∀ b, N.degree b ≤ findSpan (N.n b) (N.degree b) (x b) (N.U b) ∧ findSpan (N.n b) (N.degree b) (x b) (N.U b) ≤ N.n b := by
        intro b
        obtain ⟨p, hp, hk, e⟩ := deg_nat hv b
        have h3 := hx b
        rw [N.lo_eq, N.hi_eq, hp] at h3
        have := findSpan_bracket hk h3.1 h3.2
        rw [hp]
        exact ⟨this.1, this.2.1⟩
      have hkn : N.InNet k := fun b => by
        have h1 := hb b
        have h2 := hk b
        have h3 : N.shape b = N.n b + 1 := by unfold Nrb.n; ring
        omega
      have hka' : k a + 1 < N.shape a := by
        have := (hb a).2
        have h3 : N.shape a = N.n a + 1 := by unfold Nrb.n; ring
        omega
      obtain ⟨s, s1, s2⟩ := hM a k hkn hka'
      obtain ⟨p, hp, hkv, e⟩ := deg_nat hv a
      have hsn : N.shape a = N.n a + 1 := by unfold Nrb.n; ring
      have h0 := (hkn a).1
      have g1 : N.U a (k a + N.degree a + 1) - N.U a (k a + 1) ≤ p * h := by
        rw [hp, show k a + (p : ℤ) + 1 = k a + 1 + p by ring]
        exact knot_gap p (fun j a1 a2 => hh a j (by omega) (by omega))
      have g2 : 0 ≤ N.U a (k a + N.degree a + 1) - N.U a (k a + 1) := by
        rw [hp, sub_nonneg]
        exact hkv.sorted _ _ (by omega) (by omega) (by omega)
      have s1 : |s c| ≤ M a := s1
      show |N.P (Function.update k a (k a + 1)) c - N.P k c| ≤ _
      rw [s2]
      simp only [Pi.add_apply, Pi.smul_apply, smul_eq_mul, add_sub_cancel_left]
      rw [abs_mul, abs_of_nonneg g2]
      have hM0 := (abs_nonneg _).trans s1
      calc _ ≤ (p * h) * M a := mul_le_mul g1 s1 (abs_nonneg _) (g2.trans g1)
        _ = _ := by rw [hp]; push_cast; ring
    · rw [Finset.sum_mul]
      refine Finset.sum_le_sum fun a _ => ?_
      obtain ⟨p, hp, hkv, e⟩ := deg_nat hv a
      have g1 := hi.mem hv hx a
      have g2 := hja.mem hv hx a
      have g3 : |((idx a - j a : ℤ) : K)| ≤ N.degree a := by
        rw [← Int.cast_abs]
        exact_mod_cast (abs_le.mpr ⟨by omega, by omega⟩ : |idx a - j a| ≤ N.degree a)
      have hM0 : 0 ≤ M a := by
        obtain ⟨s, s1, _⟩ := hM a (fun _ => 0) (fun b => by
          obtain ⟨p, hp, hkv, e⟩ := deg_nat hv b
          have := hkv.le
          unfold Nrb.n at this
          show 0 ≤ (0 : ℤ) ∧ (0 : ℤ) < _
          omega) (by
          have := hkv.le
          have := hkv.one_le
          unfold Nrb.n at *
          show (0 : ℤ) + 1 < _
          omega)
        exact (abs_nonneg _).trans s1
      have hh0 : 0 ≤ h := by
        have := hkv.le
        have := hkv.sorted 0 1 le_rfl (by omega) (by omega)
        have := hh a 0 le_rfl (by omega)
        rw [zero_add] at this
        linarith
      have hd0 : (0 : K) ≤ N.degree a := by rw [hp]; positivity
      calc _ ≤ (N.degree a : K) * ((N.degree a : K) * M a * h) := mul_le_mul_of_nonneg_right g3 (by positivity)
        _ = _ := by ring
  have hsum := Nrb.wt_sum hv hx
  have e : N.P idx c - N.eval x c = ∑ j ∈ Fintype.piFinset (fun a => Finset.Icc 0 (N.n a)), N.wt x j * (N.P idx c - N.P j c) := by
    rw [Nrb.eval_apply]
    simp only [mul_sub, Finset.sum_sub_distrib]
    rw [← Finset.sum_mul, hsum, one_mul]
  rw [e]
  refine (Finset.abs_sum_le_sum_abs _ _).trans ?_
  calc _ ≤ ∑ j ∈ Fintype.piFinset (fun a => Finset.Icc 0 (N.n a)), N.wt x j * ((∑ a, (N.degree a : K) ^ 2 * M a) * h) := by
        refine Finset.sum_le_sum fun j hj => ?_
        have h0 := Nrb.wt_nonneg hv hx (fun a => Finset.mem_Icc.mp (Fintype.mem_piFinset.mp hj a))
        rw [abs_mul, abs_of_nonneg h0]
        by_cases hne : N.wt x j = 0
        · rw [hne, zero_mul, zero_mul]
        · exact mul_le_mul_of_nonneg_left (hw j hj hne) h0
    _ = _ := by rw [← Finset.sum_mul, hsum, one_mul]

/-- a bound for the divided differences of one component -/
theorem exists_slope_bound {N : Nrb K d} (hv : N.Valid) (hm : ∀ a, N.InnerMult a) (a : Fin d) (c : ℕ) :
    ∃ M, 0 ≤ M ∧ N.Slopes a {v | |v c| ≤ M} := by
  obtain ⟨p, hp, hk, e⟩ := deg_nat hv a
  have hin := inner_axis hm hp e
  let sl : (Fin d → ℤ) → ℕ → K := fun idx => (N.U a (idx a + N.degree a + 1) - N.U a (idx a + 1))⁻¹ •
    (N.P (Function.update idx a (idx a + 1)) - N.P idx)
  refine ⟨∑ j ∈ Fintype.piFinset (fun a => Finset.Icc 0 (N.n a)), |sl j c|, Finset.sum_nonneg fun _ _ => abs_nonneg _,
    fun idx hidx hlt => ⟨sl idx, ?_, ?_⟩⟩
  · exact Finset.single_le_sum (f := fun j => |sl j c|) (fun _ _ => abs_nonneg _) (Fintype.mem_piFinset.mpr fun b => Finset.mem_Icc.mpr (by
      have := hidx b
      unfold Nrb.n
      omega))
  · have h0 := (hidx a).1
    have hsn : N.shape a = N.n a + 1 := by unfold Nrb.n; ring
    obtain ⟨h, h1, h2, h3, h4, h5⟩ := exists_mid hk hin h0 (by omega)
    have hne : N.U a (idx a + N.degree a + 1) - N.U a (idx a + 1) ≠ 0 := by
      rw [hp]
      have e1 := hk.sorted (idx a + 1) h (by omega) (by omega) (by omega)
      have e2 := hk.sorted (h + 1) (idx a + p + 1) (by omega) (by omega) (by omega)
      exact (sub_pos.mpr (lt_of_le_of_lt e1 (lt_of_lt_of_le h5 e2))).ne'
    simp only [sl]
    rw [smul_smul, mul_inv_cancel₀ hne, one_smul, add_sub_cancel]

theorem convex_abs (c : ℕ) (M : K) : Convex K {v : ℕ → K | |v c| ≤ M} := by
  intro x hx y hy a b h1 h2 h3
  have hx : |x c| ≤ M := hx
  have hy : |y c| ≤ M := hy
  show |a * x c + b * y c| ≤ M
  calc _ ≤ |a * x c| + |b * y c| := abs_add_le _ _
    _ = a * |x c| + b * |y c| := by rw [abs_mul, abs_mul, abs_of_nonneg h1, abs_of_nonneg h2]
    _ ≤ a * M + b * M := by gcongr
    _ = M := by rw [← add_mul, h3, one_mul]

/-- C87: for every object and component there is a constant such that after any calls of `insert`, `refine` and `clamp`
every control point is within the constant times the largest knot distance of the original homogeneous values at all
parameters where it acts. -/
theorem C87_converges {N : Nrb K d} (hv : N.Valid) (hm : ∀ a, N.InnerMult a) (c : ℕ) :
    ∃ C, 0 ≤ C ∧ ∀ (env : Env K) (p : List (Call K)) (h : K), 0 < env.eps → TameAll env N p → (∀ c ∈ p, c.2.AddsKnots) →
      (history env N p).Mesh h → ∀ x idx, N.InDom x → (history env N p).Acts idx x →
        |(history env N p).P idx c - N.eval x c| ≤ C * h := by
  choose M hM0 hM using fun a => exists_slope_bound hv hm a c
  refine ⟨∑ a, (N.degree a : K) ^ 2 * M a, Finset.sum_nonneg fun a _ => mul_nonneg (sq_nonneg _) (hM0 a), ?_⟩
  intro env p h heps ht ha hh x idx hx hi
  have hF := history_finer heps p hv hm ht ha
  have hx' : (history env N p).InDom x := fun a => by
    have := hx a
    rw [hF.same.lo, hF.same.hi]
    exact this
  have := C87_distance hF.valid (c := c) (M := M) (fun a => hF.slopes a _ (convex_abs c _) (hM a)) hh hx' hi
  rw [hF.same.eval x hx] at this
  simp only [hF.same.degree] at this
  exact this

theorem eval_mem {N : Nrb K d} (hv : N.Valid) {C : Set (ℕ → K)} (hC : Convex K C) (h : ∀ idx, N.InNet idx → N.P idx ∈ C)
    {x : Fin d → K} (hx : N.InDom x) : N.eval x ∈ C := by
  have hmem : ∀ idx ∈ Fintype.piFinset (fun a => Finset.Icc 0 (N.n a)), ∀ a, 0 ≤ idx a ∧ idx a ≤ N.n a :=
    fun idx h a => Finset.mem_Icc.mp (Fintype.mem_piFinset.mp h a)
  exact hC.sum_mem (fun idx hi => Nrb.wt_nonneg hv hx (hmem idx hi)) (Nrb.wt_sum hv hx)
    (fun idx hi => h idx fun a => by have := hmem idx hi a; unfold Nrb.n at this; omega)

/-- C87: with positive weights the same holds for the projected control points and the points of the object. -/
theorem C87_points {N : Nrb K d} (hv : N.Valid) (hm : ∀ a, N.InnerMult a) (hw : ∀ idx, N.InNet idx → 0 < N.P idx 3) (c : ℕ) :
    ∃ C, 0 ≤ C ∧ ∀ (env : Env K) (p : List (Call K)) (h : K), 0 < env.eps → TameAll env N p → (∀ c ∈ p, c.2.AddsKnots) →
      (history env N p).Mesh h → ∀ x idx, N.InDom x → (history env N p).Acts idx x →
        |(history env N p).P idx c / (history env N p).P idx 3 - N.eval x c / N.eval x 3| ≤ C * h := by
  obtain ⟨C1, C10, hC1⟩ := C87_converges hv hm c
  obtain ⟨C2, C20, hC2⟩ := C87_converges hv hm 3
  have hbox : ∀ idx, N.InNet idx ↔ idx ∈ Fintype.piFinset (fun a => Finset.Icc 0 (N.n a)) := by
    intro idx
    rw [Fintype.mem_piFinset]
    refine forall_congr' fun a => ?_
    rw [Finset.mem_Icc]
    unfold Nrb.n
    omega
  have hne : (Fintype.piFinset (fun a => Finset.Icc 0 (N.n a))).Nonempty := ⟨fun _ => 0, by
    rw [← hbox]
    intro b
    obtain ⟨p, hp, hkv, e⟩ := deg_nat hv b
    have := hkv.le
    unfold Nrb.n at this
    show 0 ≤ (0 : ℤ) ∧ (0 : ℤ) < _
    omega⟩
  obtain ⟨i0, hi0, hmin⟩ := Finset.exists_min_image _ (fun idx => N.P idx 3) hne
  obtain ⟨j0, hj0, hmax⟩ := Finset.exists_max_image _ (fun idx => |N.P idx c|) hne
  set W := N.P i0 3 with hW
  set R := |N.P j0 c| with hR
  have hW0 : 0 < W := hw i0 ((hbox _).2 hi0)
  refine ⟨(C1 + R / W * C2) / W, by positivity, ?_⟩
  intro env p h heps ht ha hh x idx hx hi
  have e1 := hC1 env p h heps ht ha hh x idx hx hi
  have e2 := hC2 env p h heps ht ha hh x idx hx hi
  have hF := history_finer heps p hv hm ht ha
  have hcw : Convex K {v : ℕ → K | W ≤ v 3} := by
    intro x hx y hy a b h1 h2 h3
    have hx : W ≤ x 3 := hx
    have hy : W ≤ y 3 := hy
    show W ≤ a * x 3 + b * y 3
    calc W = a * W + b * W := by rw [← add_mul, h3, one_mul]
      _ ≤ _ := by gcongr
  have w1 : W ≤ (history env N p).P idx 3 := hF.averages _ hcw (fun j hj => hmin j ((hbox j).1 hj)) idx hi.1
  have w2 : W ≤ N.eval x 3 := eval_mem hv hcw (fun j hj => hmin j ((hbox j).1 hj)) hx
  have w3 : |N.eval x c| ≤ R := eval_mem hv (convex_abs c R) (fun j hj => hmax j ((hbox j).1 hj)) hx
  generalize (history env N p).P idx = P' at *
  have p1 := lt_of_lt_of_le hW0 w1
  have p2 := lt_of_lt_of_le hW0 w2
  have e : P' c / P' 3 - N.eval x c / N.eval x 3 = ((P' c - N.eval x c) - N.eval x c / N.eval x 3 * (P' 3 - N.eval x 3)) / P' 3 := by
    field_simp
    ring
  have r : |N.eval x c / N.eval x 3| ≤ R / W := by
    rw [abs_div, abs_of_pos p2]
    exact div_le_div₀ (abs_nonneg _) w3 hW0 w2
  rw [e, abs_div, abs_of_pos p1]
  have num : |P' c - N.eval x c - N.eval x c / N.eval x 3 * (P' 3 - N.eval x 3)| ≤ (C1 + R / W * C2) * h := by
    refine (abs_sub _ _).trans ?_
    rw [abs_mul]
    have := mul_le_mul r e2 (abs_nonneg _) (by positivity)
    linarith
  calc _ ≤ ((C1 + R / W * C2) * h) / W := div_le_div₀ ((abs_nonneg _).trans num) num hW0 w1
    _ = _ := by ring

/-- C87: every control point acts somewhere in the domain, and at every point of the domain some control point acts. -/
theorem C87_acts {N : Nrb K d} (hv : N.Valid) (hm : ∀ a, N.InnerMult a) :
    (∀ idx, N.InNet idx → ∃ x, N.InDom x ∧ N.Acts idx x) ∧ ∀ x, N.InDom x → ∃ idx, N.Acts idx x := by
  constructor
  · intro idx hidx
    have : ∀ a, ∃ u, N.lo a ≤ u ∧ u ≤ N.hi a ∧ bsplineD (N.n a) (N.U a) (N.degree a).toNat (idx a) u ≠ 0 := by
      intro a
      obtain ⟨p, hp, hk, e⟩ := deg_nat hv a
      have hA := active_axis hv (a := a) (fun x h1 h2 => by have := hm a x h1 h2; omega)
      have hsn : N.shape a = N.n a + 1 := by unfold Nrb.n; ring
      have h0 := hidx a
      rw [hp, Int.toNat_natCast] at hA ⊢
      obtain ⟨k, k1, k2, k3, k4, k5⟩ := hA (idx a) h0.1 (by omega)
      obtain ⟨u, u1, u2⟩ := exists_between k5
      have a1 := hk.sorted p k (by omega) k1 (by omega)
      have a2 := hk.sorted (k + 1) (N.n a + 1) (by omega) (by omega) (by omega)
      have a3 := hk.sorted (idx a) k h0.1 k3 (by omega)
      have a4 := hk.sorted (k + 1) (idx a + p + 1) (by omega) (by omega) (by omega)
      rw [N.lo_eq, N.hi_eq, hp]
      refine ⟨u, a1.trans u1.le, u2.le.trans a2, ?_⟩
      exact (bsplineD_pos hk (a1.trans u1.le) (u2.le.trans a2) h0.1 (by omega) (lt_of_le_of_lt a3 u1) (lt_of_lt_of_le u2 a4)).ne'
    choose x x1 x2 x3 using this
    exact ⟨x, fun a => ⟨x1 a, x2 a⟩, hidx, x3⟩
  · intro x hx
    have h1 := Nrb.wt_sum hv hx
    obtain ⟨idx, hi, hne⟩ := Finset.exists_ne_zero_of_sum_ne_zero (by rw [h1]; exact one_ne_zero)
    refine ⟨idx, fun a => ?_, fun a ha => hne (Finset.prod_eq_zero (Finset.mem_univ a) ha)⟩
    have := Finset.mem_Icc.mp (Fintype.mem_piFinset.mp hi a)
    unfold Nrb.n at this
    omega

end Igakit
