import Verif.Proofs.Greville
import Verif.Props.KnotVector
import Verif.Props.Nurbs

/-!
# C24: Greville abscissae reproduce the parameter; `cad.grid`
-/

set_option linter.unusedSectionVars false

namespace Igakit
open Spec

section
variable {K : Type*} [Field K] [LinearOrder K] [IsStrictOrderedRing K]

theorem greville_mul (U : ℤ → K) (i : ℤ) {p : ℕ} (hp : 1 ≤ p) :
    greville (p : ℤ) U i * p = ∑ j ∈ Finset.range p, U (i + 1 + j) := by
  rw [greville_sum, div_mul_cancel₀ _ (by exact_mod_cast (by omega : p ≠ 0))]
  rfl

/-- C24: `bsp.Greville(p,U)` on a knot vector with `n + 1` basis functions gives nondecreasing values,
value `i` between the knots `U(i+1)` and `U(i+p)`, such that the spline with these coefficients is the
identity on the domain; at a clamped end the value is the end of the domain. -/
theorem C24_Greville {n : ℤ} {p : ℕ} {U : ℤ → K} (hv : ValidKnots n p U) :
    ∃ X, BSp.Greville p (n + p + 1) U = .ok X ∧
      (∀ u, U p ≤ u → u ≤ U (n + 1) → curve n p U X u = u) ∧
      (∀ i j, 0 ≤ i → i ≤ j → j ≤ n → X i ≤ X j) ∧
      (∀ i, 0 ≤ i → i ≤ n → U (i + 1) ≤ X i ∧ X i ≤ U (i + p)) ∧
      (ClampedL p U → X 0 = U p) ∧ (ClampedR n p U → X n = U (n + 1)) := by
  have h1 := hv.one_le
  have h2 := hv.le
  have hp : (0 : K) < p := by exact_mod_cast (by omega : 0 < p)
  have hb : ∀ i, 0 ≤ i → i ≤ n → U (i + 1) ≤ greville (p : ℤ) U i ∧ greville (p : ℤ) U i ≤ U (i + p) := by
    intro i hi1 hi2
    constructor
    · apply le_of_mul_le_mul_right _ hp
      rw [greville_mul U i (by omega)]
      calc U (i + 1) * p = ∑ j ∈ Finset.range p, U (i + 1) := by simp [mul_comm]
        _ ≤ _ := Finset.sum_le_sum (fun j hj => hv.sorted _ _ (by omega) (by omega)
          (by have := Finset.mem_range.mp hj; omega))
    · apply le_of_mul_le_mul_right _ hp
      rw [greville_mul U i (by omega)]
      calc _ ≤ ∑ j ∈ Finset.range p, U (i + p) := Finset.sum_le_sum (fun j hj => hv.sorted _ _ (by omega)
            (by have := Finset.mem_range.mp hj; omega) (by omega))
        _ = U (i + p) * p := by simp [mul_comm]
  refine ⟨fun i => greville p U i, ?_, fun u a b => curve_greville hv a b, ?_, hb, ?_, ?_⟩
  · unfold BSp.Greville
    rw [if_pos ⟨by omega, by omega⟩]
  · intro i j hi hij hj
    apply le_of_mul_le_mul_right _ hp
    rw [greville_mul U i (by omega), greville_mul U j (by omega)]
    exact Finset.sum_le_sum (fun l hl => hv.sorted _ _ (by omega) (by omega)
      (by have := Finset.mem_range.mp hl; omega))
  · intro hc
    obtain ⟨a, b⟩ := hb 0 le_rfl (by omega)
    rw [hc _ (by omega) (by omega)] at a
    rw [zero_add] at b
    exact le_antisymm b a
  · intro hc
    obtain ⟨a, b⟩ := hb n (by omega) le_rfl
    rw [hc _ (by omega) (by omega)] at b
    exact le_antisymm b a

example := C24_Greville Ex.U_valid
example := C24_Greville Ex.W_valid

end

variable {K : Type} [Field K] [LinearOrder K] [IsStrictOrderedRing K] {d : ℕ}

/-- C24: `nrb.greville(axis)` gives one abscissa per control point along the axis, and the spline with
these coefficients is the identity. -/
theorem C24_greville {N : Nrb K d} (hv : N.Valid) {axis : ℤ} {a : Fin d}
    (ha : normAxis d axis = .ok a) :
    ∃ X, N.greville axis = .ok (N.shape a, X) ∧
      ∀ u, N.lo a ≤ u → u ≤ N.hi a → curve (N.n a) (N.degree a).toNat (N.U a) X u = u := by
  obtain ⟨p, hp, hk, e⟩ := deg_nat hv a
  obtain ⟨X, hX, hid, _⟩ := C24_Greville hk
  refine ⟨X, ?_, ?_⟩
  · unfold Nrb.greville
    rw [ha, res_ok_bind, hp, e, hX, res_ok_bind, res_pure]
    congr 2
    unfold Nrb.n; ring
  · intro u h1 h2
    rw [hp, Int.toNat_natCast]
    rw [Nrb.lo_eq, hp] at h1
    rw [Nrb.hi_eq] at h2
    exact hid u h1 h2

/-- the object is the identity map of its domain: coordinate `c` is parameter `c`, the remaining
coordinates are zero, all weights are one, and there are no fields -/
def Nrb.IsIdentity (N : Nrb K d) : Prop :=
  N.nc = 4 ∧ ∀ x, N.InDom x → (∀ c : Fin d, N.eval x c = x c) ∧
    (∀ c : ℕ, d ≤ c → c < 3 → N.eval x c = 0) ∧ N.eval x 3 = 1

theorem seqFin_ok {α : Type} {d : ℕ} {f : Fin d → Res α} {g : Fin d → α} (h : ∀ i, f i = .ok (g i)) :
    seqFin f = .ok g := by
  induction d with
  | zero => unfold seqFin; congr 1; funext i; exact i.elim0
  | succ d ih =>
    unfold seqFin
    rw [h 0, res_ok_bind, ih (g := fun i => g i.succ) (fun i => h i.succ), res_ok_bind, res_pure]
    congr 1
    funext i
    refine Fin.cases ?_ (fun j => ?_) i <;> rfl

/-- the net built by `cad.grid` and by the default constructor makes the identity map -/
theorem identity_of_grevNet {N : Nrb K d} (hd : d ≤ 3) (hv : N.Valid) (hnc : N.nc = 4)
    (hP : ∀ idx c, (∀ a, 0 ≤ idx a ∧ idx a ≤ N.n a) → c < 4 → N.P idx c =
      grevNet (fun a i => greville (N.degree a) (N.U a) i) (List.ofFn idx) c) : N.IsIdentity := by
  have const : ∀ x, N.InDom x → ∀ (c : ℕ) (v : K), c < 4 →
      (∀ idx, (∀ a, 0 ≤ idx a ∧ idx a ≤ N.n a) → N.P idx c = v) → N.eval x c = v := by
    intro x hx c v _ h
    rw [Nrb.eval_apply, Finset.sum_congr rfl (fun idx hi => by
      rw [h idx (fun b => Finset.mem_Icc.mp (Fintype.mem_piFinset.mp hi b))]), ← Finset.sum_mul,
      Nrb.wt_sum hv hx, one_mul]
  refine ⟨hnc, fun x hx => ⟨?_, ?_, ?_⟩⟩
  · intro c
    obtain ⟨p, hp, hk, e⟩ := deg_nat hv c
    rw [eval_axis hv hx (a := c) (c := c) (g := fun i => greville (N.degree c) (N.U c) i)]
    · obtain ⟨h1, h2⟩ := hx c
      rw [Nrb.lo_eq, hp] at h1
      rw [Nrb.hi_eq] at h2
      rw [hp, Int.toNat_natCast]
      exact curve_greville hk h1 h2
    · intro idx h
      rw [hP idx c h (by omega)]
      unfold grevNet
      rw [dif_pos c.2]
      simp
  · intro c h1 h2
    apply const x hx c 0 (by omega)
    intro idx h
    rw [hP idx c h (by omega)]
    unfold grevNet
    rw [dif_neg (by omega), if_neg (by omega)]
  · apply const x hx 3 1 (by omega)
    intro idx h
    rw [hP idx 3 h (by omega)]
    unfold grevNet
    rw [dif_neg (by omega), if_pos rfl]


/-- the constructor on a homogeneous net with four components -/
theorem ctor_homogeneous {knots : Fin d → Nd K} {C : Nd K} {sh : Fin d → ℤ} {len : Fin d → ℤ}
    (h1 : 1 ≤ d) (h3 : d ≤ 3) (hk : ∀ a, (knots a).shape = [len a]) (hlen : ∀ a, 4 ≤ len a)
    (hC : C.shape = List.ofFn sh ++ [4]) (hdeg : ∀ a, 1 ≤ len a - sh a - 1) :
    Nrb.ctor knots (.arr C) none none = .ok
      { shape := sh, nc := 4, len := len, U := fun a j => (knots a).get [j],
        P := fun idx c => C.get (List.ofFn idx ++ [(c : ℤ)]) } := by
  have hl : (fun a => (knots a).shape.headD 0) = len := by funext a; rw [hk a]; rfl
  have hsh : (fun a : Fin d => (List.ofFn sh).getD a 0) = sh := by funext a; simp
  unfold Nrb.ctor
  rw [pyAssert_ok h1, res_ok_bind, pyAssert_ok h3, res_ok_bind, pyAssert_ok (fun a => by
    rw [hk a]; exact ⟨rfl, hlen a⟩), res_ok_bind]
  simp only [Nrb.ctorArgs, res_pure, res_ok_bind, Nrb.ctorNet, Nrb.ctorControl]
  rw [hC, pyAssert_ok (by simp; omega), res_ok_bind]
  simp only [List.getLastD_concat, List.dropLast_concat]
  rw [pyAssert_ok (by norm_num), res_ok_bind, pyAssert_ok (by norm_num), res_ok_bind,
    if_neg (by norm_num), pyAssert_ok (by rfl), res_ok_bind]
  simp only [res_ok_bind, Nrb.ctorFields, res_pure]
  rw [pyAssert_ok (by simp), res_ok_bind, pyAssert_ok, res_ok_bind, hl, hsh]
  intro a
  have e1 : (knots a).shape.headD 0 = len a := congrFun hl a
  have e2 : (List.ofFn sh).getD a 0 = sh a := congrFun hsh a
  rw [e1, e2]
  have := hdeg a
  omega

/-- a scalar for all axes, or one value per axis -/
def BArg.Means {α : Type} (arg : BArg α) (f : Fin d → α) : Prop :=
  (∃ x, arg = .scalar x ∧ f = fun _ => x) ∨ arg = .vec (List.ofFn f)

/-- one interval for all axes, or one per axis -/
def LimArg.Means (arg : LimArg K) (f : Fin d → K × K) : Prop :=
  (∃ x y, arg = .two x y ∧ f = fun _ => (x, y)) ∨ arg = .rows (List.ofFn f)

/-- continuity order per axis: default `p - 1`, negative orders count from `p` -/
def ContMeans (p : Fin d → ℤ) (arg : Option (BArg ℤ)) (C : Fin d → ℤ) : Prop :=
  (arg = none ∧ C = fun a => p a - 1) ∨
  ∃ b c, arg = some b ∧ b.Means c ∧ ∀ a, C a = c a ∨ c a < 0 ∧ C a = p a + c a

theorem BArg.Means.bcast {α : Type} {arg : BArg α} {f : Fin d → α} (h : arg.Means f) :
    arg.bcast d = .ok f := by
  rcases h with ⟨x, rfl, rfl⟩ | rfl
  · rfl
  · unfold BArg.bcast
    dsimp only
    rw [dif_pos (by simp)]
    simp

theorem LimArg.Means.bcast {arg : LimArg K} {f : Fin d → K × K} (h : arg.Means f) :
    arg.bcast d = .ok f := by
  rcases h with ⟨x, y, rfl, rfl⟩ | rfl
  · rfl
  · unfold LimArg.bcast
    dsimp only
    rw [dif_pos (by simp)]
    simp

theorem ContMeans.gridCont {p : Fin d → ℤ} {arg : Option (BArg ℤ)} {C : Fin d → ℤ}
    (h : ContMeans p arg C) (h0 : ∀ a, 0 ≤ C a) (h1 : ∀ a, C a < p a) : gridCont p arg = .ok C := by
  have key : ∀ c : Fin d → ℤ, (∀ a, C a = c a ∨ c a < 0 ∧ C a = p a + c a) →
      (fun a => if c a < 0 then c a + p a else c a) = C := by
    intro c hc
    funext a
    have := h0 a
    rcases hc a with e | ⟨e1, e2⟩
    · rw [if_neg (by omega)]; omega
    · rw [if_pos e1]; omega
  unfold Igakit.gridCont
  rcases h with ⟨rfl, rfl⟩ | ⟨b, c, rfl, hb, hc⟩
  · simp only [res_pure, res_ok_bind]
    have e := key (fun a => p a - 1) (fun a => Or.inl rfl)
    rw [pyAssert_ok (fun a => by rw [congrFun e a]; exact h0 a), res_ok_bind,
      pyAssert_ok (fun a => by rw [congrFun e a]; exact h1 a), res_ok_bind, e]
  · simp only [hb.bcast, res_pure, res_ok_bind]
    have e := key c hc
    rw [pyAssert_ok (fun a => by rw [congrFun e a]; exact h0 a), res_ok_bind,
      pyAssert_ok (fun a => by rw [congrFun e a]; exact h1 a), res_ok_bind, e]

/-- the object made by `cad.grid` with knots `U` -/
def gridObj (len p : Fin d → ℤ) (U : Fin d → ℤ → K) : Nrb K d where
  shape := fun a => len a - 1 - p a
  nc := 4
  len := len
  U := U
  P := fun idx c => grevNet (fun a i => greville (p a) (U a) i) (List.ofFn idx) c

/-- C24 for `cad.grid`: for every number of elements, degree, continuity, limits and wrap per axis, the
grid is the identity map of the box, with uniform knots (C25) of the degree and continuity given. -/
theorem C24_gridD (jk : ℤ → K) (h1 : 1 ≤ d) (h3 : d ≤ 3) {E p C : Fin d → ℤ} {lim : Fin d → K × K}
    {w : Fin d → Bool} {aDeg : BArg ℤ} {aCont : Option (BArg ℤ)} {aLim : LimArg K} {aWrap : BArg Bool}
    (hE : ∀ a, 1 ≤ E a) (hp : aDeg.Means p) (hp1 : ∀ a, 1 ≤ p a) (hC : ContMeans p aCont C)
    (hC0 : ∀ a, 0 ≤ C a) (hCp : ∀ a, C a < p a) (hlim : aLim.Means lim)
    (hlt : ∀ a, (lim a).1 < (lim a).2) (hw : aWrap.Means w) :
    ∃ N : Nrb K d, gridD jk E aDeg aCont aLim aWrap = .ok N ∧ N.Valid ∧ N.degree = p ∧
      (∀ a, N.lo a = (lim a).1 ∧ N.hi a = (lim a).2) ∧ N.IsIdentity ∧
      ∀ a, UniformKnots (N.n a) (p a) (N.U a) (E a) (p a - C a) (lim a).1 (lim a).2 := by
  have hkv : ∀ a, ∃ U, iga_KnotVector jk (E a) (p a) (C a) (lim a).1 (lim a).2 (w a) = .ok U ∧
      UniformKnots (p a + (E a - 1) * (p a - C a)) (p a) U (E a) (p a - C a) (lim a).1 (lim a).2 := by
    intro a
    cases w a with
    | false =>
      obtain ⟨U, e, hu, _⟩ := C25_open jk (hE a) (hp1 a) (hC0 a) (hCp a) (hlt a)
      exact ⟨U, e, hu⟩
    | true =>
      obtain ⟨U, e, hu, _⟩ := C25_wrapped jk (hE a) (hp1 a) (hC0 a) (hCp a) (hlt a)
      exact ⟨U, e, hu⟩
  choose U hU hu using hkv
  have hm : ∀ a, knotVectorM (E a) (p a) (C a) = p a + (E a - 1) * (p a - C a) + p a + 1 := by
    intro a; unfold knotVectorM; ring
  have hn : ∀ a, p a ≤ p a + (E a - 1) * (p a - C a) := fun a => (hu a).valid.le
  have hg : ∀ a, BSp.Greville (p a) (knotVectorM (E a) (p a) (C a)) (U a) =
      .ok (fun i => greville (p a) (U a) i) := by
    intro a
    unfold BSp.Greville
    rw [if_pos ⟨hp1 a, by rw [hm]; have := hn a; omega⟩]
  set len : Fin d → ℤ := fun a => knotVectorM (E a) (p a) (C a) + 1 with hlen
  have hgrid : gridD jk E aDeg aCont aLim aWrap = .ok (gridObj len p U) := by
    unfold gridD
    rw [hp.bcast, res_ok_bind, pyAssert_ok (c := ∀ a, 0 < p a) (fun a => hp1 a), res_ok_bind,
      hC.gridCont hC0 hCp, res_ok_bind,
      hlim.bcast, res_ok_bind, hw.bcast, res_ok_bind]
    rw [seqFin_ok (g := fun a => (U a, fun i => greville (p a) (U a) i)) (fun a => by
      rw [hU a, res_ok_bind, hg a, res_ok_bind, res_pure]), res_ok_bind]
    rw [ctor_homogeneous (sh := fun a => len a - 1 - p a) (len := len) h1 h3 (fun a => rfl) (fun a => by
      have := hn a; have := hp1 a; have := hm a; simp only [hlen]; omega) rfl (fun a => by
      have := hp1 a; omega)]
    simp only [List.headD_cons, List.dropLast_concat, List.getLastD_concat, Int.toNat_natCast]
    rfl
  have hdeg : ∀ a, len a - 1 - (len a - 1 - p a - 1) - 1 = p a := fun a => by ring
  have hnn : ∀ a, len a - 1 - p a - 1 = p a + (E a - 1) * (p a - C a) := fun a => by
    simp only [hlen]; rw [hm]; ring
  refine ⟨_, hgrid, ?_⟩
  set N : Nrb K d := gridObj len p U with hN
  have hND : ∀ a, N.degree a = p a := hdeg
  have hNn : ∀ a, N.n a = p a + (E a - 1) * (p a - C a) := hnn
  have hv : N.Valid := by
    intro a
    rw [hND, hNn]
    exact (hu a).valid
  refine ⟨hv, funext hND, fun a => ⟨?_, ?_⟩, identity_of_grevNet h3 hv rfl ?_, ?_⟩
  · rw [Nrb.lo_eq, hND]; exact (hu a).lo
  · rw [Nrb.hi_eq, hNn]; exact (hu a).hi
  · intro idx c _ _
    simp only [hND]
    rfl
  · intro a
    rw [hNn]; exact hu a

/-- C24: `cad.grid` called with a sequence of element counts -/
theorem C24_grid (jk : ℤ → K) {l : List ℤ} (h1 : 1 ≤ l.length) (h3 : l.length ≤ 3)
    {p C : Fin l.length → ℤ} {lim : Fin l.length → K × K}
    {w : Fin l.length → Bool} {aDeg : BArg ℤ} {aCont : Option (BArg ℤ)} {aLim : LimArg K}
    {aWrap : BArg Bool}
    (hE : ∀ E ∈ l, 1 ≤ E) (hp : aDeg.Means p) (hp1 : ∀ a, 1 ≤ p a) (hC : ContMeans p aCont C)
    (hC0 : ∀ a, 0 ≤ C a) (hCp : ∀ a, C a < p a) (hlim : aLim.Means lim)
    (hlt : ∀ a, (lim a).1 < (lim a).2) (hw : aWrap.Means w) :
    ∃ N : Nrb K l.length, grid jk (.vec l) aDeg aCont aLim aWrap = .ok ⟨l.length, N⟩ ∧ N.Valid ∧
      N.degree = p ∧ (∀ a, N.lo a = (lim a).1 ∧ N.hi a = (lim a).2) ∧ N.IsIdentity ∧
      ∀ a, UniformKnots (N.n a) (p a) (N.U a) l[a] (p a - C a) (lim a).1 (lim a).2 := by
  obtain ⟨N, e, h⟩ := C24_gridD jk (E := fun a => l[a.val]) h1 h3 (fun a => hE _ (List.getElem_mem _)) hp hp1
    hC hC0 hCp hlim hlt hw
  refine ⟨N, ?_, h⟩
  unfold grid
  simp only
  rw [pyAssert_ok ⟨h1, h3⟩, res_ok_bind, e, res_ok_bind, res_pure]

/-- C24: `cad.grid` called with a single number of elements makes a curve -/
theorem C24_grid_scalar (jk : ℤ → K) {E : ℤ} {p C : Fin 1 → ℤ} {lim : Fin 1 → K × K}
    {w : Fin 1 → Bool} {aDeg : BArg ℤ} {aCont : Option (BArg ℤ)} {aLim : LimArg K} {aWrap : BArg Bool}
    (hE : 1 ≤ E) (hp : aDeg.Means p) (hp1 : ∀ a, 1 ≤ p a) (hC : ContMeans p aCont C)
    (hC0 : ∀ a, 0 ≤ C a) (hCp : ∀ a, C a < p a) (hlim : aLim.Means lim)
    (hlt : ∀ a, (lim a).1 < (lim a).2) (hw : aWrap.Means w) :
    ∃ N : Nrb K 1, grid jk (.scalar E) aDeg aCont aLim aWrap = .ok ⟨1, N⟩ ∧ N.Valid ∧
      N.degree = p ∧ (∀ a, N.lo a = (lim a).1 ∧ N.hi a = (lim a).2) ∧ N.IsIdentity ∧
      ∀ a, UniformKnots (N.n a) (p a) (N.U a) E (p a - C a) (lim a).1 (lim a).2 := by
  obtain ⟨N, e, h⟩ := C24_gridD jk (E := fun _ => E) le_rfl (by norm_num) (fun _ => hE) hp hp1
    hC hC0 hCp hlim hlt hw
  refine ⟨N, ?_, h⟩
  unfold grid
  simp only
  rw [e, res_ok_bind, res_pure]

/-- 3 x 2 elements, degree 2, continuity 1 and (by the negative order) 1, one axis wrapped -/
example := C24_grid (K := ℚ) (fun _ => 77) (l := [3, 2]) (by decide) (by decide) (p := fun _ => 2)
  (C := fun _ => 1) (lim := fun _ => (0, 1)) (w := ![true, false]) (aDeg := .scalar 2)
  (aCont := some (.vec [-1, 1])) (aLim := .two 0 1) (aWrap := .vec [true, false]) (by decide)
  (Or.inl ⟨2, rfl, rfl⟩) (by decide)
  (Or.inr ⟨.vec [-1, 1], ![-1, 1], rfl, Or.inr rfl, by decide⟩) (by decide) (by decide)
  (Or.inl ⟨0, 1, rfl, rfl⟩) (fun _ => by norm_num) (Or.inr rfl)

end Igakit
