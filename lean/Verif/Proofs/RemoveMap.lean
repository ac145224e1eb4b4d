import Verif.Proofs.RemoveTop

/-!
# Knot removal and linear maps of the control points; prefix of the removal loop
-/

set_option linter.unusedSectionVars false

namespace Igakit
open Spec

variable {K : Type*} [Field K] [LinearOrder K] [IsStrictOrderedRing K]
variable {E : Type*} [AddCommGroup E] [Module K E] {F : Type*} [AddCommGroup F] [Module K F]

theorem comp_upd (φ : E → F) (A : ℤ → E) (i : ℤ) (x : E) : φ ∘ upd A i x = upd (φ ∘ A) i (φ x) := by
  funext j
  unfold upd
  simp only [Function.comp]
  split_ifs <;> rfl

/-- the image of the loop variables -/
def RemSt.map (φ : E → F) (s : RemSt E) : RemSt F := ⟨φ ∘ s.temp, s.i, s.ii, s.j, s.jj⟩

theorem remBody_map (φ : E →ₗ[K] F) (U : ℤ → K) (uu : K) (p t : ℤ) (Pw : ℤ → E) (s : RemSt E) :
    remBody U uu p t (φ ∘ Pw) (s.map φ) = (remBody U uu p t Pw s).map φ := by
  unfold remBody RemSt.map
  dsimp only
  rw [comp_upd, comp_upd, map_smul, map_sub, map_smul, map_smul, map_sub, map_smul]
  congr 1
  congr 2
  · rw [← Function.comp_apply (f := φ) (g := upd _ _ _), comp_upd, map_smul, map_sub, map_smul]
    rfl

theorem remSolve_map (φ : E →ₗ[K] F) (U : ℤ → K) (uu : K) (p t : ℤ) (Pw : ℤ → E) :
    ∀ (fuel : ℕ) (s : RemSt E), remSolve U uu p t (φ ∘ Pw) fuel (s.map φ) = (remSolve U uu p t Pw fuel s).map φ := by
  intro fuel
  induction fuel with
  | zero => intro s; rfl
  | succ k ih =>
    intro s
    unfold remSolve
    rw [remBody_map, ih]
    show (if s.j - s.i > t then _ else _) = _
    split_ifs <;> rfl

theorem remSolved_map (φ : E →ₗ[K] F) (U : ℤ → K) (uu : K) (p t first last : ℤ) (Pw temp : ℤ → E) :
    remSolved U uu p t first last (φ ∘ Pw) (φ ∘ temp) = (remSolved U uu p t first last Pw temp).map φ := by
  unfold remSolved
  dsimp only
  rw [← remSolve_map]
  unfold RemSt.map
  rw [comp_upd, comp_upd]
  rfl

theorem remFlag_map (φ : E →ₗ[K] F) (U : ℤ → K) (uu : K) (p t : ℤ) {near : E → E → Prop} {near' : F → F → Prop}
    (hn : ∀ x y, near x y ↔ near' (φ x) (φ y)) (Pw : ℤ → E) (s : RemSt E) :
    remFlag U uu p t near' (φ ∘ Pw) (s.map φ) ↔ remFlag U uu p t near Pw s := by
  unfold remFlag RemSt.map
  dsimp only
  split_ifs
  · rw [hn]; rfl
  · rw [hn, map_add, map_smul, map_smul]; rfl

theorem remStore_map (φ : E → F) (t off : ℤ) (temp : ℤ → E) : ∀ (fuel : ℕ) (i j : ℤ) (Pw : ℤ → E),
    remStore t off (φ ∘ temp) fuel i j (φ ∘ Pw) = φ ∘ remStore t off temp fuel i j Pw := by
  intro fuel
  induction fuel with
  | zero => intros; rfl
  | succ k ih =>
    intro i j Pw
    unfold remStore
    split_ifs
    · rw [← ih, comp_upd, comp_upd]; rfl
    · rfl

theorem remLoop_map (φ : E →ₗ[K] F) (U : ℤ → K) (uu : K) (p : ℤ) {near : E → E → Prop} {near' : F → F → Prop}
    (hn : ∀ x y, near x y ↔ near' (φ x) (φ y)) : ∀ (k : ℕ) (t first last : ℤ) (Pw temp : ℤ → E),
    remLoop U uu p near' k t first last (φ ∘ Pw) (φ ∘ temp) =
      ((remLoop U uu p near k t first last Pw temp).1, φ ∘ (remLoop U uu p near k t first last Pw temp).2) := by
  intro k
  induction k with
  | zero => intros; rfl
  | succ k ih =>
    intro t first last Pw temp
    unfold remLoop
    dsimp only
    rw [remSolved_map]
    by_cases h : remFlag U uu p t near Pw (remSolved U uu p t first last Pw temp)
    · rw [if_pos h, if_pos ((remFlag_map φ U uu p t hn Pw _).2 h), ← ih, ← remStore_map]
      rfl
    · rw [if_neg h, if_neg (fun h' => h ((remFlag_map φ U uu p t hn Pw _).1 h'))]

/-- running more rounds: the first rounds are the same -/
theorem remLoop_add (U : ℤ → K) (uu : K) (p : ℤ) (near : E → E → Prop) (l : ℕ) : ∀ (k : ℕ) (t first last : ℤ) (Pw temp : ℤ → E),
    (remLoop U uu p near k t first last Pw temp).1 = t + k →
    t + k ≤ (remLoop U uu p near (k + l) t first last Pw temp).1 := by
  have hge : ∀ (k : ℕ) (t first last : ℤ) (Pw temp : ℤ → E), t ≤ (remLoop U uu p near k t first last Pw temp).1 := by
    intro k
    induction k with
    | zero => intros; exact le_rfl
    | succ k ih =>
      intro t first last Pw temp
      unfold remLoop
      dsimp only
      split_ifs
      · exact le_trans (by omega) (ih _ _ _ _ _)
      · exact le_rfl
  intro k
  induction k with
  | zero =>
    intro t first last Pw temp _
    rw [Nat.cast_zero, add_zero]
    exact hge _ _ _ _ _ _
  | succ k ih =>
    intro t first last Pw temp h
    rw [show k + 1 + l = k + l + 1 by omega]
    unfold remLoop at h ⊢
    dsimp only at h ⊢
    split_ifs at h ⊢ with hf
    · have := ih (t + 1) (first - 1) (last + 1) _ _ (by rw [h]; push_cast; ring)
      push_cast
      rw [show t + ((k : ℤ) + 1) = t + 1 + k by ring]
      exact this
    · dsimp only at h
      push_cast at h
      omega

variable {n : ℤ} {p : ℕ} {U : ℤ → K} {uu : K}

/-- removal from data that agree, after a linear map, with data obtained by `R` insertions -/
theorem removeKnot_complete (φ : E →ₗ[K] F) (jk : ℤ → K) (je jt : ℤ → E) {near : E → E → Prop} {near' : F → F → Prop}
    (hn : ∀ x y, near x y ↔ near' (φ x) (φ y)) (hnear : ∀ x, near' x x)
    (hv : ValidKnots n p U) (P : ℤ → E) (h1 : U p < uu) (h2 : uu < U (n + 1)) {R : ℕ} (hR : 1 ≤ R)
    (hm : R + mult U 0 (n + p + 1) uu ≤ p) {V : ℤ → K} {Q : ℤ → E}
    (hV : ∀ i, 0 ≤ i → i ≤ n + R + p + 1 → V i = insertKnotV jk n p U uu (findSpan n p uu U) R i)
    (hQ : ∀ i, 0 ≤ i → i ≤ n + R → φ (Q i) = φ (insertKnotQ je n p U P uu (findSpan n p uu U) (mult U 0 (n + p + 1) uu) R i)) :
    RemCtx (n + R) p V uu (findSpan n p uu U + R) (mult U 0 (n + p + 1) uu + R) ∧
    (∃ V' Q', removeKnot jt near (n + R) p V Q uu (findSpan n p uu U + R) (mult U 0 (n + p + 1) uu + R) R = ((R : ℤ), V', Q') ∧
      (∀ i, 0 ≤ i → i ≤ n + p + 1 → V' i = U i) ∧ ∀ i, 0 ≤ i → i ≤ n → φ (Q' i) = φ (P i)) ∧
    ∀ l : ℕ, (R : ℤ) ≤ (removeKnot jt near (n + R) p V Q uu (findSpan n p uu U + R) (mult U 0 (n + p + 1) uu + R) ((R + l : ℕ) : ℤ)).1 := by
  have hc := RemCtx.of_insert jk hv h1 h2 hR hm
  have hch := fun t ht y a b => insert_chain jk je hv P h1 h2 hm (t := t) ht (y := y) a b
  have hp := hv.one_le
  have hpn := hv.le
  obtain ⟨b1, b2, b3, b4⟩ := findSpan_mid (by omega) hv.le h1 h2
  have hb := block_left hv.sorted b3 b4 (by omega) (by omega)
  generalize findSpan n p uu U = k at *
  generalize mult U 0 (n + p + 1) uu = m at *
  have hrp := hc.rp
  have hc' : RemCtx (n + R) p V uu (k + R) (m + R) := by
    refine ⟨⟨hp, hc.valid.le, fun i j a b c => ?_, ?_, ?_⟩, hc.rp, hc.rn, hc.s1, hc.sp, fun j a b => ?_, fun j a b => ?_, fun j a b => ?_⟩
    · rw [hV i a (by omega), hV j (by omega) (by omega)]
      exact hc.valid.sorted i j a b c
    · rw [hV _ (by omega) (by omega), hV _ (by omega) (by omega)]
      exact hc.valid.first
    · rw [hV _ (by omega) (by omega), hV _ (by omega) (by omega)]
      exact hc.valid.last
    · rw [hV j a (by omega)]; exact hc.left j a b
    · rw [hV j (by omega) (by omega)]; exact hc.blk j a b
    · rw [hV j (by omega) (by omega)]; exact hc.right j a b
  obtain ⟨Pw', g1, g2, g3⟩ := remLoop_exact hc' hnear
    (fun t => φ ∘ insertKnotQ je n p U P uu k m ((R - t : ℕ) : ℤ)) (num := R) (by omega)
    (fun t ht y a b => by
      have := congrArg φ (hch t ht y a b)
      rw [Function.comp_apply, this]
      unfold remIns remAlfi
      by_cases c1 : y < k + R - p - t
      · rw [if_pos c1, if_pos c1]; rfl
      · rw [if_neg c1, if_neg c1]
        by_cases c2 : y ≤ k + R - (m + R)
        · rw [if_pos c2, if_pos c2, map_add, map_smul, map_smul, hV y a (by omega), hV _ (by omega) (by omega)]
          rfl
        · rw [if_neg c2, if_neg c2]; rfl) R 0 (φ ∘ Q) (φ ∘ jt) (by omega) (by
      unfold RemView remA remB
      constructor
      · intro i i1 i2
        have := hQ i i1 (by omega)
        simpa using this
      · intro i i1 i2
        have := hQ i (by omega) (by omega)
        simpa using this)
  have e0 : ∀ i, 0 ≤ i → i ≤ n → insertKnotQ je n p U P uu k m ((R - R : ℕ) : ℤ) i = P i := by
    intro i a b
    rw [Nat.sub_self, Nat.cast_zero]
    obtain ⟨c1, c2, c3, c4, c5⟩ := insertKnotQ_closed je n p U P uu k m 0 (by omega) le_rfl (by omega) b1 b2
    rcases (by omega : i ≤ k - p ∨ (k - p < i ∧ i < k - m) ∨ k - m ≤ i) with c | c | c
    · exact c1 i a c
    · rw [c3 i (by omega) c.2]
      rw [Int.toNat_zero, rt]; congr 1; ring
    · have := c5 i c b
      rwa [add_zero] at this
  rw [Nat.cast_zero, sub_zero, add_zero, remLoop_map φ V uu p hn] at g1
  have g1a := congrArg Prod.fst g1
  have g1b := congrArg Prod.snd g1
  dsimp only at g1a g1b
  refine ⟨hc', ?_, ?_⟩
  · unfold removeKnot
    dsimp only
    rw [Int.toNat_natCast, g1a, if_neg (by omega)]
    generalize (remLoop V uu p near R 0 (k + R - p) (k + R - (m + R)) Q jt).2 = Pw at *
    have hview : ∀ i, φ (Pw i) = Pw' i := fun i => congrFun g1b i
    refine ⟨_, _, rfl, ?_, ?_⟩
    · intro i a b
      rw [remKnots_eq _ _ _ _ (by omega) (by omega) _ (by omega), remKv]
      split_ifs with c
      · rw [hV i a (by omega)]
        exact insertKnotV_lo _ _ _ _ _ _ _ (by omega) _ a (by omega)
      · rw [hV _ (by omega) (by omega), insertKnotV_hi _ _ _ _ _ _ _ _ (by omega) (by omega)]; congr 1; ring
    · intro i a b
      rcases remShift_final (n := n + R) p (k + R) (m + R) R Pw hrp (by omega) (by omega) (by omega) (by omega)
        with c | c
      · rw [c i a (by omega), ← e0 i a b]
        split_ifs with d
        · rw [hview]; exact g2 i a d
        · rw [hview]; exact g3 i (by unfold remA at d; unfold remB; omega) (by omega)
      · rw [c i a (by omega), ← e0 i a b]
        split_ifs with d
        · rw [hview]; exact g2 i a (by unfold remB at d; unfold remA; omega)
        · rw [hview]; exact g3 i (by omega) (by omega)
  · intro l
    have := remLoop_add V uu p near l R 0 (k + R - p) (k + R - (m + R)) Q jt (by rw [g1a]; simp)
    rw [zero_add] at this
    unfold removeKnot
    dsimp only
    rw [Int.toNat_natCast]
    split_ifs with c
    · dsimp only; omega
    · exact this

end Igakit
