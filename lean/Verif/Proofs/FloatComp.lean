import Verif.Props.Float

/-!
# Components of an evaluation do not influence each other
-/

set_option linter.unusedSectionVars false

namespace Igakit
open Spec

theorem forUp_hom {σ τ : Type} (h : σ → τ) {f : ℤ → σ → σ} {g : ℤ → τ → τ} (hfg : ∀ i s, h (f i s) = g i (h s)) (lo hi : ℤ) (s : σ) :
    h (forUp lo hi f s) = forUp lo hi g (h s) := by
  unfold forUp
  have key : ∀ n : ℕ, ∀ lo s, h (iterUp f n lo s) = iterUp g n lo (h s) := by
    intro n
    induction n with
    | zero => intro lo s; rfl
    | succ n ih =>
      intro lo s
      show h (iterUp f n (lo + 1) (f lo s)) = iterUp g n (lo + 1) (g lo (h s))
      rw [ih, hfg]
  exact key _ _ _

theorem upd_hom {α β : Type} (h : α → β) (A : ℤ → α) (i : ℤ) (v : α) : (fun j => h (upd A i v j)) = upd (fun j => h (A j)) i (h v) := by
  funext j
  unfold upd
  split_ifs <;> rfl

theorem upd2_hom {α β : Type} (h : α → β) (A : ℤ → ℤ → α) (i j : ℤ) (v : α) :
    (fun k l => h (BSp.upd2 A i j v k l)) = BSp.upd2 (fun k l => h (A k l)) i j (h v) := by
  funext k l
  unfold BSp.upd2 upd
  by_cases h1 : k = i <;> by_cases h2 : l = j <;> simp [h1, h2]

theorem upd3_hom {α β : Type} (h : α → β) (A : ℤ → ℤ → ℤ → α) (i j k : ℤ) (v : α) :
    (fun a b c => h (BSp.upd3 A i j k v a b c)) = BSp.upd3 (fun a b c => h (A a b c)) i j k (h v) := by
  funext a b c
  unfold BSp.upd3 BSp.upd2 upd
  by_cases h1 : a = i <;> by_cases h2 : b = j <;> by_cases h3 : c = k <;> simp [h1, h2, h3]

variable {K : Type} [Field K] [LinearOrder K] [IsStrictOrderedRing K] {d : ℕ}

namespace Fp

variable (rd : K → K) (s : ℕ → ℕ)

theorem evaluate1_comp (jk : ℤ → Fp K) (je : ℤ → ℕ → Fp K) (n p : ℤ) (U : ℤ → K) (P : ℤ → ℕ → K) (r : ℤ) (X : ℤ → K) :
    (fun i c => evaluate1 rd jk je n p U P r X i (s c)) = evaluate1 rd jk (fun i c => je i (s c)) n p U (fun i c => P i (s c)) r X := by
  unfold evaluate1
  refine forUp_hom (fun (Cw : ℤ → ℕ → Fp K) i c => Cw i (s c)) (fun i Cw => ?_) _ _ _
  dsimp only
  rw [upd_hom (fun (C : ℕ → Fp K) c => C (s c))]
  congr 1
  exact forUp_hom (fun (C : ℕ → Fp K) c => C (s c)) (fun j C => rfl) _ _ _

theorem evaluate2_comp (jk : ℤ → Fp K) (je : ℤ → ℤ → ℕ → Fp K) (nx px : ℤ) (Ux : ℤ → K) (ny py : ℤ) (Uy : ℤ → K)
    (P : ℤ → ℤ → ℕ → K) (rx : ℤ) (X : ℤ → K) (ry : ℤ) (Y : ℤ → K) :
    (fun i j c => evaluate2 rd jk je nx px Ux ny py Uy P rx X ry Y i j (s c)) =
      evaluate2 rd jk (fun i j c => je i j (s c)) nx px Ux ny py Uy (fun i j c => P i j (s c)) rx X ry Y := by
  unfold evaluate2
  refine forUp_hom (fun (Cw : ℤ → ℤ → ℕ → Fp K) i j c => Cw i j (s c)) (fun i Cw => ?_) _ _ _
  refine forUp_hom (fun (Cw : ℤ → ℤ → ℕ → Fp K) i j c => Cw i j (s c)) (fun j Cw => ?_) _ _ _
  dsimp only
  rw [upd2_hom (fun (C : ℕ → Fp K) c => C (s c))]
  congr 1
  refine forUp_hom (fun (C : ℕ → Fp K) c => C (s c)) (fun jx C => ?_) _ _ _
  exact forUp_hom (fun (C : ℕ → Fp K) c => C (s c)) (fun jy C => rfl) _ _ _

theorem evaluate3_comp (jk : ℤ → Fp K) (je : ℤ → ℤ → ℤ → ℕ → Fp K) (nx px : ℤ) (Ux : ℤ → K) (ny py : ℤ) (Uy : ℤ → K)
    (nz pz : ℤ) (Uz : ℤ → K) (P : ℤ → ℤ → ℤ → ℕ → K) (rx : ℤ) (X : ℤ → K) (ry : ℤ) (Y : ℤ → K) (rz : ℤ) (Z : ℤ → K) :
    (fun i j k c => evaluate3 rd jk je nx px Ux ny py Uy nz pz Uz P rx X ry Y rz Z i j k (s c)) =
      evaluate3 rd jk (fun i j k c => je i j k (s c)) nx px Ux ny py Uy nz pz Uz (fun i j k c => P i j k (s c)) rx X ry Y rz Z := by
  unfold evaluate3
  refine forUp_hom (fun (Cw : ℤ → ℤ → ℤ → ℕ → Fp K) i j k c => Cw i j k (s c)) (fun i Cw => ?_) _ _ _
  refine forUp_hom (fun (Cw : ℤ → ℤ → ℤ → ℕ → Fp K) i j k c => Cw i j k (s c)) (fun j Cw => ?_) _ _ _
  refine forUp_hom (fun (Cw : ℤ → ℤ → ℤ → ℕ → Fp K) i j k c => Cw i j k (s c)) (fun k Cw => ?_) _ _ _
  dsimp only
  rw [upd3_hom (fun (C : ℕ → Fp K) c => C (s c))]
  congr 1
  refine forUp_hom (fun (C : ℕ → Fp K) c => C (s c)) (fun jx C => ?_) _ _ _
  refine forUp_hom (fun (C : ℕ → Fp K) c => C (s c)) (fun jy C => ?_) _ _ _
  exact forUp_hom (fun (C : ℕ → Fp K) c => C (s c)) (fun jz C => rfl) _ _ _

end Fp

/-- other components in the same net -/
def Nrb.pick (s : ℕ → ℕ) (N : Nrb K d) : Nrb K d := { N with P := fun idx c => N.P idx (s c) }

theorem Nrb.evaluateF_pick (rd : K → K) (s : ℕ → ℕ) (jk : ℤ → Fp K) (je : ℤ → ℕ → Fp K) {N : Nrb K d} {r : Fin d → ℤ}
    {X : Fin d → ℤ → K} {C : (Fin d → ℤ) → ℕ → Fp K} (h : Nrb.evaluateF rd jk je N r X = .ok C) :
    Nrb.evaluateF rd jk (fun i c => je i (s c)) (N.pick s) r X = .ok (fun i c => C i (s c)) := by
  match d, N, r, X, C, h with
  | 0, N, r, X, C, h => injection h with h; subst h; rfl
  | 1, N, r, X, C, h =>
    injection h with h
    subst h
    exact congrArg Except.ok (funext fun i => (congrFun (Fp.evaluate1_comp rd s jk je (N.n 0) (N.degree 0) (N.U 0)
      (fun j => N.P ![j]) (r 0) (X 0)) (i 0)).symm)
  | 2, N, r, X, C, h =>
    injection h with h
    subst h
    exact congrArg Except.ok (funext fun i => (congrFun (congrFun (Fp.evaluate2_comp rd s jk (fun _ => je) (N.n 0) (N.degree 0) (N.U 0)
      (N.n 1) (N.degree 1) (N.U 1) (fun j k => N.P ![j, k]) (r 0) (X 0) (r 1) (X 1)) (i 0)) (i 1)).symm)
  | 3, N, r, X, C, h =>
    injection h with h
    subst h
    exact congrArg Except.ok (funext fun i => (congrFun (congrFun (congrFun (Fp.evaluate3_comp rd s jk (fun _ _ => je) (N.n 0)
      (N.degree 0) (N.U 0) (N.n 1) (N.degree 1) (N.U 1) (N.n 2) (N.degree 2) (N.U 2) (fun j k l => N.P ![j, k, l]) (r 0) (X 0) (r 1)
      (X 1) (r 2) (X 2)) (i 0)) (i 1)) (i 2)).symm)
  | _ + 4, _, _, _, _, h => exact absurd h (by simp [Nrb.evaluateF])

theorem Nrb.eval_pick (s : ℕ → ℕ) (N : Nrb K d) (x : Fin d → K) (c : ℕ) : (N.pick s).eval x c = N.eval x (s c) := by
  rw [Nrb.eval_apply, Nrb.eval_apply]
  rfl

/-- a component which is nowhere negative is computed with a small relative error -/
theorem Nrb.evaluateF_rel {δ : K} {rd : K → K} (h0 : 0 ≤ δ) (h1 : δ < 1) (hr : RelErr δ rd) (jk : ℤ → Fp K) (je : ℤ → ℕ → Fp K)
    {N : Nrb K d} (hd : d ≤ 3) (hv : N.Valid) {r : Fin d → ℤ} {X : Fin d → ℤ → K} {C : (Fin d → ℤ) → ℕ → Fp K}
    (h : Nrb.evaluateF rd jk je N r X = .ok C) {c : ℕ} (hP : ∀ idx, (∀ a, 0 ≤ idx a ∧ idx a ≤ N.n a) → 0 ≤ N.P idx c)
    {i : Fin d → ℤ} (hi : ∀ a, 0 ≤ i a ∧ i a ≤ r a) (hx : N.InDom (fun a => X a (i a))) :
    Fp.Close (growth δ) (6 * (∑ a, (N.degree a).toNat) + d + ∏ a, ((N.degree a).toNat + 1)) (C i c) (N.eval (fun a => X a (i a)) c) := by
  have hp := Nrb.evaluateF_pick rd (fun _ => c) jk je h
  obtain ⟨CF, e1, e2⟩ := Nrb.evaluateF_close h0 h1 hr jk (fun i _ => je i c) (N := N.pick (fun _ => c)) hd hv (B := 1) (c := 3)
    (fun idx hb => by
      have := hP idx hb
      exact ⟨this, by rw [one_mul]; exact (abs_of_nonneg this).le⟩) r X
  rw [hp] at e1
  injection e1 with e1
  subst e1
  have := (e2 i hi hx).wt
  rw [Nrb.eval_pick] at this
  exact this

end Igakit
