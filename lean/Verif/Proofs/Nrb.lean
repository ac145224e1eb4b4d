import Verif.Spec.Nrb
import Verif.Proofs.Tensor

/-! # Lifting curve theorems to NURBS objects -/

set_option linter.unusedSectionVars false

namespace Igakit
open Spec

variable {K : Type} [Field K] [LinearOrder K] {d : ℕ}

theorem pyAssert_ok {c : Prop} [Decidable c] (h : c) : pyAssert c = .ok () := if_pos h
theorem pyAssert_err {c : Prop} [Decidable c] (h : ¬ c) : pyAssert c = .error .assertion := if_neg h

@[simp] theorem res_ok_bind {α β : Type} (x : α) (f : α → Res β) :
    ((Except.ok x : Res α) >>= f) = f x := rfl
@[simp] theorem res_err_bind {α β : Type} (e : Err) (f : α → Res β) :
    ((Except.error e : Res α) >>= f) = .error e := rfl
@[simp] theorem res_pure {α : Type} (x : α) : (pure x : Res α) = .ok x := rfl
@[simp] theorem res_throw {α : Type} (e : Err) : (throw e : Res α) = .error e := rfl

theorem normAxis_self (a : Fin d) : normAxis d (a : ℤ) = .ok a := by
  unfold normAxis
  rw [dif_pos ⟨by omega, by exact_mod_cast a.isLt⟩]
  simp

theorem normAxis_neg {axis : ℤ} (h1 : axis < 0) (h2 : 0 ≤ axis + d) :
    normAxis d axis = normAxis d (axis + d) := by
  unfold normAxis
  rw [dif_neg (by omega), dif_pos ⟨h1, h2⟩, dif_pos ⟨h2, by omega⟩]

theorem normAxis_ok_iff {axis : ℤ} : (∃ a, normAxis d axis = .ok a) ↔ -(d : ℤ) ≤ axis ∧ axis < d := by
  unfold normAxis
  split_ifs with h1 h2
  · simp; omega
  · simp; omega
  · simp; omega

namespace Nrb

theorem hi_eq (N : Nrb K d) (a : Fin d) : N.hi a = N.U a (N.n a + 1) := by
  unfold hi; congr 1; unfold degree n; ring

theorem lo_eq (N : Nrb K d) (a : Fin d) : N.lo a = N.U a (N.degree a) := rfl

theorem len_eq (N : Nrb K d) (a : Fin d) : N.len a = N.n a + N.degree a + 2 := by
  unfold degree n; ring

theorem Valid.degNat {N : Nrb K d} (h : N.Valid) (a : Fin d) :
    ((N.degree a).toNat : ℤ) = N.degree a := by have := (h a).one_le; omega

theorem eval_split (N : Nrb K (d + 1)) (a : Fin (d + 1)) (x : Fin (d + 1) → K) :
    N.eval x = tensor (a.removeNth N.n) (a.removeNth (fun b => (N.degree b).toNat)) (a.removeNth N.U)
      (curve (N.n a) (N.degree a).toNat (N.U a) (N.row a) (x a)) (a.removeNth x) :=
  tensor_split a _ _ _ _ _

section setAxis
variable (N : Nrb K (d + 1)) (a : Fin (d + 1)) (s l : ℤ) (V : ℤ → K) (Q : ℤ → (Fin d → ℤ) → ℕ → K)

theorem setAxis_nc : (N.setAxis a s l V Q).nc = N.nc := rfl
@[simp] theorem setAxis_shape : (N.setAxis a s l V Q).shape = Function.update N.shape a s := rfl
@[simp] theorem setAxis_len : (N.setAxis a s l V Q).len = Function.update N.len a l := rfl
@[simp] theorem setAxis_n_self : (N.setAxis a s l V Q).n a = s - 1 := by simp [n]
theorem setAxis_n_ne {b} (h : b ≠ a) : (N.setAxis a s l V Q).n b = N.n b := by simp [n, h]
@[simp] theorem setAxis_U_self : (N.setAxis a s l V Q).U a = V := by simp [setAxis]
theorem setAxis_U_ne {b} (h : b ≠ a) : (N.setAxis a s l V Q).U b = N.U b := by simp [setAxis, h]
@[simp] theorem setAxis_degree_self : (N.setAxis a s l V Q).degree a = l - s - 1 := by
  simp [degree]
theorem setAxis_degree_ne {b} (h : b ≠ a) : (N.setAxis a s l V Q).degree b = N.degree b := by
  simp [degree, h]
theorem setAxis_lo_ne {b} (h : b ≠ a) : (N.setAxis a s l V Q).lo b = N.lo b := by
  rw [lo_eq, setAxis_degree_ne _ _ _ _ _ _ h, setAxis_U_ne _ _ _ _ _ _ h]; rfl
theorem setAxis_hi_ne {b} (h : b ≠ a) : (N.setAxis a s l V Q).hi b = N.hi b := by
  rw [hi_eq, hi_eq, setAxis_n_ne _ _ _ _ _ _ h, setAxis_U_ne _ _ _ _ _ _ h]
@[simp] theorem setAxis_row : (N.setAxis a s l V Q).row a = Q := by
  funext i o; simp [row, setAxis, Fin.removeNth_insertNth]

theorem setAxis_eval (x : Fin (d + 1) → K) :
    (N.setAxis a s l V Q).eval x = tensor (a.removeNth N.n)
      (a.removeNth (fun b => (N.degree b).toNat)) (a.removeNth N.U)
      (curve (s - 1) (l - s - 1).toNat V Q (x a)) (a.removeNth x) := by
  rw [eval_split _ a]
  have h1 : a.removeNth (N.setAxis a s l V Q).n = a.removeNth N.n := by
    funext b; exact setAxis_n_ne _ _ _ _ _ _ (Fin.succAbove_ne a b)
  have h2 : (a.removeNth fun b => ((N.setAxis a s l V Q).degree b).toNat) =
      a.removeNth (fun b => (N.degree b).toNat) := by
    funext b
    simp only [Fin.removeNth]
    rw [setAxis_degree_ne _ _ _ _ _ _ (Fin.succAbove_ne a b)]
  have h3 : a.removeNth (N.setAxis a s l V Q).U = a.removeNth N.U := by
    funext b; exact setAxis_U_ne _ _ _ _ _ _ (Fin.succAbove_ne a b)
  rw [h1, h2, h3, setAxis_row, setAxis_n_self, setAxis_degree_self, setAxis_U_self]

/-- an equality of curves along one axis is an equality of maps -/
theorem setAxis_eval_eq {x y : Fin (d + 1) → K} (hxy : ∀ b, b ≠ a → y b = x b)
    (h : curve (s - 1) (l - s - 1).toNat V Q (y a) =
      curve (N.n a) (N.degree a).toNat (N.U a) (N.row a) (x a)) :
    (N.setAxis a s l V Q).eval y = N.eval x := by
  rw [setAxis_eval, N.eval_split a, h]
  congr 1
  funext b
  exact hxy _ (Fin.succAbove_ne a b)

theorem setAxis_valid (hN : ∀ b, b ≠ a → ValidKnots (N.n b) (N.degree b) (N.U b))
    (h : ValidKnots (s - 1) (l - s - 1) V) :
    (N.setAxis a s l V Q).Valid := by
  intro b
  by_cases hb : b = a
  · subst hb; rw [setAxis_n_self, setAxis_degree_self, setAxis_U_self]; exact h
  · rw [setAxis_n_ne _ _ _ _ _ _ hb, setAxis_degree_ne _ _ _ _ _ _ hb, setAxis_U_ne _ _ _ _ _ _ hb]
    exact hN b hb

theorem setAxis_sameMap (hd : l - s - 1 = N.degree a)
    (hlo : V (N.degree a) = N.lo a) (hhi : V s = N.hi a)
    (h : ∀ u, N.lo a ≤ u → u ≤ N.hi a → curve (s - 1) (N.degree a).toNat V Q u =
      curve (N.n a) (N.degree a).toNat (N.U a) (N.row a) u) :
    SameMap N (N.setAxis a s l V Q) := by
  refine ⟨rfl, ?_, ?_, ?_, ?_⟩
  · intro b
    by_cases hb : b = a
    · subst hb; rw [setAxis_degree_self, hd]
    · exact setAxis_degree_ne _ _ _ _ _ _ hb
  · intro b
    by_cases hb : b = a
    · subst hb; rw [lo_eq, setAxis_degree_self, hd, setAxis_U_self, hlo]
    · exact setAxis_lo_ne _ _ _ _ _ _ hb
  · intro b
    by_cases hb : b = a
    · subst hb; rw [hi_eq, setAxis_n_self, setAxis_U_self, ← hhi]; congr 1; ring
    · exact setAxis_hi_ne _ _ _ _ _ _ hb
  · intro x hx
    apply setAxis_eval_eq _ _ _ _ _ _ (fun _ _ => rfl)
    rw [hd]
    exact h _ (hx a).1 (hx a).2

end setAxis

theorem SameMap.refl (N : Nrb K d) : SameMap N N := ⟨rfl, fun _ => rfl, fun _ => rfl, fun _ => rfl, fun _ _ => rfl⟩

theorem SameMap.trans {N N' N'' : Nrb K d} (h : SameMap N N') (h' : SameMap N' N'') : SameMap N N'' := by
  refine ⟨h'.nc.trans h.nc, fun a => (h'.degree a).trans (h.degree a), fun a => (h'.lo a).trans (h.lo a),
    fun a => (h'.hi a).trans (h.hi a), fun x hx => ?_⟩
  rw [h'.eval x (fun a => by rw [h.lo, h.hi]; exact hx a), h.eval x hx]

end Nrb

theorem deg_nat {N : Nrb K d} (hv : N.Valid) (a : Fin d) :
    ∃ p : ℕ, N.degree a = p ∧ ValidKnots (N.n a) (p : ℤ) (N.U a) ∧ N.len a - 1 = N.n a + p + 1 := by
  have h := hv.degNat a
  refine ⟨(N.degree a).toNat, h.symm, by rw [h]; exact hv a, by rw [h, N.len_eq]; ring⟩

end Igakit
