import Verif.Proofs.DerivGrid
import Verif.Props.Bounds
import Verif.Props.Derivs4
import Verif.Props.Mapped

set_option linter.unusedSectionVars false

/-!
# C78: the derivative routines compute in their arrays what they should, and stay inside

The loops of `Gradient1..3`, `Hessian1..3`, `ThirdDer1..3`, `FourthDer1..3` with their work arrays give the same exception as
the model without storage, or store the value of every derivative, at every grid point and for every component, in its
place; no access leaves an array, whatever the memory held before.
-/

namespace Igakit
open Spec

variable {K : Type} [Field K] [LinearOrder K] [IsStrictOrderedRing K] {d : ℕ}

/-- the array `G` holds the values `f` for `nf` components: `G(i1,..,ik,c)` at the grid point `g` is the value `f g [i1,..,ik] c` -/
def Spec.Stored (d order : ℕ) (nf : ℤ) (r : Fin d → ℤ) (G : Grid d (Flat K)) (f : (Fin d → ℤ) → List (Fin d) → ℕ → K) : Prop :=
  G.hi = r ∧ ∀ g, (∀ a, 0 ≤ g a ∧ g a ≤ r a) → (G.val g).size = (d : ℤ) ^ order * nf ∧
    ∀ (i : Fin order → Fin d) (c : ℕ), (c : ℤ) < nf →
      (G.val g).get ((∑ k, ((i k : ℕ) : ℤ) * (d : ℤ) ^ (k : ℕ)) + (d : ℤ) ^ order * c) = .ok (f g (List.ofFn i) c)

theorem except_ok_bind {ε α β : Type} (x : α) (f : α → Except ε β) : (Except.ok x >>= f) = f x := rfl

theorem tpCode_ofFn : ∀ {m : ℕ} (i : Fin m → Fin d), (tpCode (List.ofFn i) : ℤ) = ∑ k, ((i k : ℕ) : ℤ) * (d : ℤ) ^ (k : ℕ) := by
  intro m
  induction m with
  | zero => intro i; simp [tpCode]
  | succ m ih =>
    intro i
    rw [List.ofFn_succ, Fin.sum_univ_succ]
    simp only [tpCode]
    push_cast
    rw [ih]
    simp only [Fin.val_zero, pow_zero, mul_one, Fin.val_succ, pow_succ, Finset.mul_sum]
    congr 1
    exact Finset.sum_congr rfl fun k _ => by ring

/-- derivatives of order 1 to 4 of objects with at least as many control points along each axis as the degree requires -/
theorem C78_derivCore (J : Junk K) (c : DerivWork K) (G : (Fin d → ℤ) → Flat K) (N : Nrb K d) (hN : ∀ a, N.degree a ≤ N.n a)
    {order : ℕ} (h1 : 1 ≤ order) (h4 : order ≤ 4) (fields : Option (Nd K)) (mapped : Bool) (r : Fin d → ℤ) (X : Fin d → ℤ → K) :
    (∃ e, N.derivCore J order fields mapped r X = .error e ∧ N.derivCoreC J c G order fields mapped r X = .error (.exc e)) ∨
    ∃ F f H, N.fieldArg fields = .ok F ∧ N.derivCore J order fields mapped r X = .ok f ∧
      N.derivCoreC J c G order fields mapped r X = .ok H ∧ Stored d order F.1 r H f := by
  unfold Nrb.derivCore Nrb.derivCoreC
  cases hc : N.callArg r X with
  | error e => exact Or.inl ⟨e, rfl, rfl⟩
  | ok _ =>
    cases hF : N.fieldArg fields with
    | error e => exact Or.inl ⟨e, rfl, rfl⟩
    | ok F =>
      by_cases hd : d = 0 ∨ 4 ≤ d
      · exact Or.inl ⟨.value, by simp only [except_ok_bind, if_pos hd]; rfl, by simp only [py, except_ok_bind, if_pos hd]; rfl⟩
      by_cases hp : 1 ≤ F.1 ∧ ∀ a, 1 ≤ N.n a ∧ 1 ≤ N.degree a
      swap
      · exact Or.inl ⟨.f2py, by simp only [except_ok_bind, if_neg hd, if_pos hp]; rfl,
          by simp only [py, except_ok_bind, if_neg hd, if_pos hp]; rfl⟩
      by_cases hm : mapped = true ∧ 2 ≤ order
      · exact Or.inl ⟨.stop, by simp only [except_ok_bind, if_neg hd, if_neg (not_not.mpr hp), if_pos hm]; rfl,
          by simp only [py, except_ok_bind, if_neg hd, if_neg (not_not.mpr hp), if_pos hm]; rfl⟩
      obtain ⟨H, e1, e2, e3⟩ := derivLoopsC_ok J N (by omega) (fun a => ⟨by have := (hp.2 a).2; omega, hN a⟩) h4
        (fun h => by by_contra h'; exact hm ⟨h, by omega⟩) (dof := F.1) F.2 N.UA_eq r X (alloc_sized order F.1 _ c) G
      refine Or.inr ⟨F, fun g dirs c => if mapped then match dirs with
          | [i] => N.mappedAt J F.2 (fun a => X a (g a)) i c
          | _ => 0
        else N.derivAt J order F.2 (fun a => X a (g a)) dirs c, H, rfl, ?_, ?_, e2, ?_⟩
      · simp only [except_ok_bind, if_neg hd, if_neg (not_not.mpr hp), if_neg hm]; rfl
      · simp only [py, except_ok_bind, if_neg hd, if_neg (not_not.mpr hp), if_neg hm]
        rw [e1]; rfl
      · intro g hg
        obtain ⟨f1, f2⟩ := e3 g hg
        refine ⟨f1, fun i c hcF => ?_⟩
        have hr : 0 ≤ (tpCode (List.ofFn i) : ℤ) + (d : ℤ) ^ order * c ∧
            (tpCode (List.ofFn i) : ℤ) + (d : ℤ) ^ order * c < (H.val g).size := by
          rw [f1]
          refine off_lt (by positivity) ?_ (by positivity) hcF
          have := tpCode_lt (List.ofFn i)
          rw [List.length_ofFn] at this
          exact_mod_cast this
        rw [← tpCode_ofFn, Flat.get_ok hr, f2 _ c (List.length_ofFn) hcF]
        rfl

/-- `derivative`: the same exception or the values of the derivatives, in any order from 1 to 4 -/
theorem C78_derivative (J : Junk K) (c : DerivWork K) (G : (Fin d → ℤ) → Flat K) (N : Nrb K d) (hN : ∀ a, N.degree a ≤ N.n a)
    (order : ℤ) (fields : Option (Nd K)) (mapped : Bool) (r : Fin d → ℤ) (X : Fin d → ℤ → K) :
    (∃ e, N.derivative J order fields mapped r X = .error e ∧ N.derivativeC J c G order fields mapped r X = .error (.exc e)) ∨
    ∃ F f H, N.fieldArg fields = .ok F ∧ N.derivative J order fields mapped r X = .ok f ∧
      N.derivativeC J c G order fields mapped r X = .ok H ∧ Stored d order.toNat F.1 r H f := by
  unfold Nrb.derivative Nrb.derivativeC
  cases hc : N.callArg r X with
  | error e => exact Or.inl ⟨e, rfl, rfl⟩
  | ok _ =>
    cases hF : N.fieldArg fields with
    | error e => exact Or.inl ⟨e, rfl, rfl⟩
    | ok F =>
      by_cases ho : order ≥ 1 ∧ order ≤ 4
      · have := C78_derivCore J c G N hN (order := order.toNat) (by omega) (by omega) fields mapped r X
        rw [hF] at this
        rw [pyAssert_ok ho]
        exact this
      · exact Or.inl ⟨.assertion, by simp [pyAssert, ho], by simp [pyAssert, ho, py]; rfl⟩

/-- no call of `gradient`, `hessian`, `derivative` leaves an array -/
theorem C78_no_fault (J : Junk K) (c : DerivWork K) (G : (Fin d → ℤ) → Flat K) (N : Nrb K d) (hN : ∀ a, N.degree a ≤ N.n a)
    (order : ℤ) (fields : Option (Nd K)) (mapped : Bool) (r : Fin d → ℤ) (X : Fin d → ℤ → K) (f : Fault) :
    N.derivativeC J c G order fields mapped r X ≠ .error (.fault f) := by
  rcases C78_derivative J c G N hN order fields mapped r X with ⟨e, -, h⟩ | ⟨_, _, H, -, -, h, -⟩ <;>
  · rw [h]; intro h; cases h

/-- the arrays returned by `derivative` (`gradient`, `hessian`) up to order 3 hold the partial derivatives of the rational fields
at parameters which are no knots -/
theorem C78_partial_derivatives {N : Nrb ℝ d} (J : Junk ℝ) (c : DerivWork ℝ) (G : (Fin d → ℤ) → Flat ℝ) (hv : N.Valid)
    (hd : d = 1 ∨ d = 2 ∨ d = 3) {order : ℕ} (h1 : 1 ≤ order) (h3 : order ≤ 3) {fields : Option (Nd ℝ)} {nf : ℤ}
    {F : (Fin d → ℤ) → ℕ → ℝ} (hf : N.fieldArg fields = .ok (nf, F)) (hnf : 1 ≤ nf) {r : Fin d → ℤ} {X : Fin d → ℤ → ℝ}
    (hr : ∀ a, 0 ≤ r a) (hx : ∀ a i, 0 ≤ i → i ≤ r a → N.lo a ≤ X a i ∧ X a i ≤ N.hi a)
    (hw : ∀ idx, (∀ a, 0 ≤ idx a ∧ idx a ≤ N.n a) → 0 < N.P idx 3) :
    ∃ H, N.derivativeC J c G order fields false r X = .ok H ∧ H.hi = r ∧
      ∀ g : Fin d → ℤ, (∀ a, 0 ≤ g a ∧ g a ≤ r a) →
        (∀ a j, 0 ≤ j → j < N.len a → N.U a j ≠ X a (g a)) → ∀ (i : Fin order → Fin d) (c : ℕ), (c : ℤ) < nf →
          (H.val g).get ((∑ k, ((i k : ℕ) : ℤ) * (d : ℤ) ^ (k : ℕ)) + (d : ℤ) ^ order * c) =
            .ok (pdo (List.ofFn i) (N.ratField F c) (fun a => X a (g a))) := by
  obtain ⟨f, a1, -, -, a4⟩ := C27_interior J hv hd h1 h3 hf hnf hr hx hw
  rcases C78_derivative J c G N (fun a => (hv a).le) order fields false r X with ⟨e, b1, -⟩ | ⟨F', f', H, b0, b1, b2, b3, b4⟩
  · rw [a1] at b1; cases b1
  rw [a1] at b1
  rw [hf] at b0
  cases b0
  cases b1
  refine ⟨H, b2, b3, fun g hg hne i c hc => ?_⟩
  have := (b4 g hg).2 i c hc
  rw [a4 g hg hne _ (List.length_ofFn) c] at this
  exact this

/-! ## examples -/

/-- second derivatives of a biquadratic surface at 2 × 3 parameters -/
example (J : Junk ℚ) (c : DerivWork ℚ) (G : (Fin 2 → ℤ) → Flat ℚ) :=
  C78_derivative J c G Ex.S (fun a => (Ex.S_valid a).le) 2 none false ![1, 2] ![fun i => i, fun i => i / 2]

/-- third derivatives of a bilinear patch at its middle -/
example (J : Junk ℝ) (c : DerivWork ℝ) (G : (Fin 2 → ℤ) → Flat ℝ) :=
  C78_partial_derivatives J c G Ex.sq_valid (by omega) (order := 3) (by omega) (by omega) (fields := none) (nf := 3) rfl (by norm_num)
    (r := fun _ => 0) (X := fun _ _ => 1 / 2) (fun _ => le_rfl) (fun a _ _ _ => Ex.sq_dom a) (fun idx _ => by simp [Ex.sq])

end Igakit
