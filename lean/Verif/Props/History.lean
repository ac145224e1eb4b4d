import Verif.Proofs.History

/-!
# C46: any sequence of method calls
-/

set_option linter.unusedSectionVars false

namespace Igakit
open Spec

variable {K : Type} [Field K] [LinearOrder K] [IsStrictOrderedRing K] {d : ℕ}

theorem history_follows {env : Env K} (heps : 0 < env.eps) {N0 : Nrb K d} : ∀ (p : List (Call K)) {N : Nrb K d} {s : Placed K d},
    N0.Follows N s → TameAll env N p → N0.Follows (history env N p) (placement env N s p)
  | [], _, _, hF, _ => hF
  | c :: p, N, s, hF, ht => by
    obtain ⟨h1, h2⟩ := ht
    unfold history placement
    unfold Call.after at h2 ⊢
    cases hc : c.2.apply env c.1 c.2.vals N with
    | ok N' =>
      rw [hc] at h2
      exact history_follows heps p (call_follows heps hF h1 hc) h2
    | error e =>
      rw [hc] at h2
      exact history_follows heps p hF h2

/-- C46: start with a valid object and call `insert`, `refine`, `clamp`, `unclamp`, `elevate`, `remap`, `reverse`,
`swap`, `transpose` and `transform` any number of times in any order, with calls that raise among them and whatever
the uninitialised memory holds.  The object is still valid, its domain is the image of the original domain under the
affine changes of parameter of the accepted calls, and at the image of a parameter it has the original value
multiplied by the product of the matrices. -/
theorem C46_history {env : Env K} (heps : 0 < env.eps) {N : Nrb K d} (hv : N.Valid) (hm : ∀ a, N.InnerMult a)
    (p : List (Call K)) (ht : TameAll env N p) :
    N.Follows (history env N p) (placement env N (Placed.start N) p) :=
  history_follows heps p (follows_start hv hm) ht

/-- C46: the parametrisation is onto, hence the formula gives the value at every parameter of the final object -/
theorem C46_everywhere {env : Env K} (heps : 0 < env.eps) {N : Nrb K d} (hv : N.Valid) (hm : ∀ a, N.InnerMult a)
    (p : List (Call K)) (ht : TameAll env N p) (y : Fin d → K) (hy : (history env N p).InDom y) :
    ∃! x, (placement env N (Placed.start N) p).par x = y ∧ N.InDom x ∧
      (history env N p).eval y = (placement env N (Placed.start N) p).space (N.eval x) := by
  have hF := C46_history heps hv hm p ht
  generalize placement env N (Placed.start N) p = s at hF
  set e := Equiv.ofBijective s.axis hF.axis with he
  have hpar : ∀ x, s.par x = y ↔ ∀ i, x (s.axis i) = (y i - s.off i) / s.slope i := by
    intro x
    rw [funext_iff]
    refine forall_congr' fun i => ?_
    unfold Placed.par
    rw [eq_div_iff (hF.slope i), eq_sub_iff_add_eq, mul_comm]
  have hx : s.par (fun j => (y (e.symm j) - s.off (e.symm j)) / s.slope (e.symm j)) = y := by
    rw [hpar]
    intro i
    have : e.symm (s.axis i) = i := e.symm_apply_apply i
    rw [this]
  have hin := (hF.dom _).1 (by rw [hx]; exact hy)
  refine ⟨_, ⟨hx, hin, by rw [← hF.eval _ hin, hx]⟩, ?_⟩
  rintro x ⟨h1, -, -⟩
  funext j
  have := (hpar x).1 h1 (e.symm j)
  have h2 : s.axis (e.symm j) = j := e.apply_symm_apply j
  rw [h2] at this
  exact this

theorem ownAll_calls (env : Env K) (o : ℕ) : ∀ (p : List (Scratch K × Cmd K)) {d : ℕ} (N : Nrb K d),
    ownAll env o ⟨d, N⟩ p = ⟨d, history env N (callsOf o p)⟩
  | [], _, _ => rfl
  | ⟨jn, c⟩ :: p, d, N => by
    have keep : ∀ (q : callsOf o (⟨jn, c⟩ :: p) = callsOf o p) (w : c.own env jn o ⟨d, N⟩ = ⟨d, N⟩),
        ownAll env o ⟨d, N⟩ (⟨jn, c⟩ :: p) = ⟨d, history env N (callsOf o (⟨jn, c⟩ :: p))⟩ := by
      intro q w
      rw [q, ← ownAll_calls env o p N]
      show ownAll env o (c.own env jn o ⟨d, N⟩) p = _
      rw [w]
    cases c with
    | geo o' g =>
      by_cases ho : o' = o
      · subst ho
        have q : callsOf o' (⟨jn, Cmd.geo o' g⟩ :: p) = (jn, g) :: callsOf o' p := by
          simp [callsOf]
        have w : (Cmd.geo o' g).own env jn o' ⟨d, N⟩ = ⟨d, Call.after env N (jn, g)⟩ := by
          show (if o' = o' then Cmd.after env jn g ⟨d, N⟩ else _) = _
          rw [if_pos rfl]
          unfold Cmd.after Call.after
          dsimp only
          cases g.apply env jn g.vals N <;> rfl
        rw [q]
        show ownAll env o' ((Cmd.geo o' g).own env jn o' ⟨d, N⟩) p = ⟨d, history env (Call.after env N (jn, g)) _⟩
        rw [w]
        exact ownAll_calls env o' p _
      · refine keep ?_ ?_
        · simp [callsOf, ho]
        · show (if o' = o then _ else _) = _
          rw [if_neg ho]
    | _ => exact keep (by simp [callsOf]) rfl

/-- C46 for a program with many objects, some of them sharing arrays: object `o` follows its own history, whatever
methods are called on the other objects in between and whatever copies, clones, slices and boundaries are taken -/
theorem C46_program {env : Env K} (heps : 0 < env.eps) (p : List (Scratch K × Cmd K)) {H : Heap K} (hs : H.Sound)
    (hw : ∀ c ∈ p, c.2.NoWrite) (hg : ∀ c ∈ p, ∀ i, ¬ c.2.GeoGiven i) {o : ℕ} (ho : o < H.no) {N : Nrb K d}
    (hN : H.view o = ⟨d, N⟩) (hv : N.Valid) (hm : ∀ a, N.InnerMult a) (ht : TameAll env N (callsOf o p)) :
    ∃ N', (execAll env H p).view o = ⟨d, N'⟩ ∧ N.Follows N' (placement env N (Placed.start N) (callsOf o p)) := by
  refine ⟨history env N (callsOf o p), ?_, C46_history heps hv hm _ ht⟩
  rw [C45_values env p hs hw hg ho, hN, ownAll_calls]

end Igakit
