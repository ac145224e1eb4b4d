import Verif.Spec.Heap
import Verif.Props.Elevate
import Verif.Props.Param

/-!
# Specification: sequences of method calls on one object

A `Placed` records how the present object lies relative to the original one: the present domain, for each
present parameter the original parameter it is an affine function of, and the matrix that has been applied in
space.  It is computed from the arguments of the accepted calls only.
-/

namespace Igakit

variable {K : Type} [Field K] [LinearOrder K] [IsStrictOrderedRing K]

/-- present domain `[lo i, hi i]`; present parameter `i` is `slope i * x (axis i) + off i` for the original
parameters `x`; present homogeneous point is `mat` times the original one -/
structure Placed (K : Type) (d : ℕ) where
  lo : Fin d → K
  hi : Fin d → K
  slope : Fin d → K
  off : Fin d → K
  axis : Fin d → Fin d
  mat : Fin 4 → Fin 4 → K

namespace Placed

variable {d : ℕ}

/-- nothing has happened -/
def start (N : Nrb K d) : Placed K d where
  lo := N.lo
  hi := N.hi
  slope := fun _ => 1
  off := fun _ => 0
  axis := id
  mat := fun i j => if i = j then 1 else 0

/-- present parameters for original parameters -/
def par (s : Placed K d) (x : Fin d → K) : Fin d → K := fun i => s.slope i * x (s.axis i) + s.off i

/-- present homogeneous values for original ones; components from 4 on are fields and stay -/
def space (s : Placed K d) (v : ℕ → K) : ℕ → K :=
  fun c => if h : c < 4 then ∑ j : Fin 4, s.mat ⟨c, h⟩ j * v j else v c

/-- a matrix is applied -/
def transform (s : Placed K d) (M : Fin 4 → Fin 4 → K) : Placed K d :=
  { s with mat := fun i k => ∑ j : Fin 4, M i j * s.mat j k }

/-- parameter `i` is from now on the former parameter `f i` -/
def permute (s : Placed K d) (f : Fin d → Fin d) : Placed K d :=
  { s with lo := s.lo ∘ f, hi := s.hi ∘ f, slope := s.slope ∘ f, off := s.off ∘ f, axis := s.axis ∘ f }

/-- the parameters in `L` are reflected, as often as they occur -/
def reflect (s : Placed K d) (L : List (Fin d)) : Placed K d :=
  { s with
    slope := fun i => if Odd (L.count i) then - s.slope i else s.slope i
    off := fun i => if Odd (L.count i) then s.lo i + s.hi i - s.off i else s.off i }

/-- parameter `a` from now on runs through `[c, e]` -/
def remap (s : Placed K d) (a : Fin d) (c e : K) : Placed K d :=
  { s with
    lo := Function.update s.lo a c
    hi := Function.update s.hi a e
    slope := Function.update s.slope a ((e - c) / (s.hi a - s.lo a) * s.slope a)
    off := Function.update s.off a ((e - c) / (s.hi a - s.lo a) * (s.off a - s.lo a) + c) }

end Placed

/-- axis number `i` in the argument of `transpose` -/
def transFn (d : ℕ) (axes : Option (List ℤ)) (i : Fin d) : Fin d :=
  match normAxis d ((transAxes d axes).getD i 0) with
  | .ok a => a
  | .error _ => i

/-- what an accepted call means for the placement -/
def Geo.place {d : ℕ} (s : Placed K d) : Geo K → Placed K d
  | .transform (.ok M) => s.transform M
  | .transpose axes => s.permute (transFn d axes)
  | .swap i j =>
    match normAxis d i, normAxis d j with
    | .ok a, .ok b => s.permute (Equiv.swap a b)
    | _, _ => s
  | .reverse axes =>
    match (revAxes d axes).mapM (normAxis d) with
    | .ok L => s.reflect L
    | .error _ => s
  | .remap axis start stop =>
    match normAxis d axis with
    | .ok a => s.remap a (start.getD (s.lo a)) (stop.getD (s.hi a))
    | .error _ => s
  | _ => s

/-- arguments for which the call keeps the map if it is accepted.  Values are apart from the knots and not ends
of the domain, `transpose` gets no negative axis numbers, `elevate` is called on clamped knots that the
algorithm handles, `remove` (which may change the map within its tolerance) is not called. -/
def Geo.Tame {d : ℕ} (eps : K) (N : Nrb K d) : Geo K → Prop
  | .transform _ => True
  | .transpose axes => ∃ σ : Equiv.Perm (Fin d), transAxes d axes = (List.finRange d).map (fun i => ((σ i : ℕ) : ℤ))
  | .swap _ _ => True
  | .reverse _ => True
  | .remap _ _ _ => True
  | .insert axis value _ => ∀ a, normAxis d axis = .ok a → value ≠ N.lo a ∧ value ≠ N.hi a ∧ N.Sep eps a value
  | .remove _ _ _ _ => False
  | .clamp axis _ => ∀ a, normAxis d axis = .ok a → N.SepBoth eps a
  | .unclamp axis _ _ => ∀ a, normAxis d axis = .ok a → N.SepBoth eps a
  | .refine axis (.fresh vals) => ∀ a, normAxis d axis = .ok a →
      (∀ x ∈ vals, x ≠ N.lo a ∧ x ≠ N.hi a ∧ N.Sep eps a x) ∧ ∀ x ∈ vals, ∀ y ∈ vals, x = y ∨ eps ≤ |x - y|
  | .refine _ (.block _ _ _) => False
  | .elevate axis times => ∀ a, normAxis d axis = .ok a →
      N.Elevatable eps a ∧ ∀ t ∈ times, N.degree a ≤ 9 ∨ Spec.NoJump (N.n a) (N.degree a) t (N.U a)

/-- a call with its own uninitialised memory -/
abbrev Call (K : Type) := Scratch K × Geo K

/-- the object after a call; it stays if the call raises -/
noncomputable def Call.after (env : Env K) {d : ℕ} (N : Nrb K d) (c : Call K) : Nrb K d :=
  match c.2.apply env c.1 c.2.vals N with
  | .ok N' => N'
  | .error _ => N

/-- the object after the calls -/
noncomputable def history (env : Env K) {d : ℕ} : Nrb K d → List (Call K) → Nrb K d
  | N, [] => N
  | N, c :: p => history env (Call.after env N c) p

/-- the placement after the calls: those that raise do not count -/
noncomputable def placement (env : Env K) {d : ℕ} : Nrb K d → Placed K d → List (Call K) → Placed K d
  | _, s, [] => s
  | N, s, c :: p =>
    match c.2.apply env c.1 c.2.vals N with
    | .ok N' => placement env N' (c.2.place s) p
    | .error _ => placement env N s p

/-- every call has tame arguments at the time when it is made -/
def TameAll (env : Env K) {d : ℕ} : Nrb K d → List (Call K) → Prop
  | _, [] => True
  | N, c :: p => c.2.Tame env.eps N ∧ TameAll env (Call.after env N c) p

/-- `N` is a valid object placed by `s` relative to `N0` -/
structure Nrb.Follows {d : ℕ} (N0 N : Nrb K d) (s : Placed K d) : Prop where
  valid : N.Valid
  inner : ∀ a, N.InnerMult a
  nc : N.nc = N0.nc
  lo : N.lo = s.lo
  hi : N.hi = s.hi
  slope : ∀ i, s.slope i ≠ 0
  axis : Function.Bijective s.axis
  dom : ∀ x, N.InDom (s.par x) ↔ N0.InDom x
  eval : ∀ x, N0.InDom x → N.eval (s.par x) = s.space (N0.eval x)

/-- the methods that the program calls on object `o` -/
def callsOf (o : ℕ) (p : List (Scratch K × Cmd K)) : List (Call K) :=
  p.filterMap fun c => match c.2 with
    | .geo o' g => if o' = o then some (c.1, g) else none
    | _ => none

end Igakit
