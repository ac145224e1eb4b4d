import Verif.Spec.History
import Verif.Spec.Io

/-!
# Specification: objects with the same data

What a program can observe of an object are its knots and its control points; the arrays of the model have no
entries outside their range in the code, so nothing outside is compared.
-/

namespace Igakit
open Spec

variable {K : Type} [Field K] [LinearOrder K]

/-- same shapes and same knots; the control points may differ -/
structure Nrb.SameKnots {d : ℕ} (N N' : Nrb K d) : Prop where
  shape : N'.shape = N.shape
  len : N'.len = N.len
  knots : ∀ a j, 0 ≤ j → j < N.len a → N'.U a j = N.U a j

/-- same shapes, same knots, same control net (homogeneous coordinates and fields) -/
structure Nrb.SameData {d : ℕ} (N N' : Nrb K d) : Prop extends N.SameKnots N' where
  nc : N'.nc = N.nc
  net : ∀ idx, N.InNet idx → N'.P idx = N.P idx

/-- knots that a call of `insert` or `refine` adds to axis `a` -/
def Geo.added {d : ℕ} (a : Fin d) : Geo K → Multiset K
  | .insert axis v (some t) => if normAxis d axis = .ok a then Multiset.replicate t.toNat v else 0
  | .refine axis (.fresh l) => if normAxis d axis = .ok a then (l : Multiset K) else 0
  | _ => 0

/-- the call is `refine`, or `insert` with a positive number of times, and names an axis of the object -/
def Geo.Refines (d : ℕ) : Geo K → Prop
  | .insert axis _ (some t) => 0 < t ∧ ∃ a, normAxis d axis = .ok a
  | .refine axis (.fresh _) => ∃ a, normAxis d axis = .ok a
  | _ => False

/-- knots that the calls add to axis `a` -/
def addedAll {d : ℕ} (a : Fin d) (p : List (Call K)) : Multiset K := (p.map fun c => c.2.added a).sum

/-- knots that can be added to axis `a`: interior, apart from each other and from the knots that are there, and not
more than `degree` times altogether -/
structure Nrb.CanAdd {d : ℕ} (N : Nrb K d) (eps : K) (a : Fin d) (V : Multiset K) : Prop where
  lo : ∀ x ∈ V, N.lo a < x
  hi : ∀ x ∈ V, x < N.hi a
  sep : ∀ x ∈ V, N.Sep eps a x
  apart : ∀ x ∈ V, ∀ y ∈ V, x = y ∨ eps ≤ |x - y|
  mult : ∀ x ∈ V, ((V.count x + N.multOf a x : ℕ) : ℤ) ≤ N.degree a

end Igakit
