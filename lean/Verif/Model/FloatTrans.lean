import Verif.Model.Float

/-!
# Transformations in floating point arithmetic

`transform.__call__` is one `np.dot`, and neither numpy nor the library behind it promises an order of summation, separate
roundings of product and sum, or a start with zero.  The model is therefore a relation: all the values `np.dot` may return.
-/

namespace Igakit
namespace Fp

variable {K : Type} [Field K] [LinearOrder K] (rd : K → K)

/-- the values which `np.dot` of two vectors may have (transform.py:18): products are rounded or fused with an addition, partial
sums are formed in any order and grouping.  `Dot rd l x`: `x` may be the sum of the products of the pairs in `l` -/
inductive Dot : List (K × K) → K → Prop
  | prod (a b : K) : Dot [(a, b)] (rd (a * b))
  | start (a b : K) : Dot [(a, b)] (rd (0 + rd (a * b)))
  | add {l l' l'' : List (K × K)} {x y : K} : Dot l x → Dot l' y → l''.Perm (l ++ l') → Dot l'' (rd (x + y))
  | fma {l l' : List (K × K)} {x a b : K} : Dot l x → l'.Perm ((a, b) :: l) → Dot l' (rd (x + a * b))

end Fp

variable {K : Type} [Field K] [LinearOrder K] {d : ℕ}

/-- the factors of one entry of `np.dot(xyzw, matrix.T)` (transform.py:18) -/
def rowTerms (v : ℕ → K) (M : Fin 4 → Fin 4 → K) (i : Fin 4) : List (K × K) :=
  [(v 0, M i 0), (v 1, M i 1), (v 2, M i 2), (v 3, M i 3)]

/-- `NURBS.transform` (nurbs.py:488-493) in floating point: `L` may be the object afterwards.  The first four components of every
control point are results of `np.dot`, the others and the knots are copies -/
structure Nrb.TransformF (rd : K → K) (N : Nrb K d) (M : Fin 4 → Fin 4 → K) (L : Nrb K d) : Prop where
  shape : L.shape = N.shape
  nc : L.nc = N.nc
  len : L.len = N.len
  U : L.U = N.U
  dot : ∀ idx, (∀ a, 0 ≤ idx a ∧ idx a < N.shape a) → ∀ i : Fin 4, Fp.Dot rd (rowTerms (N.P idx) M i) (L.P idx i)
  fields : ∀ idx, (∀ a, 0 ≤ idx a ∧ idx a < N.shape a) → ∀ c, 4 ≤ c → L.P idx c = N.P idx c

end Igakit
