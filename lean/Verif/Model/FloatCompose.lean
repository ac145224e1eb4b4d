import Verif.Model.FloatTrans
import Verif.Model.Transform

/-!
# Composition of transformations in floating point arithmetic
-/

namespace Igakit
open Transform

variable {K : Type} [Field K] [LinearOrder K]

/-- the factors of one entry of `np.dot(M, self.matrix)` (transform.py:52) -/
def entryTerms (M A : Mat4 K) (i j : Fin 4) : List (K × K) :=
  [(M i 0, A 0 j), (M i 1, A 1 j), (M i 2, A 2 j), (M i 3, A 3 j)]

/-- `transform.compose` (transform.py:40-53) in floating point: `B` may be the matrix afterwards, `A` is the one before.  `M` is the
4 by 4 matrix of line 52; a 3 by 3 argument is embedded without rounding (lines 45-48, `embed3`).  As for `np.dot` of
vectors, any order of summation and fused operations are allowed -/
def ComposeF (rd : K → K) (A M B : Mat4 K) : Prop := ∀ i j, Fp.Dot rd (entryTerms M A i j) (B i j)

/-- a transformation built from `transform()` (transform.py:7-15) by a sequence of calls of `compose` (also those inside `translate`,
`scale` and `rotate`, transform.py:55-127, whose matrices are taken as given).  The list starts with the last call -/
inductive ChainF (rd : K → K) : List (Mat4 K) → Mat4 K → Prop
  | nil : ChainF rd [] 1
  | cons {l : List (Mat4 K)} {A M B : Mat4 K} : ChainF rd l A → ComposeF rd A M B → ChainF rd (M :: l) B

end Igakit
