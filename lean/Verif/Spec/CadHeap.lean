import Verif.Spec.Heap

/-! # Specification: functions that make new objects -/

namespace Igakit

variable {K : Type} [Field K] [LinearOrder K]

namespace Heap

/-- every object that existed still refers to the same arrays, and every array that existed has the same entries -/
structure Untouched (H H' : Heap K) : Prop where
  obj : ∀ o < H.no, H'.obj o = H.obj o
  arr : ∀ i < H.na, H'.arr i = H.arr i

/-- a call made in `H` ends with a new object that has the numbers `R`, or raises the exception; nothing that existed changes -/
def Makes (H : Heap K) {d : ℕ} (call : Res ℕ × Heap K) (r : Res (Nrb K d)) : Prop :=
  Untouched H call.2 ∧ match r with
    | .ok R => ∃ n, call.1 = .ok n ∧ H.no ≤ n ∧ n < call.2.no ∧ call.2.view n = ⟨d, R⟩
    | .error e => call.1 = .error e

end Heap
end Igakit
