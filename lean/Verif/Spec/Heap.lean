import Verif.Model.Heap

/-! # Specification: sharing of arrays -/

namespace Igakit

variable {K : Type} [Field K] [LinearOrder K]

/-- the object refers to array `i` -/
def Obj.Uses (x : Obj) (i : ℕ) : Prop := i = x.arr ∨ ∃ a, i = x.knots a

namespace Heap

/-- objects refer to existing arrays -/
def Sound (H : Heap K) : Prop := ∀ o < H.no, ∀ i, (H.obj o).Uses i → i < H.na

/-- shape, knots and control net of object `o`, as a user reads them -/
def view (H : Heap K) (o : ℕ) : (d : ℕ) × Nrb K d := ⟨(H.obj o).d, H.nrb (H.obj o)⟩

end Heap

/-- the numbers in an argument of the constructor -/
def Heap.ArrRef.val (H : Heap K) : Heap.ArrRef K → Nd K
  | .fresh A => A
  | .ref A => H.arr A

def Heap.CtrlRef.val (H : Heap K) : Heap.CtrlRef K → CtrlArg K
  | .none => .none
  | .arr C => .arr (C.val H)

/-- methods that need at least one axis -/
def onAxis {d : ℕ} (N : Nrb K d) (f : {e : ℕ} → Nrb K (e + 1) → Res (Nrb K (e + 1))) : Res (Nrb K d) :=
  match d, N with
  | 0, _ => .error .index
  | _ + 1, N => f N

/-- the method as a function of the numbers of the object; `vals` are the numbers in the argument `values` of `refine` -/
noncomputable def Geo.apply (env : Env K) (jn : Scratch K) (vals : List K) {d : ℕ} (N : Nrb K d) : Geo K → Res (Nrb K d)
  | .transform M => M >>= fun M => .ok (N.transform M)
  | .transpose axes => N.transpose axes
  | .swap i j => N.swap i j
  | .reverse axes => N.reverse axes
  | .remap axis start stop => N.remap axis start stop
  | .insert axis value times => onAxis N (fun N => N.insert env.eps jn.k jn.rows axis value times)
  | .remove axis value times dev => onAxis N (fun N => N.removeNear env.eps jn.rows env.near axis value times dev)
  | .clamp axis side => onAxis N (fun N => N.clamp env.eps jn.rows axis side)
  | .unclamp axis side cont => onAxis N (fun N => N.unclamp env.eps jn.rows axis side cont)
  | .refine axis _ => if vals = [] then .ok N else onAxis N (fun N => N.refine env.eps jn.k jn.rows axis vals)
  | .elevate axis times => match d, N, times with
    | 0, N, some t => if t ≥ 0 then (if t = 0 then .ok N else .error .index) else .error .assertion
    | 0, N, none => .ok N
    | _ + 1, N, times => N.elevate env.eps jn.k jn.rows jn.b axis times

/-- numbers in the argument `values` of `refine` -/
def Geo.vals : Geo K → List K
  | .refine _ (.fresh l) => l
  | _ => []

/-- no argument of the method is an array of somebody else -/
def Geo.Fresh : Geo K → Prop
  | .refine _ (.block _ _ _) => False
  | _ => True

/-- array that the method is given as argument -/
def Geo.Given : Geo K → ℕ → Prop
  | .refine _ (.block A _ _), i => i = A
  | _, _ => False

namespace Cmd

/-- objects named in the command -/
def Names : Cmd K → ℕ → Prop
  | .geo o _, n => n = o
  | .copy o, n => n = o
  | .clone o, n => n = o
  | .slice o _ _ _, n => n = o
  | .extract o _ _, n => n = o
  | .boundary o _ _, n => n = o
  | .new _ _ _ _, _ => False
  | .newArr _, _ => False
  | .write _ _ _, _ => False
  | .writeNet o _ _, n => n = o
  | .writeKnot o _ _ _, n => n = o

/-- arrays named in the command -/
def Given : Cmd K → ℕ → Prop
  | .geo _ g, i => g.Given i
  | .new knots control _ _, i => (∃ a, knots a = .ref i) ∨ control = .arr (.ref i)
  | .write A _ _, i => i = A
  | _, _ => False

/-- the user does not assign entries of arrays in this command -/
def NoWrite : Cmd K → Prop
  | .write _ _ _ => False
  | .writeNet _ _ _ => False
  | .writeKnot _ _ _ _ => False
  | _ => True

/-- a method of this object that changes it -/
def Changes : Cmd K → ℕ → Prop
  | .geo o _, n => n = o
  | _, _ => False

/-- a command works with objects in `S`, arrays in `T` and what is made from now on -/
structure Within (S T : ℕ → Prop) (no na : ℕ) (c : Cmd K) : Prop where
  names : ∀ o, c.Names o → S o ∨ no ≤ o
  given : ∀ i, c.Given i → T i ∨ na ≤ i

/-- the array is handed to a method (of the object, not to the constructor) -/
def GeoGiven : Cmd K → ℕ → Prop
  | .geo _ g, i => g.Given i
  | _, _ => False

/-- the numbers after the method; they stay if it raises -/
noncomputable def after (env : Env K) (jn : Scratch K) (g : Geo K) (V : (d : ℕ) × Nrb K d) : (d : ℕ) × Nrb K d :=
  match g.apply env jn g.vals V.2 with
  | .ok N => ⟨V.1, N⟩
  | .error _ => V

/-- what the command does to the numbers of object `o`, if objects do not share anything -/
noncomputable def own (env : Env K) (jn : Scratch K) (o : ℕ) (V : (d : ℕ) × Nrb K d) : Cmd K → (d : ℕ) × Nrb K d
  | .geo o' g => if o' = o then after env jn g V else V
  | _ => V

end Cmd

/-- the numbers of object `o` after the program, computed from its own methods -/
noncomputable def ownAll (env : Env K) (o : ℕ) (V : (d : ℕ) × Nrb K d) (p : List (Scratch K × Cmd K)) : (d : ℕ) × Nrb K d :=
  p.foldl (fun V c => c.2.own env c.1 o V) V

end Igakit
