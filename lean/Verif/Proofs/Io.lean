import Verif.Spec.Io
import Verif.Proofs.Nrb
import Verif.Proofs.Cad
import Verif.Props.Greville
import Mathlib.Tactic.Ring
import Mathlib.Tactic.Linarith
import Mathlib.Tactic.Positivity

/-! # Bytes, readers and arrays in Fortran order -/

set_option linter.unusedSectionVars false

namespace Igakit

/-! ## integers -/

theorem encNat_length (w n : ℕ) : (encNat w n).length = w := by
  induction w generalizing n with
  | zero => rfl
  | succ w ih => simp [encNat, ih]

theorem decNat_concat (bs : Bytes) (b : UInt8) : decNat (bs ++ [b]) = decNat bs * 256 + b.toNat := by
  simp [decNat, List.foldl_append]

theorem decNat_encNat (w n : ℕ) (h : n < 256 ^ w) : decNat (encNat w n) = n := by
  induction w generalizing n with
  | zero => simp at h; subst h; rfl
  | succ w ih =>
    rw [encNat, decNat_concat, ih (n / 256) (by rw [Nat.div_lt_iff_lt_mul (by norm_num)]; rw [pow_succ] at h; exact h)]
    rw [UInt8.toNat_ofNat']
    omega

theorem encInt_length (w : ℕ) (x : ℤ) : (encInt w x).length = w := encNat_length _ _

theorem decInt_encInt {w : ℕ} {x : ℤ} (h : IntFits w x) : decInt w (encInt w x) = x := by
  obtain ⟨h1, h2⟩ := h
  have hp : (0 : ℤ) < 256 ^ w := by positivity
  have hm0 := Int.emod_nonneg x hp.ne'
  have hm1 := Int.emod_lt_of_pos x hp
  have hlt : (x % 256 ^ w).toNat < 256 ^ w := by zify; rw [Int.toNat_of_nonneg hm0]; exact hm1
  unfold decInt encInt
  rw [decNat_encNat _ _ hlt]
  by_cases hx : 0 ≤ x
  · have e : x % 256 ^ w = x := Int.emod_eq_of_lt hx (by omega)
    rw [e, if_pos (by zify; rw [Int.toNat_of_nonneg hx]; exact h2), Int.toNat_of_nonneg hx]
  · have e : x % 256 ^ w = x + 256 ^ w := by
      rw [← Int.add_emod_right, Int.emod_eq_of_lt] <;> omega
    rw [e, if_neg (by zify; rw [Int.toNat_of_nonneg (by omega)]; omega), Int.toNat_of_nonneg (by omega)]
    ring

theorem intFits_small {w : ℕ} (hw : 4 ≤ w) {x : ℤ} (h0 : 0 ≤ x) (h1 : x ≤ 2000000000) : IntFits w x := by
  have : (256 : ℤ) ^ 4 ≤ 256 ^ w := pow_le_pow_right₀ (by norm_num) hw
  have e : (256 : ℤ) ^ 4 = 4294967296 := by norm_num
  constructor <;> omega

theorem intFits_mono {w : ℕ} {x y : ℤ} (h : IntFits w y) (h0 : 0 ≤ x) (h1 : x ≤ y) : IntFits w x := by
  obtain ⟨a, b⟩ := h
  constructor <;> omega

/-! ## readers -/

/-- the reader takes exactly the bytes `u` and returns `x`, whatever follows; on a strict prefix of `u` it raises -/
structure Tight {α : Type} (r : Rd α) (x : α) (u : Bytes) : Prop where
  reads : ∀ t, r.run (u ++ t) = .ok (x, t)
  stops : ∀ pre, pre <+: u → pre ≠ u → ∃ e, r.run pre = .error e

theorem rd_bind_ok {α β : Type} {r : Rd α} {f : α → Rd β} {bs t : Bytes} {x : α} (h : r.run bs = .ok (x, t)) :
    (r >>= f).run bs = (f x).run t := by
  rw [StateT.run_bind, h]; rfl

theorem rd_bind_err {α β : Type} {r : Rd α} {f : α → Rd β} {bs : Bytes} {e : Err} (h : r.run bs = .error e) :
    (r >>= f).run bs = .error e := by
  rw [StateT.run_bind, h]; rfl

theorem Tight.pure {α : Type} (x : α) : Tight (Pure.pure x) x [] :=
  ⟨fun _ => rfl, fun pre h hne => absurd (List.prefix_nil.mp h) hne⟩

theorem prefix_append_cases {pre u v : Bytes} (h : pre <+: u ++ v) : pre <+: u ∨ ∃ l, pre = u ++ l ∧ l <+: v := by
  rcases List.prefix_or_prefix_of_prefix h (List.prefix_append u v) with h1 | ⟨l, rfl⟩
  · exact Or.inl h1
  · exact Or.inr ⟨l, rfl, (List.prefix_append_right_inj u).mp h⟩

theorem Tight.bind {α β : Type} {r : Rd α} {f : α → Rd β} {x : α} {y : β} {u v : Bytes} (h : Tight r x u)
    (hf : Tight (f x) y v) : Tight (r >>= f) y (u ++ v) := by
  constructor
  · intro t
    rw [List.append_assoc, rd_bind_ok (h.reads _)]
    exact hf.reads t
  · intro pre hp hne
    rcases prefix_append_cases hp with h1 | ⟨l, rfl, h2⟩
    · by_cases he : pre = u
      · subst he
        by_cases hv : v = []
        · subst hv; simp at hne
        · obtain ⟨e, he⟩ := hf.stops [] List.nil_prefix (Ne.symm hv)
          refine ⟨e, ?_⟩
          have := h.reads []
          rw [List.append_nil] at this
          rw [rd_bind_ok this]
          exact he
      · obtain ⟨e, he⟩ := h.stops pre h1 he
        exact ⟨e, rd_bind_err he⟩
    · obtain ⟨e, he⟩ := hf.stops l h2 (fun hl => hne (by rw [hl]))
      exact ⟨e, by rw [rd_bind_ok (h.reads l)]; exact he⟩

theorem Tight.assert {c : Prop} [Decidable c] (h : c) : Tight (rdAssert c) () [] := by
  refine ⟨fun t => ?_, fun pre hp hne => absurd (List.prefix_nil.mp hp) hne⟩
  show (if c then _ else _) = _
  rw [if_pos h]; rfl

theorem Tight.guard {β : Type} {c : Prop} [Decidable c] (h : c) {f : Unit → Rd β} {y : β} {v : Bytes}
    (hf : Tight (f ()) y v) : Tight (rdAssert c >>= f) y v := by
  have := (Tight.assert h).bind hf
  rwa [List.nil_append] at this

theorem Tight.int {w : ℕ} {x : ℤ} (h : IntFits w x) : Tight (readInt w) x (encInt w x) := by
  have hl := encInt_length w x
  constructor
  · intro t
    show (if _ then _ else _) = _
    rw [if_neg (by rw [List.length_append, hl]; omega), List.take_left' hl, List.drop_left' hl, decInt_encInt h]
  · intro pre hp hne
    refine ⟨.index, ?_⟩
    show (if _ then _ else _) = _
    rw [if_pos]
    have := hp.length_le
    rcases this.lt_or_eq with h | h
    · omega
    · exact absurd (hp.eq_of_length h) hne

theorem flatMap_length {V : Type} {enc : V → Bytes} {s : ℕ} (hl : ∀ x, (enc x).length = s) (l : List V) :
    (l.flatMap enc).length = l.length * s := by
  induction l with
  | nil => simp
  | cons x l ih => rw [List.flatMap_cons, List.length_append, hl, ih, List.length_cons]; ring

theorem chunk_eq {V : Type} {enc : V → Bytes} {s : ℕ} (hl : ∀ x, (enc x).length = s) (l : List V) (t : Bytes) (i : ℕ)
    (hi : i < l.length) : ((l.flatMap enc ++ t).drop (i * s)).take s = enc l[i] := by
  induction l generalizing i with
  | nil => simp at hi
  | cons x l ih =>
    rw [List.flatMap_cons, List.append_assoc]
    cases i with
    | zero => rw [Nat.zero_mul, List.drop_zero, List.take_left' (hl x)]; rfl
    | succ i =>
      have e : (i + 1) * s = (enc x).length + i * s := by rw [hl]; ring
      rw [e, List.drop_append, ]
      simp only [List.getElem_cons_succ]
      rw [List.drop_eq_nil_of_le (by omega), List.nil_append, Nat.add_sub_cancel_left]
      exact ih i (by simpa using hi)

/-- reading back what was written one after the other -/
theorem Tight.exact {V : Type} {enc : V → Bytes} {dec : Bytes → V} {s : ℕ} (hs : 0 < s) (hl : ∀ x, (enc x).length = s)
    (l : List V) : Tight (readExact s dec l.length) (l.map (fun x => dec (enc x))) (l.flatMap enc) := by
  have hL := flatMap_length hl l
  constructor
  · intro t
    have hav : l.length ≤ (l.flatMap enc ++ t).length / s := by
      rw [Nat.le_div_iff_mul_le hs, List.length_append, hL]; omega
    have hm : (if (l.length : ℤ) < 0 then (l.flatMap enc ++ t).length / s
        else min (l.length : ℤ).toNat ((l.flatMap enc ++ t).length / s)) = l.length := by
      rw [if_neg (by omega), Int.toNat_natCast, min_eq_left hav]
    have h1 : (readArr s dec l.length).run (l.flatMap enc ++ t) = .ok (l.map (fun x => dec (enc x)), t) := by
      show Except.ok _ = _
      rw [hm, if_neg (by omega), List.drop_left' hL]
      congr 2
      apply List.ext_getElem
      · simp
      · intro i h1 h2
        rw [List.getElem_map, List.getElem_range, chunk_eq hl l t i (by simpa using h1), List.getElem_map]
    unfold readExact
    rw [rd_bind_ok h1]
    have hc : ((l.map (fun x => dec (enc x))).length : ℤ) = l.length := by rw [List.length_map]
    have hg := Tight.guard hc (f := fun _ => (Pure.pure (l.map (fun x => dec (enc x))) : Rd (List V))) (Tight.pure _)
    exact hg.reads t
  · intro pre hp hne
    have hlt : pre.length < l.length * s := by
      rw [← hL]
      exact lt_of_le_of_ne hp.length_le (fun h => hne (hp.eq_of_length h))
    have hav : pre.length / s < l.length := (Nat.div_lt_iff_lt_mul hs).mpr hlt
    refine ⟨.assertion, ?_⟩
    obtain ⟨A, t, h1, h2⟩ : ∃ A t, (readArr s dec l.length).run pre = .ok (A, t) ∧ A.length = pre.length / s := by
      refine ⟨_, _, rfl, ?_⟩
      rw [List.length_map, List.length_range, if_neg (by omega), Int.toNat_natCast, min_eq_right hav.le]
    unfold readExact
    rw [rd_bind_ok h1]
    apply rd_bind_err
    show (if _ then _ else _) = _
    rw [if_neg (by rw [h2]; omega)]

/-- a whole file that a reader takes completely has no readable strict prefix -/
theorem Tight.whole {α : Type} {r : Rd α} {x : α} {u : Bytes} (h : Tight r x u) : r.run u = .ok (x, []) := by
  have := h.reads []
  rwa [List.append_nil] at this

/-! ## Fortran order -/

/-- `idx` is an index of an array of this shape -/
def InShape : List ℤ → List ℤ → Prop
  | [], [] => True
  | s :: ss, i :: is => (0 ≤ i ∧ i < s) ∧ InShape ss is
  | _, _ => False

theorem offsetF_range {ss is : List ℤ} (h : InShape ss is) : 0 ≤ offsetF ss is ∧ offsetF ss is < ss.prod := by
  induction ss generalizing is with
  | nil => cases is with
    | nil => simp [offsetF]
    | cons => exact h.elim
  | cons s ss ih =>
    cases is with
    | nil => exact h.elim
    | cons i is =>
      obtain ⟨⟨h1, h2⟩, h3⟩ := h
      obtain ⟨h4, h5⟩ := ih h3
      rw [offsetF, List.prod_cons]
      constructor
      · have := mul_nonneg (by omega : 0 ≤ s) h4; omega
      · nlinarith

theorem unravelF_offsetF {ss is : List ℤ} (h : InShape ss is) : unravelF ss (offsetF ss is) = is := by
  induction ss generalizing is with
  | nil => cases is with
    | nil => rfl
    | cons => exact h.elim
  | cons s ss ih =>
    cases is with
    | nil => exact h.elim
    | cons i is =>
      obtain ⟨⟨h1, h2⟩, h3⟩ := h
      rw [offsetF, unravelF, Int.add_mul_emod_self_left, Int.emod_eq_of_lt h1 h2,
        Int.add_mul_ediv_left _ _ (by omega), Int.ediv_eq_zero_of_lt h1 h2, zero_add, ih h3]

theorem prod_nonneg_of {ss : List ℤ} (h : ∀ s ∈ ss, 0 ≤ s) : 0 ≤ ss.prod := List.prod_nonneg h

theorem ravelF_length {V : Type} (A : Nd V) : (ravelF A).length = A.shape.prod.toNat := by simp [ravelF]

theorem ravelF_get {V : Type} [Zero V] (A : Nd V) {idx : List ℤ} (h : InShape A.shape idx) :
    (ravelF A).getD (offsetF A.shape idx).toNat 0 = A.get idx := by
  obtain ⟨h1, h2⟩ := offsetF_range h
  rw [List.getD_eq_getElem?_getD, List.getElem?_eq_getElem (by rw [ravelF_length]; omega), Option.getD_some]
  simp only [ravelF, List.getElem_map, List.getElem_range]
  rw [Int.toNat_of_nonneg h1, unravelF_offsetF h]

theorem map_getD {V : Type} [Zero V] (f : V → V) (l : List V) {i : ℕ} (h : i < l.length) :
    (l.map f).getD i 0 = f (l.getD i 0) := by
  rw [List.getD_eq_getElem?_getD, List.getD_eq_getElem?_getD, List.getElem?_map, List.getElem?_eq_getElem h]
  rfl

theorem inShape_cons {s i : ℤ} {ss is : List ℤ} (h1 : 0 ≤ i ∧ i < s) (h2 : InShape ss is) : InShape (s :: ss) (i :: is) :=
  ⟨h1, h2⟩

theorem inShape_ofFn {d : ℕ} {s i : Fin d → ℤ} (h : ∀ a, 0 ≤ i a ∧ i a < s a) : InShape (List.ofFn s) (List.ofFn i) := by
  induction d with
  | zero => simp [InShape]
  | succ d ih =>
    rw [List.ofFn_succ, List.ofFn_succ]
    exact ⟨h 0, ih (fun a => h a.succ)⟩

/-! ## blocks of a file -/

namespace PetIGA

variable {K : Type} [Field K] [LinearOrder K] [IsStrictOrderedRing K] {d : ℕ}

/-- the list written for the knots of an axis -/
def knotList (N : Nrb K d) (a : Fin d) : List K := (List.range (N.len a).toNat).map (fun (j : ℕ) => N.U a j)

/-- what is read back for an axis -/
def axisVal (R : Codec K) (N : Nrb K d) (a : Fin d) : ℤ × ℤ × List K := (N.degree a, N.len a, (knotList N a).map R.round)

theorem tight_axis {w : ℕ} {R : Codec K} {N : Nrb K d} (a : Fin d) (hp : 1 ≤ N.degree a)
    (hs : 2 ≤ N.shape a) (hl : IntFits w (N.len a)) : Tight (readAxis w R) (axisVal R N a) (axisBlock w R N a) := by
  have hdeg : N.degree a = N.len a - N.shape a - 1 := by simp only [Nrb.degree]; omega
  unfold readAxis axisBlock
  refine (Tight.int (intFits_mono hl (by omega) (by omega))).bind ?_
  refine Tight.guard hp ?_
  refine (Tight.int hl).bind ?_
  refine Tight.guard (by omega) ?_
  have h := Tight.exact (dec := R.dec) R.size_pos R.length_enc (knotList N a)
  have e : ((knotList N a).length : ℤ) = N.len a := by simp [knotList]; omega
  rw [e] at h
  have := h.bind (f := fun U => (Pure.pure (N.degree a, N.len a, U) : Rd (ℤ × ℤ × List K))) (Tight.pure _)
  rw [List.append_nil] at this
  exact this

theorem tight_axes {w : ℕ} {R : Codec K} : ∀ {k : ℕ} {f : Fin k → ℤ × ℤ × List K} {b : Fin k → Bytes},
    (∀ i, Tight (readAxis w R) (f i) (b i)) → Tight (readAxes w R k) f ((List.finRange k).flatMap b)
  | 0, f, b, _ => by
    have e : f = Fin.elim0 := Subsingleton.elim _ _
    subst e
    exact Tight.pure _
  | k + 1, f, b, h => by
    rw [List.finRange_succ, List.flatMap_cons, List.flatMap_map]
    unfold readAxes
    refine (h 0).bind ?_
    have h2 := (tight_axes (fun i => h (Fin.succ i))).bind
      (f := fun xs => (Pure.pure (Fin.cons (f 0) xs) : Rd (Fin (k + 1) → ℤ × ℤ × List K))) (Tight.pure _)
    rw [List.append_nil] at h2
    have e : (Fin.cons (f 0) (fun i => f (Fin.succ i)) : Fin (k + 1) → ℤ × ℤ × List K) = f := Fin.cons_self_tail f
    rw [e] at h2
    exact h2

theorem ravelF_size {A : Nd K} (h : 0 ≤ A.shape.prod) : ((ravelF A).length : ℤ) = A.shape.prod := by
  rw [ravelF_length]; omega

theorem tight_vec {w : ℕ} {S : Codec K} {A : Nd K} {k : ℤ} {c : ℤ → Prop} [DecidablePred c] (hw : 4 ≤ w) (hk : IntFits w k) (hc : c k)
    (hA : 0 ≤ A.shape.prod) (hf : IntFits w A.shape.prod) :
    Tight (do
      let k ← readInt w
      rdAssert (c k)
      let id ← readInt w
      rdAssert (id = VEC_ID)
      let n ← readInt w
      let C ← readExact S.size S.dec n
      Pure.pure (k, C)) (k, (ravelF A).map S.round) (vecBlock w S k A) := by
  unfold vecBlock
  refine (Tight.int hk).bind ?_
  refine Tight.guard hc ?_
  refine (Tight.int (intFits_small hw (by decide) (by decide))).bind ?_
  refine Tight.guard rfl ?_
  refine (Tight.int hf).bind ?_
  have h := Tight.exact (dec := S.dec) S.size_pos S.length_enc (ravelF A)
  rw [ravelF_size hA] at h
  have := h.bind (f := fun U => (Pure.pure (k, U) : Rd (ℤ × List K))) (Tight.pure _)
  rw [List.append_nil] at this
  exact this

theorem tight_opt_some {α : Type} {r : Rd α} {x : α} {u : Bytes} (h : Tight r x u) : Tight (opt true r) (some x) u := by
  have := h.bind (f := fun x => (Pure.pure (some x) : Rd (Option α))) (Tight.pure _)
  rw [List.append_nil] at this
  exact this

theorem tight_opt_none {α : Type} {r : Rd α} : Tight (opt false r) none [] := Tight.pure _

/-- the arrays written for control points and fields -/
def ctrlArr (N : Nrb K d) (k : Option ℕ) : Option (Nd K) := k.map (fun n => compFirst N.shape N.P (List.range n ++ [3]))
def fieldArr (N : Nrb K d) (f : Bool) : Option (Nd K) :=
  if f then N.fields.map (fun q => compFirst N.shape q.2 (List.range q.1)) else none

/-- what is read back from the whole file -/
def rawOf (R S : Codec K) (N : Nrb K d) (k : Option ℕ) (f : Bool) : Raw K d where
  axes := axisVal R N
  control := (ctrlArr N k).map (fun A => (A.shape.headD 0 - 1, (ravelF A).map S.round))
  fields := (fieldArr N f).map (fun A => (A.shape.headD 0, (ravelF A).map S.round))

/-- the bytes of a file -/
def fileOf (w : ℕ) (R S : Codec K) (N : Nrb K d) (k : Option ℕ) (f : Bool) : Bytes :=
  encInt w IGA_ID ++ (encInt w ((if (ctrlArr N k).isSome then 1 else 0) + (if (fieldArr N f).isSome then 2 else 0)) ++
    (encInt w d ++ ((List.finRange d).flatMap (axisBlock w R N) ++
      ((match ctrlArr N k with | some A => vecBlock w S (A.shape.headD 0 - 1) A | none => []) ++
       (match fieldArr N f with | some A => vecBlock w S (A.shape.headD 0) A | none => [])))))

theorem nsdArg_ok {n : Option ℤ} {k : ℕ} (h : n.getD d = k) (h1 : d ≤ k) (h3 : k ≤ 3) : nsdArg d n = .ok k := by
  unfold nsdArg
  rw [h]
  dsimp only
  rw [pyAssert_ok (by omega), res_ok_bind, res_pure, Int.toNat_natCast]

theorem write_control {w : ℕ} {R S : Codec K} {N : Nrb K d} {f : Bool} {n : Option ℤ} {k : ℕ} (h : n.getD d = k)
    (h1 : d ≤ k) (h3 : k ≤ 3) : write w R S N true f n = .ok (fileOf w R S N (some k) f) := by
  unfold write
  simp only [if_true]
  rw [nsdArg_ok h h1 h3]
  rfl

theorem write_plain {w : ℕ} {R S : Codec K} {N : Nrb K d} {f : Bool} {n : Option ℤ} :
    write w R S N false f n = .ok (fileOf w R S N none f) := rfl

theorem compFirst_shape (sh : Fin d → ℤ) (P : (Fin d → ℤ) → ℕ → K) (l : List ℕ) :
    (compFirst sh P l).shape = (l.length : ℤ) :: List.ofFn sh := rfl

theorem compFirst_prod (sh : Fin d → ℤ) (P : (Fin d → ℤ) → ℕ → K) (l : List ℕ) :
    (compFirst sh P l).shape.prod = (l.length : ℤ) * ∏ a, sh a := by
  rw [compFirst_shape, List.prod_cons, List.prod_ofFn]

theorem fieldArr_some {N : Nrb K d} (h : 4 < N.nc) : fieldArr N true = some (compFirst N.shape
    (fun idx c => N.P idx (4 + c) / N.weights idx) (List.range (N.nc - 4))) := by
  unfold fieldArr Nrb.fields
  rw [if_pos rfl, if_neg (by omega)]
  rfl

theorem fieldArr_none {N : Nrb K d} {f : Bool} (h : f = false ∨ N.nc ≤ 4) : fieldArr N f = none := by
  unfold fieldArr Nrb.fields
  rcases h with rfl | h
  · rfl
  · rw [if_pos h]; split <;> rfl

theorem prodShape_pos {w : ℕ} {N : Nrb K d} (h : N.Storable w) : 0 < ∏ a, N.shape a :=
  Finset.prod_pos (fun a _ => by have := h.size a; omega)

theorem tight_file {w : ℕ} (hw : 4 ≤ w) {R S : Codec K} {N : Nrb K d} (h : N.Storable w) {k : Option ℕ}
    (hk : ∀ n, k = some n → d ≤ n ∧ n ≤ 3) {f : Bool} :
    Tight (readRaw w R S) ⟨d, rawOf R S N k f⟩ (fileOf w R S N k f) := by
  obtain ⟨⟨d1, d3⟩, hs, hp, hc, hl, ht⟩ := h
  have hpos : 0 < ∏ a, N.shape a := prodShape_pos ⟨⟨d1, d3⟩, hs, hp, hc, hl, ht⟩
  have hdi : IntFits w (d : ℤ) := intFits_small hw (by omega) (by omega)
  have hA := tight_axes (fun a => tight_axis (w := w) (R := R) (N := N) a (hp a) (hs a) (hl a))
  -- the two optional blocks
  have hC : Tight (opt (ctrlArr N k).isSome (readControl w S d))
      ((ctrlArr N k).map (fun A => (A.shape.headD 0 - 1, (ravelF A).map S.round)))
      (match ctrlArr N k with | some A => vecBlock w S (A.shape.headD 0 - 1) A | none => []) := by
    cases k with
    | none => exact tight_opt_none
    | some n =>
      obtain ⟨n1, n3⟩ := hk n rfl
      refine tight_opt_some (tight_vec (c := fun n : ℤ => (d : ℤ) ≤ n ∧ n ≤ 3) hw ?_ ?_ ?_ ?_)
      · simp only [compFirst_shape, List.headD_cons, List.length_append, List.length_range, List.length_singleton]
        exact intFits_small hw (by omega) (by omega)
      · simp only [compFirst_shape, List.headD_cons, List.length_append, List.length_range, List.length_singleton]
        omega
      · rw [compFirst_prod]; positivity
      · rw [compFirst_prod]
        refine intFits_mono ht (by positivity) (mul_le_mul_of_nonneg_right ?_ hpos.le)
        simp only [List.length_append, List.length_range, List.length_singleton]
        omega
  have hF : Tight (opt (fieldArr N f).isSome (readFields w S))
      ((fieldArr N f).map (fun A => (A.shape.headD 0, (ravelF A).map S.round)))
      (match fieldArr N f with | some A => vecBlock w S (A.shape.headD 0) A | none => []) := by
    by_cases hn : f = false ∨ N.nc ≤ 4
    · rw [fieldArr_none hn]; exact tight_opt_none
    · simp only [not_or, Bool.not_eq_false, not_le] at hn
      obtain ⟨rfl, hn⟩ := hn
      rw [fieldArr_some hn]
      have hpr : ((N.nc - 4 : ℕ) : ℤ) ≤ (N.nc : ℤ) * ∏ a, N.shape a := by
        have : ((N.nc - 4 : ℕ) : ℤ) ≤ N.nc := by omega
        nlinarith
      refine tight_opt_some (tight_vec (c := fun n : ℤ => 1 ≤ n) hw ?_ ?_ ?_ ?_)
      · simp only [compFirst_shape, List.headD_cons, List.length_range]
        exact intFits_mono ht (by omega) hpr
      · simp only [compFirst_shape, List.headD_cons, List.length_range]
        omega
      · rw [compFirst_prod]; positivity
      · rw [compFirst_prod]
        refine intFits_mono ht (by positivity) (mul_le_mul_of_nonneg_right ?_ hpos.le)
        simp only [List.length_range]
        omega
  -- the flags
  have hb1 : decide (((if (ctrlArr N k).isSome then 1 else 0) + (if (fieldArr N f).isSome then 2 else 0) : ℤ) % 2 = 1) =
      (ctrlArr N k).isSome := by
    cases (ctrlArr N k).isSome <;> cases (fieldArr N f).isSome <;> rfl
  have hb2 : decide (((if (ctrlArr N k).isSome then 1 else 0) + (if (fieldArr N f).isSome then 2 else 0) : ℤ) / 2 % 2 = 1) =
      (fieldArr N f).isSome := by
    cases (ctrlArr N k).isSome <;> cases (fieldArr N f).isSome <;> rfl
  have hi : IntFits w ((if (ctrlArr N k).isSome then 1 else 0) + (if (fieldArr N f).isSome then 2 else 0)) := by
    apply intFits_small hw <;> split_ifs <;> omega
  unfold readRaw fileOf
  refine (Tight.int (intFits_small hw (by decide) (by decide))).bind ?_
  refine Tight.guard rfl ?_
  refine (Tight.int hi).bind ?_
  refine (Tight.int hdi).bind ?_
  refine Tight.guard (by omega) ?_
  refine Tight.bind (x := axisVal R N) hA ?_
  rw [hb1, hb2]
  refine hC.bind ?_
  have := hF.bind (f := fun F => (Pure.pure (⟨d, axisVal R N,
    (ctrlArr N k).map (fun A => (A.shape.headD 0 - 1, (ravelF A).map S.round)), F⟩ : (d : ℕ) × Raw K d) : Rd _)) (Tight.pure _)
  rw [List.append_nil] at this
  exact this

/-- the constructor with a homogeneous net and fields, explicitly -/
theorem ctor_homog {knots : Fin d → Nd K} {C : Nd K} {F : Option (Nd K)} {sh len : Fin d → ℤ} {nf : ℕ}
    (h1 : 1 ≤ d) (h3 : d ≤ 3) (hk : ∀ a, (knots a).shape = [len a]) (hlen : ∀ a, 4 ≤ len a)
    (hC : C.shape = List.ofFn sh ++ [4]) (hdeg : ∀ a, 1 ≤ len a - sh a - 1)
    (hF : ∀ f, F = some f → f.shape = List.ofFn sh ++ [(nf : ℤ)]) (hF0 : F = none → nf = 0) :
    ∃ M : Nrb K d, Nrb.ctor knots (.arr C) F none = .ok M ∧ M.shape = sh ∧ M.nc = 4 + nf ∧ M.len = len ∧
      (∀ a j, M.U a j = (knots a).get [j]) ∧ (∀ idx c, c < 4 → M.P idx c = C.get (List.ofFn idx ++ [(c : ℤ)])) ∧
      ∀ f, F = some f → ∀ idx (c : ℕ), M.P idx (4 + c) =
        f.get (List.ofFn idx ++ [(c : ℤ)]) * C.get (List.ofFn idx ++ [3]) := by
  have hl : (fun a => (knots a).shape.headD 0) = len := by funext a; rw [hk a]; rfl
  have hctl : Nrb.ctorControl C none = .ok
      ⟨List.ofFn sh, 4, fun idx c => C.get (idx ++ [(c : ℤ)])⟩ := by
    unfold Nrb.ctorControl
    rw [hC, pyAssert_ok (by simp; omega), res_ok_bind]
    simp only [List.getLastD_concat, List.dropLast_concat]
    rw [pyAssert_ok (by norm_num), res_ok_bind, pyAssert_ok (by norm_num), res_ok_bind, if_neg (by norm_num),
      pyAssert_ok (by rfl), res_ok_bind, res_pure]
  obtain ⟨A, hA, hAs, hAg, hAn, hAf⟩ := ctorFields_ok (sh := sh)
    (H := ⟨List.ofFn sh, 4, fun idx c => C.get (idx ++ [(c : ℤ)])⟩) (F := F) rfl rfl
    (fun f hf => Or.inr ⟨_, hF f hf⟩)
  have hsh : (fun a : Fin d => A.shape.getD a 0) = sh := by funext a; rw [hAs]; simp
  have hnc : A.nc = 4 + nf := by
    cases F with
    | none => rw [hAn rfl, hF0 rfl]
    | some f => exact ((hAf f rfl).2 nf (hF f rfl)).1
  refine ⟨⟨sh, A.nc, len, fun a j => (knots a).get [j], fun idx => A.get (List.ofFn idx)⟩, ?_, rfl, hnc, rfl, fun _ _ => rfl, ?_, ?_⟩
  · unfold Nrb.ctor
    rw [pyAssert_ok h1, res_ok_bind, pyAssert_ok h3, res_ok_bind, pyAssert_ok (fun a => by
      rw [hk a]; exact ⟨rfl, hlen a⟩), res_ok_bind]
    simp only [Nrb.ctorArgs, res_pure, res_ok_bind, Nrb.ctorNet]
    rw [hctl, res_ok_bind, hA, res_ok_bind, pyAssert_ok (by rw [hAs]; simp), res_ok_bind, pyAssert_ok, res_ok_bind, hl, hsh]
    intro a
    have e1 : (knots a).shape.headD 0 = len a := congrFun hl a
    have e2 : A.shape.getD a 0 = sh a := congrFun hsh a
    rw [e1, e2]
    have := hdeg a
    omega
  · intro idx c hc
    exact hAg _ _ hc
  · intro f hf idx c
    exact ((hAf f hf).2 nf (hF f hf)).2 _ _

theorem sizes_rawOf {R S : Codec K} {N : Nrb K d} {k : Option ℕ} {f : Bool} :
    sizes (rawOf R S N k f) = List.ofFn N.shape := by
  unfold sizes
  congr 1
  funext a
  simp only [rawOf, axisVal, Nrb.degree]
  omega

theorem knotList_get {R : Codec K} {N : Nrb K d} {a : Fin d} {j : ℤ} (h0 : 0 ≤ j) (h1 : j < N.len a) :
    ((knotList N a).map R.round).getD j.toNat 0 = R.round (N.U a j) := by
  have hl : j.toNat < (knotList N a).length := by simp [knotList]; omega
  rw [map_getD _ _ hl, List.getD_eq_getElem?_getD, List.getElem?_eq_getElem hl, Option.getD_some]
  simp only [knotList, List.getElem_map, List.getElem_range]
  rw [Int.toNat_of_nonneg h0]

/-- an array written and reshaped again -/
theorem reshape_back {S : Codec K} {sh : Fin d → ℤ} {P : (Fin d → ℤ) → ℕ → K} {l : List ℕ} (hp : 0 ≤ ∏ a, sh a) :
    ∃ A, reshapeF ((ravelF (compFirst sh P l)).map S.round) ((l.length : ℤ) :: List.ofFn sh) = .ok A ∧
      A.shape = (l.length : ℤ) :: List.ofFn sh ∧ ∀ (c : ℕ) idx, c < l.length → (∀ a, 0 ≤ idx a ∧ idx a < sh a) →
        A.get ((c : ℤ) :: List.ofFn idx) = S.round (P idx (l.getD c 0)) := by
  have hprod := compFirst_prod sh P l
  have h0 : 0 ≤ (compFirst sh P l).shape.prod := by rw [hprod]; positivity
  unfold reshapeF
  rw [if_pos (by rw [List.length_map, ravelF_size h0]; rfl)]
  refine ⟨_, rfl, rfl, fun c idx hc hi => ?_⟩
  have hin : InShape (compFirst sh P l).shape ((c : ℤ) :: List.ofFn idx) :=
    inShape_cons (by omega) (inShape_ofFn hi)
  obtain ⟨o1, o2⟩ := offsetF_range hin
  show ((ravelF (compFirst sh P l)).map S.round).getD (offsetF (compFirst sh P l).shape _).toNat 0 = _
  rw [map_getD _ _ (by rw [ravelF_length]; omega), ravelF_get _ hin]
  simp only [compFirst, List.tail_cons, List.headD_cons, Int.toNat_natCast]
  congr 2
  funext a
  simp

theorem buildFields_ok {w : ℕ} {R S : Codec K} {N : Nrb K d} (h : N.Storable w) {k : Option ℕ} {f : Bool} :
    ∃ F, buildFields (rawOf R S N k f) = .ok F ∧
      (F = none → f = false ∨ N.nc ≤ 4) ∧
      ∀ A, F = some A → f = true ∧ 4 < N.nc ∧ A.shape = List.ofFn N.shape ++ [((N.nc - 4 : ℕ) : ℤ)] ∧
        ∀ idx, N.InNet idx → ∀ c < N.nc - 4, A.get (List.ofFn idx ++ [(c : ℤ)]) =
          S.round (N.P idx (4 + c) / N.P idx 3) := by
  have hpos := prodShape_pos h
  unfold buildFields
  by_cases hn : f = false ∨ N.nc ≤ 4
  · simp only [rawOf, fieldArr_none hn, Option.map_none]
    exact ⟨none, rfl, fun _ => hn, fun A hA => by cases hA⟩
  · simp only [not_or, Bool.not_eq_false, not_le] at hn
    obtain ⟨rfl, hn⟩ := hn
    have hsz := sizes_rawOf (R := R) (S := S) (N := N) (k := k) (f := true)
    obtain ⟨A, hA, hAs, hAg⟩ := reshape_back (S := S) (sh := N.shape)
      (P := fun idx c => N.P idx (4 + c) / N.weights idx) (l := List.range (N.nc - 4)) hpos.le
    have hf : (rawOf R S N k true).fields = some (((List.range (N.nc - 4)).length : ℤ),
        (ravelF (compFirst N.shape (fun idx c => N.P idx (4 + c) / N.weights idx) (List.range (N.nc - 4)))).map S.round) := by
      simp only [rawOf, fieldArr_some hn, Option.map_some, compFirst_shape, List.headD_cons]
    rw [hf]
    dsimp only
    rw [hsz, hA, res_ok_bind, res_pure]
    refine ⟨_, rfl, (fun h => by cases h), ?_⟩
    rintro B ⟨⟩
    refine ⟨rfl, hn, ?_, ?_⟩
    · simp [rollLast, hAs]
    · intro idx hi c hc
      simp only [rollLast, List.getLastD_concat, List.dropLast_concat]
      rw [hAg c idx (by simpa using hc) hi]
      have : (List.range (N.nc - 4)).getD c 0 = c := by
        rw [List.getD_eq_getElem?_getD, List.getElem?_range hc, Option.getD_some]
      rw [this]
      rfl

theorem knotArr_rawOf {R S : Codec K} {N : Nrb K d} {k : Option ℕ} {f : Bool} (a : Fin d) {j : ℤ} (h0 : 0 ≤ j)
    (h1 : j < N.len a) : (knotArr (rawOf R S N k f) a).get [j] = R.round (N.U a j) := knotList_get h0 h1

theorem range_concat_getD {k c : ℕ} (h : c < k) : (List.range k ++ [3]).getD c 0 = c := by
  rw [List.getD_eq_getElem?_getD, List.getElem?_append_left (by simpa using h), List.getElem?_range h, Option.getD_some]

theorem range_concat_last {k : ℕ} : (List.range k ++ [3]).getD k 0 = 3 := by
  rw [List.getD_eq_getElem?_getD, List.getElem?_append_right (by simp)]
  simp

theorem build_control {w : ℕ} {R S : Codec K} {N : Nrb K d} (h : N.Storable w) {k : ℕ} (hk : k ≤ 3) {f : Bool} :
    ∃ M, build S (rawOf R S N (some k) f) = .ok M ∧ Nrb.KeptIn R.round S.round k f N M := by
  have hpos := prodShape_pos h
  obtain ⟨F, hF, hF0, hFs⟩ := buildFields_ok (R := R) (S := S) h (k := some k) (f := f)
  have hsz := sizes_rawOf (R := R) (S := S) (N := N) (k := some k) (f := f)
  obtain ⟨A, hA, hAs, hAg⟩ := reshape_back (S := S) (sh := N.shape) (P := N.P) (l := List.range k ++ [3]) hpos.le
  have hC : buildControl S (rawOf R S N (some k) f) = .ok ⟨List.ofFn N.shape ++ [4], fun idx =>
      if idx.getLastD 0 < (k : ℤ) then (rollLast A).get idx
      else if idx.getLastD 0 = 3 then (rollLast A).get (idx.dropLast ++ [(k : ℤ)]) else 0⟩ := by
    have hf : (rawOf R S N (some k) f).control = some ((k : ℤ),
        (ravelF (compFirst N.shape N.P (List.range k ++ [3]))).map S.round) := by
      simp [rawOf, ctrlArr, compFirst_shape]
    unfold buildControl
    rw [hf]
    dsimp only
    have e : (k : ℤ) + 1 = ((List.range k ++ [3]).length : ℤ) := by simp
    rw [hsz, e, hA, res_ok_bind, res_pure]
  have hlen : ∀ a, N.len a = N.shape a + N.degree a + 1 := fun a => by simp only [Nrb.degree]; omega
  obtain ⟨M, hM, m1, m2, m3, m4, m5, m6⟩ := ctor_homog (knots := knotArr (rawOf R S N (some k) f))
    (C := ⟨List.ofFn N.shape ++ [4], fun idx =>
      if idx.getLastD 0 < (k : ℤ) then (rollLast A).get idx
      else if idx.getLastD 0 = 3 then (rollLast A).get (idx.dropLast ++ [(k : ℤ)]) else 0⟩) (F := F) (sh := N.shape) (len := N.len)
    (nf := if F.isSome then N.nc - 4 else 0) h.dim.1 h.dim.2 (fun a => rfl)
    (fun a => by have := h.size a; have := h.degree a; have := hlen a; omega) rfl
    (fun a => by have := h.degree a; have := hlen a; omega)
    (fun g hg => by rw [hg, (hFs g hg).2.2.1]; rfl) (fun hg => by rw [hg]; rfl)
  have hco : ∀ idx, N.InNet idx → ∀ c < k, M.P idx c = S.round (N.P idx c) := by
    intro idx hi c hc
    rw [m5 idx c (by omega)]
    simp only [List.getLastD_concat, rollLast, List.dropLast_concat]
    rw [if_pos (by omega), hAg c idx (by simp; omega) hi, range_concat_getD hc]
  have hwt : ∀ idx, N.InNet idx → M.P idx 3 = S.round (N.P idx 3) := by
    intro idx hi
    rw [m5 idx 3 (by omega)]
    simp only [List.getLastD_concat, rollLast, List.dropLast_concat, Nat.cast_ofNat]
    rw [if_neg (by omega), if_pos trivial, hAg k idx (by simp) hi, range_concat_last]
  refine ⟨M, ?_, m1, m3, ?_, hco, ?_, hwt, ?_, ?_⟩
  · unfold build
    rw [hC, res_ok_bind, hF, res_ok_bind, hM]
  · intro a j h0 h1
    rw [m4, knotArr_rawOf a h0 h1]
  · intro idx hi c hc1 hc2
    rw [m5 idx c (by omega)]
    simp only [List.getLastD_concat]
    rw [if_neg (by omega), if_neg (by omega)]
  · rw [m2]
    have := h.comps
    cases F with
    | none => rcases hF0 rfl with rfl | h4 <;> simp <;> intros <;> omega
    | some g => obtain ⟨rfl, h4, -⟩ := hFs g rfl; simp; omega
  · rintro rfl idx hi c hc1 hc2
    cases F with
    | none =>
      rcases hF0 rfl with h4 | h4
      · cases h4
      · omega
    | some g =>
      obtain ⟨-, h4, g1, g2⟩ := hFs g rfl
      obtain ⟨e, rfl⟩ := Nat.exists_eq_add_of_le hc1
      have hw3 := hwt idx hi
      rw [m5 idx 3 (by omega)] at hw3
      rw [m6 g rfl idx e, g2 idx hi e (by omega), ← hw3]
      rfl

theorem build_plain {w : ℕ} {R S : Codec K} {N : Nrb K d} (h : N.Storable w) (hn : ∀ a, N.degree a < N.shape a) {f : Bool} :
    ∃ M, build S (rawOf R S N none f) = .ok M ∧ Nrb.KeptWithout R.round S.round f N M := by
  obtain ⟨F, hF, hF0, hFs⟩ := buildFields_ok (R := R) (S := S) h (k := none) (f := f)
  have hsz := sizes_rawOf (R := R) (S := S) (N := N) (k := none) (f := f)
  have hlen : ∀ a, N.len a = N.shape a + N.degree a + 1 := fun a => by simp only [Nrb.degree]; omega
  set V : Fin d → ℤ → K := fun a j => ((knotList N a).map R.round).getD j.toNat 0 with hV
  have hX : seqFin (fun a => BSp.Greville ((rawOf R S N none f).axes a).1 (((rawOf R S N none f).axes a).2.1 - 1)
      (fun j => ((rawOf R S N none f).axes a).2.2.getD j.toNat 0)) = .ok (fun a i => greville (N.degree a) (V a) i) := by
    apply seqFin_ok
    intro a
    have h1 := h.degree a
    have h2 := hn a
    have h3 := hlen a
    show (if N.degree a ≥ 1 ∧ N.len a - 1 ≥ 2 * N.degree a + 1 then _ else _) = _
    rw [if_pos ⟨by omega, by omega⟩]
    rfl
  have hC : buildControl S (rawOf R S N none f) = .ok ⟨List.ofFn N.shape ++ [4], fun idx =>
      grevNet (fun a i => S.round (greville (N.degree a) (V a) i)) idx.dropLast (idx.getLastD 0).toNat⟩ := by
    unfold buildControl
    simp only [show (rawOf R S N none f).control = none from rfl]
    rw [hX, res_ok_bind, hsz, res_pure]
    rfl
  obtain ⟨M, hM, m1, m2, m3, m4, m5, m6⟩ := ctor_homog (knots := knotArr (rawOf R S N none f))
    (C := ⟨List.ofFn N.shape ++ [4], fun idx =>
      grevNet (fun a i => S.round (greville (N.degree a) (V a) i)) idx.dropLast (idx.getLastD 0).toNat⟩)
    (F := F) (sh := N.shape) (len := N.len)
    (nf := if F.isSome then N.nc - 4 else 0) h.dim.1 h.dim.2 (fun a => rfl)
    (fun a => by have := h.size a; have := h.degree a; have := hlen a; omega) rfl
    (fun a => by have := h.degree a; have := hlen a; omega)
    (fun g hg => by rw [hg, (hFs g hg).2.2.1]; rfl) (fun hg => by rw [hg]; rfl)
  have hd := h.dim.2
  have hwt : ∀ idx, M.P idx 3 = 1 := by
    intro idx
    rw [m5 idx 3 (by omega)]
    simp only [List.getLastD_concat, List.dropLast_concat, grevNet, Nat.cast_ofNat]
    rw [dif_neg (by simp; omega), if_pos (by rfl)]
  refine ⟨M, ?_, m1, m3, ?_, ?_, ?_, fun idx _ => hwt idx, ?_, ?_⟩
  · unfold build
    rw [hC, res_ok_bind, hF, res_ok_bind, hM]
  · intro a j h0 h1
    rw [m4, knotArr_rawOf a h0 h1]
  · intro idx hi a
    rw [m5 idx a (by have := a.2; omega)]
    simp only [List.getLastD_concat, List.dropLast_concat, grevNet, Int.toNat_natCast]
    rw [dif_pos a.2]
    have e0 : (List.ofFn idx).getD (a : ℕ) 0 = idx a := by simp
    rw [e0]
    congr 1
    have hp := h.degree a
    obtain ⟨p, hpn⟩ := Int.eq_ofNat_of_zero_le (by omega : 0 ≤ N.degree a)
    rw [hpn, Int.toNat_natCast]
    rw [hpn] at hp
    have hp0 : (p : K) ≠ 0 := by exact_mod_cast (by omega : p ≠ 0)
    rw [Int.cast_natCast, eq_div_iff hp0, greville_mul _ _ (by omega)]
    refine Finset.sum_congr rfl (fun j hj => ?_)
    have hj := Finset.mem_range.mp hj
    have := hlen a
    obtain ⟨i1, i2⟩ := hi a
    exact knotList_get (a := a) (by omega) (by omega)
  · intro idx hi c hc1 hc2
    rw [m5 idx c (by omega)]
    simp only [List.getLastD_concat, List.dropLast_concat, grevNet, Int.toNat_natCast]
    rw [dif_neg (by omega), if_neg (by omega)]
  · rw [m2]
    have := h.comps
    cases F with
    | none => rcases hF0 rfl with rfl | h4 <;> simp <;> intros <;> omega
    | some g => obtain ⟨rfl, h4, -⟩ := hFs g rfl; simp; omega
  · rintro rfl idx hi c hc1 hc2
    cases F with
    | none =>
      rcases hF0 rfl with h4 | h4
      · cases h4
      · omega
    | some g =>
      obtain ⟨-, h4, g1, g2⟩ := hFs g rfl
      obtain ⟨e, rfl⟩ := Nat.exists_eq_add_of_le hc1
      have hw3 := hwt idx
      rw [m5 idx 3 (by omega)] at hw3
      rw [m6 g rfl idx e, g2 idx hi e (by omega)]
      refine (congrArg _ hw3).trans (mul_one _)

end PetIGA
end Igakit
