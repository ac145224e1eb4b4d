import Verif.Props.Io

/-! # Vectors and matrices on disk (C43) -/

set_option linter.unusedSectionVars false

namespace Igakit
open PetIGA

variable {V : Type} [Zero V]

/-! ## C order -/

theorem inShape_append {s t i j : List ℤ} (h1 : InShape s i) (h2 : InShape t j) : InShape (s ++ t) (i ++ j) := by
  induction s generalizing i with
  | nil => cases i with
    | nil => exact h2
    | cons => exact h1.elim
  | cons s ss ih => cases i with
    | nil => exact h1.elim
    | cons i is => exact ⟨h1.1, ih h1.2⟩

theorem inShape_reverse {s i : List ℤ} (h : InShape s i) : InShape s.reverse i.reverse := by
  induction s generalizing i with
  | nil => cases i with
    | nil => exact trivial
    | cons => exact h.elim
  | cons s ss ih => cases i with
    | nil => exact h.elim
    | cons i is =>
      rw [List.reverse_cons, List.reverse_cons]
      exact inShape_append (ih h.2) ⟨h.1, trivial⟩

theorem inShape_length {s i : List ℤ} (h : InShape s i) : i.length = s.length := by
  induction s generalizing i with
  | nil => cases i with
    | nil => rfl
    | cons => exact h.elim
  | cons s ss ih => cases i with
    | nil => exact h.elim
    | cons i is => rw [List.length_cons, List.length_cons, ih h.2]

theorem inShape_split {s : List ℤ} {k : ℤ} {i : List ℤ} (h : InShape (s ++ [k]) i) :
    ∃ i' c, i = i' ++ [c] ∧ InShape s i' ∧ 0 ≤ c ∧ c < k := by
  induction s generalizing i with
  | nil => cases i with
    | nil => exact h.elim
    | cons c is =>
      obtain ⟨h1, h2⟩ := h
      cases is with
      | nil => exact ⟨[], c, rfl, trivial, h1⟩
      | cons => exact h2.elim
  | cons s ss ih => cases i with
    | nil => exact h.elim
    | cons i is =>
      obtain ⟨i', c, e, h1, h2⟩ := ih h.2
      exact ⟨i :: i', c, by rw [e]; rfl, ⟨h.1, h1⟩, h2⟩

theorem ravelC_length (A : Nd V) : (ravelC A).length = A.shape.prod.toNat := by simp [ravelC]

theorem ravelC_get (A : Nd V) {idx : List ℤ} (h : InShape A.shape idx) :
    (ravelC A).getD (offsetF A.shape.reverse idx.reverse).toNat 0 = A.get idx := by
  have hr := inShape_reverse h
  obtain ⟨h1, h2⟩ := offsetF_range hr
  rw [List.prod_reverse] at h2
  rw [List.getD_eq_getElem?_getD, List.getElem?_eq_getElem (by rw [ravelC_length]; omega), Option.getD_some]
  simp only [ravelC, List.getElem_map, List.getElem_range]
  rw [Int.toNat_of_nonneg h1, unravelF_offsetF hr, List.reverse_reverse]

/-- `A.reshape(A.shape)` -/
theorem reshapeC_same (A : Nd V) {sh : List ℤ} (hs : A.shape = sh) (hp : 0 ≤ sh.prod) :
    ∃ B, reshapeC (ravelC A) sh = .ok B ∧ B.shape = sh ∧ ∀ idx, InShape sh idx → B.get idx = A.get idx := by
  subst hs
  unfold reshapeC
  rw [if_pos (by rw [ravelC_length]; omega)]
  exact ⟨_, rfl, rfl, fun idx h => ravelC_get A h⟩

theorem inShape_one {s i : List ℤ} {c : ℤ} (h : InShape (s ++ [1]) (i ++ [c])) : c = 0 ∧ InShape s i := by
  obtain ⟨i', c', e, h1, h2⟩ := inShape_split h
  obtain ⟨rfl, e2⟩ := List.append_inj' e rfl
  cases e2
  exact ⟨by omega, h1⟩

/-- appending an axis of length one -/
theorem reshapeC_newaxis (A : Nd V) (hp : 0 ≤ A.shape.prod) :
    ∃ B, reshapeC (ravelC A) (A.shape ++ [1]) = .ok B ∧ B.shape = A.shape ++ [1] ∧
      ∀ idx, InShape A.shape idx → B.get (idx ++ [0]) = A.get idx := by
  unfold reshapeC
  rw [if_pos (by rw [ravelC_length, List.prod_append]; simp; omega)]
  refine ⟨_, rfl, rfl, fun idx h => ?_⟩
  rw [← ravelC_get A h]
  simp only [List.reverse_append, List.reverse_singleton, List.singleton_append, offsetF]
  congr 2
  ring

/-! ## the file -/

theorem tight_vecfile {w : ℕ} (hw : 4 ≤ w) {S : Codec V} {l : List V} (hl : IntFits w l.length) :
    Tight (readVecRaw w S) (l.map S.round) (encInt w VEC_ID ++ (encInt w l.length ++ encList S l)) := by
  unfold readVecRaw
  refine (Tight.int (intFits_small hw (by decide) (by decide))).bind ?_
  refine Tight.guard rfl ?_
  refine (Tight.int hl).bind ?_
  exact Tight.exact (dec := S.dec) S.size_pos S.length_enc l

/-- C43: a vector of length `n` written and read again has length `n` and the same entries, up to the precision of the
file. -/
theorem C43_vec {w : ℕ} (hw : 4 ≤ w) {S : Codec V} {A : Nd V} {n : ℕ} (hA : A.shape = [(n : ℤ)]) (hf : IntFits w n) :
    ∃ bytes B, writeVec w S A none = .ok bytes ∧ readVec w S bytes none = .ok B ∧ B.shape = A.shape ∧
      ∀ i : ℤ, 0 ≤ i → i < n → B.get [i] = S.round (A.get [i]) := by
  have hlen : (ravelC A).length = n := by rw [ravelC_length, hA]; simp
  refine ⟨_, ⟨[(n : ℤ)], fun idx => ((ravelC A).map S.round).getD (idx.headD 0).toNat 0⟩, rfl, ?_, ?_, ?_⟩
  · unfold readVec
    rw [(tight_vecfile hw (l := ravelC A) (by rw [hlen]; exact hf)).whole, res_ok_bind]
    simp only [List.length_map, hlen, res_pure]
  · exact hA.symm
  · intro i h0 h1
    have hin : InShape A.shape [i] := by rw [hA]; exact ⟨⟨h0, h1⟩, trivial⟩
    have := ravelC_get A hin
    rw [hA] at this
    simp only [List.reverse_singleton, offsetF, mul_zero, add_zero] at this
    simp only [List.headD_cons]
    rw [map_getD _ _ (by omega), this]

theorem filter_ne_one {sh : List ℤ} (h : ∀ s ∈ sh, 2 ≤ s) : sh.filter (· ≠ 1) = sh :=
  List.filter_eq_self.mpr (fun s hs => by have := h s hs; simp; omega)

theorem unsqueeze_self {sh idx : List ℤ} (h : ∀ s ∈ sh, s ≠ 1) (hl : idx.length = sh.length) : unsqueeze sh idx = idx := by
  induction sh generalizing idx with
  | nil => cases idx with
    | nil => rfl
    | cons => simp at hl
  | cons s ss ih => cases idx with
    | nil => simp at hl
    | cons i is =>
      unfold unsqueeze
      rw [if_neg (h s List.mem_cons_self), List.headD_cons, List.tail_cons,
        ih (fun t ht => h t (List.mem_cons_of_mem _ ht)) (by simpa using hl)]

theorem unsqueeze_last {sh idx : List ℤ} (h : ∀ s ∈ sh, s ≠ 1) (hl : idx.length = sh.length) :
    unsqueeze (sh ++ [1]) idx = idx ++ [0] := by
  induction sh generalizing idx with
  | nil => cases idx with
    | nil => rfl
    | cons => simp at hl
  | cons s ss ih => cases idx with
    | nil => simp at hl
    | cons i is =>
      rw [List.cons_append, unsqueeze, if_neg (h s List.mem_cons_self), List.headD_cons, List.tail_cons,
        ih (fun t ht => h t (List.mem_cons_of_mem _ ht)) (by simpa using hl)]
      rfl

/-- an array over control points, after the reshape in `write_vec` -/
theorem vec_core {w : ℕ} (hw : 4 ≤ w) {S : Codec V} {A B : Nd V} {sh : List ℤ} {k : ℕ} (h2 : ∀ s ∈ sh, 1 ≤ s)
    (hA : reshapeLast A sh = .ok B) (hB : B.shape = sh ++ [(k : ℤ)]) (hf : IntFits w (k * sh.prod)) :
    ∃ bytes C, writeVec w S A (some sh) = .ok bytes ∧ readVec w S bytes (some sh) = .ok (squeeze (rollLast C)) ∧
      (rollLast C).shape = sh ++ [(k : ℤ)] ∧
      ∀ idx, InShape (sh ++ [(k : ℤ)]) idx → (rollLast C).get idx = S.round (B.get idx) := by
  have hpos : 0 < sh.prod := List.prod_pos (fun s hs => by have := h2 s hs; omega)
  have hsh : (rollFirst B).shape = (k : ℤ) :: sh := by
    simp only [rollFirst, hB, List.getLastD_concat, List.dropLast_concat]
  have hprod : (rollFirst B).shape.prod = k * sh.prod := by rw [hsh, List.prod_cons]
  have hlen : ((ravelF (rollFirst B)).length : ℤ) = k * sh.prod := by
    rw [ravelF_length, hprod]
    exact Int.toNat_of_nonneg (by positivity)
  have hres : reshapeF ((ravelF (rollFirst B)).map S.round) ((k : ℤ) :: sh) = .ok ⟨(k : ℤ) :: sh,
      fun idx => ((ravelF (rollFirst B)).map S.round).getD (offsetF ((k : ℤ) :: sh) idx).toNat 0⟩ := by
    unfold reshapeF
    rw [if_pos (by rw [List.length_map, hlen, List.prod_cons])]
  refine ⟨encInt w VEC_ID ++ (encInt w (ravelF (rollFirst B)).length ++ encList S (ravelF (rollFirst B))), ⟨(k : ℤ) :: sh,
      fun idx => ((ravelF (rollFirst B)).map S.round).getD (offsetF ((k : ℤ) :: sh) idx).toNat 0⟩, ?_, ?_, ?_, ?_⟩
  · unfold writeVec
    simp only [hA, res_ok_bind, res_pure]
  · unfold readVec
    rw [(tight_vecfile hw (l := ravelF (rollFirst B)) (by rw [hlen]; exact hf)).whole, res_ok_bind]
    dsimp only
    rw [List.length_map, hlen, if_pos ⟨hpos.ne', Int.mul_emod_left _ _⟩, Int.mul_ediv_cancel _ hpos.ne', hres, res_ok_bind,
      res_pure]
  · rfl
  · intro idx hi
    obtain ⟨i, c, rfl, h1, h3⟩ := inShape_split hi
    have hin : InShape (rollFirst B).shape (c :: i) := by rw [hsh]; exact ⟨h3, h1⟩
    obtain ⟨o1, o2⟩ := offsetF_range hin
    have hg := ravelF_get (rollFirst B) hin
    rw [hsh] at hg o1 o2
    rw [List.prod_cons] at o2
    simp only [rollLast, List.getLastD_concat, List.dropLast_concat]
    rw [map_getD _ _ (by omega), hg]
    simp only [rollFirst, List.tail_cons, List.headD_cons]

/-- C43: an array with `k ≥ 2` components per control point, written and read with the object, has the same shape and
entries, up to the precision of the file. -/
theorem C43_vec_nurbs {w : ℕ} (hw : 4 ≤ w) {S : Codec V} {A : Nd V} {sh : List ℤ} {k : ℕ} (h2 : ∀ s ∈ sh, 2 ≤ s)
    (hA : A.shape = sh ++ [(k : ℤ)]) (hk : 2 ≤ k) (hf : IntFits w (k * sh.prod)) :
    ∃ bytes B, writeVec w S A (some sh) = .ok bytes ∧ readVec w S bytes (some sh) = .ok B ∧ B.shape = A.shape ∧
      ∀ idx, InShape A.shape idx → B.get idx = S.round (A.get idx) := by
  have hpos : 0 < sh.prod := List.prod_pos (fun s hs => by have := h2 s hs; omega)
  have hpr : A.shape.prod = sh.prod * k := by rw [hA, List.prod_append, List.prod_singleton]
  obtain ⟨B, hB, hBs, hBg⟩ := reshapeC_same A hA (by rw [← hA, hpr]; positivity)
  have hrl : reshapeLast A sh = .ok B := by
    unfold reshapeLast
    rw [hpr, if_pos ⟨hpos.ne', Int.mul_emod_right _ _⟩, Int.mul_ediv_cancel_left _ hpos.ne', hB]
  obtain ⟨bytes, C, e1, e2, e3, e4⟩ := vec_core hw (S := S) (fun s hs => by have := h2 s hs; omega) hrl hBs hf
  have hne : ∀ s ∈ sh ++ [(k : ℤ)], s ≠ 1 := by
    intro s hs
    rcases List.mem_append.mp hs with hs | hs
    · have := h2 s hs; omega
    · rw [List.mem_singleton.mp hs]; omega
  refine ⟨bytes, _, e1, e2, ?_, ?_⟩
  · simp only [squeeze]
    rw [e3, hA]
    exact List.filter_eq_self.mpr (fun s hs => by simpa using hne s hs)
  · intro idx hi
    rw [hA] at hi
    simp only [squeeze]
    rw [e3, unsqueeze_self hne (inShape_length hi), e4 idx hi, hBg idx hi]

/-- C43: an array with one number per control point comes back with the shape of the control net. -/
theorem C43_vec_scalar {w : ℕ} (hw : 4 ≤ w) {S : Codec V} {A : Nd V} (h2 : ∀ s ∈ A.shape, 2 ≤ s) (hf : IntFits w A.shape.prod) :
    ∃ bytes B, writeVec w S A (some A.shape) = .ok bytes ∧ readVec w S bytes (some A.shape) = .ok B ∧ B.shape = A.shape ∧
      ∀ idx, InShape A.shape idx → B.get idx = S.round (A.get idx) := by
  have hpos : 0 < A.shape.prod := List.prod_pos (fun s hs => by have := h2 s hs; omega)
  obtain ⟨B, hB, hBs, hBg⟩ := reshapeC_newaxis A hpos.le
  have hrl : reshapeLast A A.shape = .ok B := by
    unfold reshapeLast
    rw [if_pos ⟨hpos.ne', Int.emod_self⟩, Int.ediv_self hpos.ne', hB]
  obtain ⟨bytes, C, e1, e2, e3, e4⟩ := vec_core hw (S := S) (k := 1) (fun s hs => by have := h2 s hs; omega) hrl hBs (by simpa using hf)
  have hne : ∀ s ∈ A.shape, s ≠ 1 := fun s hs => by have := h2 s hs; omega
  refine ⟨bytes, _, e1, e2, ?_, ?_⟩
  · simp only [squeeze]
    rw [e3, List.filter_append, filter_ne_one h2]
    simp
  · intro idx hi
    have hi' : InShape (A.shape ++ [((1 : ℕ) : ℤ)]) (idx ++ [0]) := inShape_append hi ⟨by norm_num, trivial⟩
    simp only [squeeze]
    rw [e3]
    rw [show unsqueeze (A.shape ++ [((1 : ℕ) : ℤ)]) idx = idx ++ [0] from unsqueeze_last hne (inShape_length hi), e4 _ hi',
      hBg idx hi]

/-- the indices of the axes whose length is not one -/
def longIdx (sh idx : List ℤ) : List ℤ := ((sh.zip idx).filter (fun q => q.1 ≠ 1)).map Prod.snd

theorem unsqueeze_kept {sh idx : List ℤ} (h : InShape sh idx) : unsqueeze sh (longIdx sh idx) = idx := by
  induction sh generalizing idx with
  | nil => cases idx with
    | nil => rfl
    | cons => exact h.elim
  | cons s ss ih => cases idx with
    | nil => exact h.elim
    | cons i is =>
      obtain ⟨h1, h2⟩ := h
      have e := ih h2
      unfold longIdx at e ⊢
      rw [List.zip_cons_cons, List.filter_cons]
      by_cases hs : s = 1
      · subst hs
        simp only [ne_eq, not_true_eq_false, decide_false, Bool.false_eq_true, if_false]
        rw [unsqueeze, if_pos rfl, e]
        congr 1
        omega
      · simp only [ne_eq, hs, not_false_eq_true, decide_true, if_true, List.map_cons]
        rw [unsqueeze, if_neg hs, List.headD_cons, List.tail_cons, e]

/-- C43: whatever the lengths of the axes of the net and the number of components, the array that comes back is the written
one without its axes of length one. -/
theorem C43_vec_squeezed {w : ℕ} (hw : 4 ≤ w) {S : Codec V} {A : Nd V} {sh : List ℤ} {k : ℕ} (h1 : ∀ s ∈ sh, 1 ≤ s)
    (hA : A.shape = sh ++ [(k : ℤ)]) (hf : IntFits w (k * sh.prod)) :
    ∃ bytes B, writeVec w S A (some sh) = .ok bytes ∧ readVec w S bytes (some sh) = .ok B ∧
      B.shape = A.shape.filter (· ≠ 1) ∧
      ∀ idx, InShape A.shape idx → B.get (longIdx A.shape idx) = S.round (A.get idx) := by
  have hpos : 0 < sh.prod := List.prod_pos (fun s hs => by have := h1 s hs; omega)
  have hpr : A.shape.prod = sh.prod * k := by rw [hA, List.prod_append, List.prod_singleton]
  obtain ⟨B, hB, hBs, hBg⟩ := reshapeC_same A hA (by rw [← hA, hpr]; positivity)
  have hrl : reshapeLast A sh = .ok B := by
    unfold reshapeLast
    rw [hpr, if_pos ⟨hpos.ne', Int.mul_emod_right _ _⟩, Int.mul_ediv_cancel_left _ hpos.ne', hB]
  obtain ⟨bytes, C, e1, e2, e3, e4⟩ := vec_core hw (S := S) h1 hrl hBs hf
  refine ⟨bytes, _, e1, e2, ?_, ?_⟩
  · simp only [squeeze]
    rw [e3, hA]
  · intro idx hi
    rw [hA] at hi
    simp only [squeeze]
    rw [e3, hA, unsqueeze_kept hi, e4 idx hi, hBg idx hi]

/-- C43: a truncated vector file is rejected, with or without an object. -/
theorem C43_vec_truncated {w : ℕ} (hw : 4 ≤ w) {S : Codec V} {A : Nd V} {nurbs nurbs' : Option (List ℤ)} {bytes pre : Bytes}
    (hb : writeVec w S A nurbs = .ok bytes) (hf : IntFits w (bytes.length)) (hp : pre <+: bytes) (hne : pre ≠ bytes) :
    ∃ e, readVec w S pre nurbs' = .error e := by
  obtain ⟨l, rfl⟩ : ∃ l : List V, bytes = encInt w VEC_ID ++ (encInt w l.length ++ encList S l) := by
    unfold writeVec at hb
    cases nurbs with
    | none => exact ⟨_, (Except.ok.inj hb).symm⟩
    | some sh =>
      simp only at hb
      cases hr : reshapeLast A sh with
      | error e => rw [hr] at hb; cases hb
      | ok B => rw [hr] at hb; exact ⟨_, (Except.ok.inj hb).symm⟩
  have hl : IntFits w l.length := by
    refine intFits_mono hf (by omega) ?_
    rw [List.length_append, List.length_append, encList, flatMap_length S.length_enc]
    have := S.size_pos
    have : l.length ≤ l.length * S.size := Nat.le_mul_of_pos_right _ this
    omega
  obtain ⟨e, he⟩ := (tight_vecfile hw (S := S) hl).stops pre hp hne
  refine ⟨e, ?_⟩
  unfold readVec
  rw [he]
  rfl

/-! ## matrices -/

/-- the bytes of a matrix in compressed-row format: identifier, number of rows and columns, number of nonzeros, length of
each row, columns, values -/
def matFile (w : ℕ) (S : Codec V) (N : ℤ) (rows cols : List ℤ) (vals : List V) : Bytes :=
  encInt w 1211216 ++ (encInt w rows.length ++ (encInt w N ++ (encInt w cols.length ++
    (rows.flatMap (encInt w) ++ (cols.flatMap (encInt w) ++ vals.flatMap S.enc)))))

theorem readArr_take {α : Type} {s : ℕ} {enc : α → Bytes} {dec : Bytes → α} (hs : 0 < s) (hl : ∀ x, (enc x).length = s)
    (l : List α) (t : Bytes) :
    (readArr s dec l.length).run (l.flatMap enc ++ t) = .ok (l.map (fun x => dec (enc x)), t) := by
  have h := (Tight.exact (dec := dec) hs hl l).reads t
  unfold readExact at h
  obtain ⟨A, t', hA⟩ : ∃ A t', (readArr s dec l.length).run (l.flatMap enc ++ t) = .ok (A, t') := ⟨_, _, rfl⟩
  rw [rd_bind_ok hA] at h
  by_cases hc : (A.length : ℤ) = l.length
  · have h1 : (rdAssert ((A.length : ℤ) = l.length)).run t' = .ok ((), t') := if_pos hc
    rw [rd_bind_ok h1] at h
    rw [hA]
    exact h
  · have h1 : (rdAssert ((A.length : ℤ) = l.length)).run t' = .error .assertion := if_neg hc
    rw [rd_bind_err h1] at h
    cases h

theorem readArr_short {α : Type} {s : ℕ} {dec : Bytes → α} {n : ℕ} {bs : Bytes} (hs : 0 < s) (h : bs.length < n * s) :
    ∃ A, (readArr s dec n).run bs = .ok (A, []) ∧ A.length < n := by
  have hav : bs.length / s < n := (Nat.div_lt_iff_lt_mul hs).mpr h
  refine ⟨(List.range (bs.length / s)).map (fun i => dec ((bs.drop (i * s)).take s)), ?_, ?_⟩
  · show Except.ok _ = _
    rw [if_neg (by omega), Int.toNat_natCast, min_eq_right hav.le, if_pos (Or.inr (by omega))]
  · simpa using hav

theorem map_decInt {w : ℕ} {l : List ℤ} (h : ∀ x ∈ l, IntFits w x) : l.map (fun x => decInt w (encInt w x)) = l := by
  conv_rhs => rw [← List.map_id l]
  exact List.map_congr_left (fun x hx => decInt_encInt (h x hx))

/-- the lengths of the rows -/
theorem tight_rows {α : Type} {w : ℕ} (hw : 0 < w) {rows : List ℤ} (hr : ∀ x ∈ rows, IntFits w x)
    {g : List ℤ → Rd α} (hg : ∀ l t, l.length < rows.length → ∃ e, (g l).run t = .error e) {y : α} {v : Bytes} (h : Tight (g rows) y v) :
    Tight (readArr w (decInt w) rows.length >>= g) y (rows.flatMap (encInt w) ++ v) := by
  have hm := map_decInt hr
  constructor
  · intro t
    rw [List.append_assoc, rd_bind_ok (readArr_take hw (encInt_length w) rows (v ++ t)), hm]
    exact h.reads t
  · intro pre hp hne
    have hlen : (rows.flatMap (encInt w)).length = rows.length * w := flatMap_length (encInt_length w) rows
    rcases Nat.lt_or_ge pre.length (rows.length * w) with hlt | hge
    · obtain ⟨A, h1, h2⟩ := readArr_short (dec := decInt w) hw hlt
      obtain ⟨er, her⟩ := hg A [] h2
      exact ⟨er, by rw [rd_bind_ok h1]; exact her⟩
    · obtain ⟨l, rfl, hl⟩ : ∃ l, pre = rows.flatMap (encInt w) ++ l ∧ l <+: v := by
        rcases prefix_append_cases hp with h1 | h1
        · refine ⟨[], ?_, List.nil_prefix⟩
          rw [List.append_nil]
          exact h1.eq_of_length (le_antisymm h1.length_le (by omega))
        · exact h1
      obtain ⟨er, her⟩ := h.stops l hl (fun h => hne (by rw [h]))
      exact ⟨er, by rw [rd_bind_ok (readArr_take hw (encInt_length w) rows l), hm]; exact her⟩

/-- three integers read at once -/
theorem tight_head {α : Type} {w : ℕ} (hw : 0 < w) {a b c : ℤ} (ha : IntFits w a) (hb : IntFits w b) (hc : IntFits w c)
    {g : List ℤ → Rd α} (hg : ∀ l t, l.length < 3 → ∃ e, (g l).run t = .error e) {y : α} {v : Bytes} (h : Tight (g [a, b, c]) y v) :
    Tight (readArr w (decInt w) 3 >>= g) y (encInt w a ++ (encInt w b ++ (encInt w c ++ v))) := by
  have := tight_rows hw (rows := [a, b, c]) (by simp [ha, hb, hc]) (g := g) hg h
  have e : encInt w a ++ (encInt w b ++ (encInt w c ++ v)) = [a, b, c].flatMap (encInt w) ++ v := by simp [List.flatMap_cons]
  rw [e]
  exact this

theorem rowPtr_length (l : List ℤ) : (rowPtr l).length = l.length + 1 := by simp [rowPtr]

theorem rowPtr_get (l : List ℤ) {i : ℕ} (h : i ≤ l.length) : (rowPtr l).getD i 0 = (l.take i).sum := by
  rw [List.getD_eq_getElem?_getD, List.getElem?_eq_getElem (by rw [rowPtr_length]; omega), Option.getD_some]
  simp only [rowPtr, List.getElem_scanl]
  rw [List.sum_eq_foldl]

theorem rowPtr_last (l : List ℤ) : (rowPtr l).getLastD 0 = l.sum := by
  have := rowPtr_get l le_rfl
  rw [List.take_length] at this
  rw [← this, List.getLastD_eq_getLast?, List.getLast?_eq_getElem?, rowPtr_length, List.getD_eq_getElem?_getD]
  rfl

/-- C43: reading a well formed compressed-row file gives the numbers of rows and columns, row pointers that start at zero,
advance by the length of each row and end at the number of nonzeros, and the columns and values of the file; a strict prefix
of the file is rejected. -/
theorem C43_mat {w : ℕ} (hw : 4 ≤ w) {S : Codec V} {N : ℤ} {rows cols : List ℤ} {vals : List V} (hN : IntFits w N)
    (hM : IntFits w rows.length) (hz : IntFits w cols.length) (hr : ∀ x ∈ rows, IntFits w x) (hc : ∀ x ∈ cols, IntFits w x)
    (hsum : rows.sum = cols.length) (hv : vals.length = cols.length) :
    (∃ AI AV, (readMat w S).run (matFile w S N rows cols vals) = .ok ((((rows.length : ℤ), N), (AI, cols, AV)), []) ∧
      AI.length = rows.length + 1 ∧ AI.getD 0 0 = 0 ∧ AI.getD rows.length 0 = cols.length ∧
      (∀ i < rows.length, AI.getD (i + 1) 0 = AI.getD i 0 + rows.getD i 0) ∧ AV = vals.map S.round) ∧
    ∀ pre, pre <+: matFile w S N rows cols vals → pre ≠ matFile w S N rows cols vals → ∃ e, (readMat w S).run pre = .error e := by
  have key : Tight (readMat w S) (((rows.length : ℤ), N), (rowPtr rows, cols, vals.map S.round)) (matFile w S N rows cols vals) := by
    have hlast : (rowPtr rows).getLastD 0 = cols.length := by rw [rowPtr_last, hsum]
    unfold readMat matFile
    refine (Tight.int (intFits_small hw (by decide) (by decide))).bind ?_
    refine Tight.guard rfl ?_
    refine tight_head (by omega) hM hN hz ?_ ?_
    · intro l t hl
      refine ⟨.value, ?_⟩
      match l, hl with
      | [], _ => rfl
      | [_], _ => rfl
      | [_, _], _ => rfl
    dsimp only
    rw [if_neg (by omega), if_neg (by omega)]
    refine tight_rows (by omega) hr ?_ ?_
    · intro l t hl
      refine ⟨.value, ?_⟩
      rw [if_neg (by omega)]
      rfl
    rw [if_pos rfl]
    refine Tight.guard hlast ?_
    have h1 := Tight.exact (dec := decInt w) (by omega) (encInt_length w) cols
    rw [map_decInt hc] at h1
    refine h1.bind ?_
    have h2 := Tight.exact (dec := S.dec) S.size_pos S.length_enc vals
    rw [hv] at h2
    have h3 := h2.bind (f := fun AV => (Pure.pure (((rows.length : ℤ), N), (rowPtr rows, cols, AV)) :
      Rd ((ℤ × ℤ) × (List ℤ × List ℤ × List V)))) (Tight.pure _)
    rw [List.append_nil] at h3
    exact h3
  refine ⟨⟨_, _, key.whole, rowPtr_length _, ?_, ?_, ?_, rfl⟩, key.stops⟩
  · rw [rowPtr_get _ (Nat.zero_le _)]; rfl
  · rw [rowPtr_get _ le_rfl, List.take_length, hsum]
  · intro i hi
    rw [rowPtr_get _ (by omega), rowPtr_get _ (by omega), List.take_succ, List.sum_append,
      List.getElem?_eq_getElem hi, List.getD_eq_getElem?_getD, List.getElem?_eq_getElem hi]
    simp

/-- C43: a file whose row lengths do not add up to the number of nonzeros is rejected, as is a file with another
identifier. -/
theorem C43_mat_rejects {w : ℕ} (hw : 4 ≤ w) {S : Codec V} {N nz : ℤ} {rows : List ℤ} {t : Bytes} (hN : IntFits w N)
    (hM : IntFits w rows.length) (hz : IntFits w nz) (hr : ∀ x ∈ rows, IntFits w x) (hsum : rows.sum ≠ nz) :
    (readMat w S).run (encInt w 1211216 ++ (encInt w rows.length ++ (encInt w N ++ (encInt w nz ++
      (rows.flatMap (encInt w) ++ t))))) = .error .assertion := by
  unfold readMat
  have h0 := (Tight.int (intFits_small hw (x := MAT_ID) (by decide) (by decide))).reads (encInt w rows.length ++ (encInt w N ++
    (encInt w nz ++ (rows.flatMap (encInt w) ++ t))))
  have h1 := readArr_take (dec := decInt w) (by omega) (encInt_length w) [(rows.length : ℤ), N, nz] (rows.flatMap (encInt w) ++ t)
  rw [map_decInt (by simp [hM, hN, hz])] at h1
  simp only [List.flatMap_cons, List.flatMap_nil, List.append_nil, List.append_assoc] at h1
  have h2 := readArr_take (dec := decInt w) (by omega) (encInt_length w) rows t
  rw [map_decInt hr] at h2
  have h3 : (rdAssert ((rowPtr rows).getLastD 0 = nz)).run t = .error .assertion := if_neg (by rw [rowPtr_last]; exact hsum)
  refine (rd_bind_ok h0).trans ?_
  refine (rd_bind_ok ((Tight.assert (c := MAT_ID = MAT_ID) rfl).reads _)).trans ?_
  refine (rd_bind_ok h1).trans ?_
  dsimp only
  rw [if_neg (by omega), if_neg (by omega), rd_bind_ok h2, if_pos rfl, rd_bind_err h3]

theorem C43_mat_foreign {w : ℕ} {S : Codec V} {bytes : Bytes} (h : decInt w (bytes.take w) ≠ 1211216 ∨ bytes.length < w) :
    ∃ e, (readMat w S).run bytes = .error e := by
  unfold readMat
  by_cases hl : bytes.length < w
  · refine ⟨.index, ?_⟩
    have h0 : (readInt w).run bytes = .error .index := if_pos hl
    exact rd_bind_err h0
  · refine ⟨.assertion, ?_⟩
    have h' := h.resolve_right hl
    have h0 : (readInt w).run bytes = .ok (decInt w (bytes.take w), bytes.drop w) := if_neg hl
    have h1 : (rdAssert (decInt w (bytes.take w) = MAT_ID)).run (bytes.drop w) = .error .assertion := if_neg h'
    rw [rd_bind_ok h0, rd_bind_err h1]

example := C43_vec (w := 4) le_rfl (S := Ex.fixed) (A := ⟨[5], fun i => vec [1, 2, 3, 4, 5 / 2] (i.headD 0)⟩) (n := 5) rfl
  (intFits_small le_rfl (by decide) (by decide))
example := C43_vec_squeezed (w := 8) (by norm_num) (S := Ex.fixed) (A := ⟨[6, 1, 3, 2], fun i => (i.sum : ℚ)⟩) (sh := [6, 1, 3]) (k := 2)
  (by decide) rfl (by constructor <;> norm_num)

example := C43_vec_nurbs (w := 8) (by norm_num) (S := Ex.fixed) (A := ⟨[6, 3, 2], fun i => (i.sum : ℚ)⟩) (sh := [6, 3]) (k := 2)
  (by decide) rfl le_rfl (intFits_small (by norm_num) (by decide) (by decide))
example := C43_vec_scalar (w := 4) le_rfl (S := Ex.fixed) (A := ⟨[6, 3], fun i => (i.sum : ℚ)⟩) (by decide)
  (intFits_small le_rfl (by decide) (by decide))
example := C43_vec_truncated (w := 4) le_rfl (S := Ex.fixed) (A := ⟨[1], fun _ => 1⟩) (nurbs := none) (nurbs' := none)
  (pre := [0, 18]) rfl (intFits_small le_rfl (by decide +kernel) (by decide +kernel)) (by decide +kernel) (by decide +kernel)
/-- two rows with two and one entries -/
example := C43_mat (w := 4) le_rfl (S := Ex.fixed) (N := 3) (rows := [2, 1]) (cols := [0, 2, 1]) (vals := [1, 2, 3])
  (intFits_small le_rfl (by decide) (by decide)) (intFits_small le_rfl (by decide) (by decide))
  (intFits_small le_rfl (by decide) (by decide)) (fun x hx => intFits_small le_rfl (by fin_cases hx <;> decide) (by fin_cases hx <;> decide))
  (fun x hx => intFits_small le_rfl (by fin_cases hx <;> decide) (by fin_cases hx <;> decide)) rfl rfl
example := C43_mat_rejects (w := 4) le_rfl (S := Ex.fixed) (N := 3) (nz := 4) (rows := [2, 1]) (t := [])
  (intFits_small le_rfl (by decide) (by decide)) (intFits_small le_rfl (by decide) (by decide))
  (intFits_small le_rfl (by decide) (by decide)) (fun x hx => intFits_small le_rfl (by fin_cases hx <;> decide) (by fin_cases hx <;> decide))
  (by decide)
example := C43_mat_foreign (w := 4) (S := Ex.fixed) (bytes := encInt 4 1211299) (Or.inl (by decide))

end Igakit
