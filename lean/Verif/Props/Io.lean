import Verif.Proofs.Io
import Verif.Proofs.Tensor
import Verif.Props.Nurbs
import Verif.Spec.Examples
import Mathlib.Data.Rat.Floor

/-! # Files in PetIGA format (C41, C42) -/

set_option linter.unusedSectionVars false

namespace Igakit
open Spec PetIGA

variable {K : Type} [Field K] [LinearOrder K] [IsStrictOrderedRing K] {d : ℕ}

namespace PetIGA

theorem read_file {w : ℕ} (hw : 4 ≤ w) {R S : Codec K} {N : Nrb K d} (h : N.Storable w) {k : Option ℕ}
    (hk : ∀ n, k = some n → d ≤ n ∧ n ≤ 3) {f : Bool} {M : Nrb K d} (hM : build S (rawOf R S N k f) = .ok M) :
    read w R S (fileOf w R S N k f) = .ok ⟨d, M⟩ := by
  unfold PetIGA.read
  rw [(tight_file hw h hk).whole, res_ok_bind]
  dsimp only
  rw [hM, res_ok_bind, res_pure]

end PetIGA

/-- C41: an object written with its control points and read again (with the same widths) has the same shape and degrees,
its knots, weights and the first `nsd` coordinates up to the precision of the file, zeros for the other coordinates, and its
fields up to that precision if they were written.  `nsd` defaults to the dimension. -/
theorem C41_roundtrip {w : ℕ} (hw : 4 ≤ w) {R S : Codec K} {N : Nrb K d} (h : N.Storable w) {nsd : Option ℤ} {k : ℕ}
    (hk : nsd.getD d = k) (h1 : d ≤ k) (h3 : k ≤ 3) (f : Bool) :
    ∃ bytes M, write w R S N true f nsd = .ok bytes ∧ read w R S bytes = .ok ⟨d, M⟩ ∧
      Nrb.KeptIn R.round S.round k f N M := by
  obtain ⟨M, hM, hK⟩ := build_control (R := R) (S := S) h h3 (f := f)
  exact ⟨_, M, write_control hk h1 h3, read_file hw h (by rintro n ⟨⟩; exact ⟨h1, h3⟩) hM, hK⟩

/-- every number of the object is represented exactly in the file -/
structure ExactIn (R S : Codec K) (N : Nrb K d) : Prop where
  knots : ∀ a j, 0 ≤ j → j < N.len a → R.round (N.U a j) = N.U a j
  control : ∀ idx, N.InNet idx → ∀ c < 4, S.round (N.P idx c) = N.P idx c
  fields : ∀ idx, N.InNet idx → ∀ c, 4 ≤ c → c < N.nc → S.round (N.P idx c / N.P idx 3) = N.P idx c / N.P idx 3

/-- C41: when all numbers are represented exactly, an object with nonzero weights written with `nsd=3` is read back
unchanged: shape, knots, control points, weights and fields; and so is its map. -/
theorem C41_exact {w : ℕ} (hw : 4 ≤ w) {R S : Codec K} {N : Nrb K d} (h : N.Storable w) (hx : ExactIn R S N)
    (hw0 : ∀ idx, N.InNet idx → N.P idx 3 ≠ 0) :
    ∃ bytes M, write w R S N true true (some 3) = .ok bytes ∧ read w R S bytes = .ok ⟨d, M⟩ ∧
      M.shape = N.shape ∧ M.len = N.len ∧ M.nc = N.nc ∧ (∀ a j, 0 ≤ j → j < N.len a → M.U a j = N.U a j) ∧
      (∀ idx, N.InNet idx → ∀ c < N.nc, M.P idx c = N.P idx c) ∧
      ∀ x, ∀ c < N.nc, M.eval x c = N.eval x c := by
  obtain ⟨bytes, M, e1, e2, hK⟩ := C41_roundtrip hw (R := R) (S := S) h (nsd := some 3) (k := 3) rfl h.dim.2 le_rfl true
  have hU : ∀ a j, 0 ≤ j → j < N.len a → M.U a j = N.U a j := fun a j h0 h1 => by
    rw [hK.knots a j h0 h1, hx.knots a j h0 h1]
  have hP : ∀ idx, N.InNet idx → ∀ c < N.nc, M.P idx c = N.P idx c := by
    intro idx hi c hc
    rcases Nat.lt_or_ge c 4 with h4 | h4
    · rcases Nat.lt_or_ge c 3 with h3 | h3
      · rw [hK.coord idx hi c h3, hx.control idx hi c h4]
      · obtain rfl : c = 3 := by omega
        rw [hK.weight idx hi, hx.control idx hi 3 h4]
    · rw [hK.fields rfl idx hi c h4 hc, hx.fields idx hi c h4 hc, hx.control idx hi 3 (by omega),
        div_mul_cancel₀ _ (hw0 idx hi)]
  refine ⟨bytes, M, e1, e2, hK.shape, hK.len, by rw [hK.comps]; rfl, hU, hP, fun x c hc => ?_⟩
  have hn : M.n = N.n := by funext a; simp only [Nrb.n, hK.shape]
  have hdeg : ∀ a, M.degree a = N.degree a := fun a => by simp only [Nrb.degree, hK.shape, hK.len]
  have key : ∀ (Q : Nrb K d) (y : Fin d → K), Q.eval y c = tensor Q.n (fun a => (Q.degree a).toNat) Q.U (fun idx => Q.P idx c) y := by
    intro Q y
    simp only [Nrb.eval, tensor, Finset.sum_apply, Pi.smul_apply]
  rw [key, key, hn, show (fun a => (M.degree a).toNat) = fun a => (N.degree a).toNat from by funext a; rw [hdeg]]
  refine tensor_congr (fun a j h0 h1 => hU a j h0 ?_) (fun idx hi => hP idx (fun a => ?_) c hc) x
  · have := h.degree a
    simp only [Nrb.degree, Nrb.n] at this h1 ⊢
    omega
  · have := hi a
    simp only [Nrb.n] at this
    omega

/-- C41: with `nsd` smaller than three a nonzero coordinate beyond `nsd` is not read back. -/
theorem C41_lost {w : ℕ} (hw : 4 ≤ w) {R S : Codec K} {N : Nrb K d} (h : N.Storable w) {nsd : Option ℤ} {k : ℕ}
    (hk : nsd.getD d = k) (h1 : d ≤ k) (f : Bool) {idx : Fin d → ℤ} (hi : N.InNet idx) {c : ℕ} (hc : k ≤ c)
    (hc3 : c < 3) (hP : N.P idx c ≠ 0) :
    ∃ bytes M, write w R S N true f nsd = .ok bytes ∧ read w R S bytes = .ok ⟨d, M⟩ ∧ M.P idx c ≠ N.P idx c := by
  obtain ⟨bytes, M, e1, e2, hK⟩ := C41_roundtrip hw (R := R) (S := S) h hk h1 (by omega) f
  exact ⟨bytes, M, e1, e2, by rw [hK.lost idx hi c hc hc3]; exact hP.symm⟩

/-- C41: without control points the knots and fields are kept; the control points become the averages of `p` consecutive
knots, with weight one. -/
theorem C41_plain {w : ℕ} (hw : 4 ≤ w) {R S : Codec K} {N : Nrb K d} (h : N.Storable w) (hn : ∀ a, N.degree a < N.shape a)
    (nsd : Option ℤ) (f : Bool) :
    ∃ bytes M, write w R S N false f nsd = .ok bytes ∧ read w R S bytes = .ok ⟨d, M⟩ ∧
      Nrb.KeptWithout R.round S.round f N M := by
  obtain ⟨M, hM, hK⟩ := build_plain (R := R) (S := S) h hn (f := f)
  exact ⟨_, M, write_plain, read_file hw h (by rintro n ⟨⟩) hM, hK⟩

/-- C41: `nsd` smaller than the dimension or larger than three is rejected (before the file is opened). -/
theorem C41_rejects {w : ℕ} {R S : Codec K} {N : Nrb K d} {nsd : Option ℤ} (h : nsd.getD d < d ∨ 3 < nsd.getD d) (f : Bool) :
    write w R S N true f nsd = .error .assertion := by
  unfold PetIGA.write
  simp only [if_true]
  unfold nsdArg
  dsimp only
  rw [pyAssert_err (by omega)]
  rfl

/-- C42: every strict prefix of a file written by `write`, with any options, makes `read` raise. -/
theorem C42_truncated {w : ℕ} (hw : 4 ≤ w) {R S : Codec K} {N : Nrb K d} (h : N.Storable w) {control f : Bool}
    {nsd : Option ℤ} {bytes pre : Bytes} (hb : write w R S N control f nsd = .ok bytes) (hp : pre <+: bytes)
    (hne : pre ≠ bytes) : ∃ e, read w R S pre = .error e := by
  obtain ⟨k, hk, rfl⟩ : ∃ k : Option ℕ, (∀ n, k = some n → d ≤ n ∧ n ≤ 3) ∧ bytes = fileOf w R S N k f := by
    cases control with
    | false =>
      rw [write_plain] at hb
      exact ⟨none, by rintro n ⟨⟩, (Except.ok.inj hb).symm⟩
    | true =>
      by_cases hn : nsd.getD d < d ∨ 3 < nsd.getD d
      · rw [C41_rejects hn] at hb; cases hb
      · have e : nsd.getD (d : ℤ) = ((nsd.getD (d : ℤ)).toNat : ℤ) := by omega
        rw [write_control e (by omega) (by omega)] at hb
        refine ⟨some _, ?_, (Except.ok.inj hb).symm⟩
        rintro n ⟨⟩
        omega
  obtain ⟨e, he⟩ := (tight_file hw h hk (R := R) (S := S) (f := f)).stops pre hp hne
  refine ⟨e, ?_⟩
  unfold PetIGA.read
  rw [he]
  rfl

/-- C42: a file whose first integer is not the identifier of the format is rejected, as is a file too short for it. -/
theorem C42_foreign {w : ℕ} {R S : Codec K} {bytes : Bytes} (h : decInt w (bytes.take w) ≠ 1211299 ∨ bytes.length < w) :
    ∃ e, read w R S bytes = .error e := by
  unfold PetIGA.read readRaw
  by_cases hl : bytes.length < w
  · refine ⟨.index, ?_⟩
    have h0 : (readInt w).run bytes = .error .index := if_pos hl
    rw [rd_bind_err h0]
    rfl
  · refine ⟨.assertion, ?_⟩
    have h' := h.resolve_right hl
    have h0 : (readInt w).run bytes = .ok (decInt w (bytes.take w), bytes.drop w) := if_neg hl
    have h1 : (rdAssert (decInt w (bytes.take w) = IGA_ID)).run (bytes.drop w) = .error .assertion := if_neg h'
    rw [rd_bind_ok h0, rd_bind_err h1]
    rfl

theorem encNat_take (v w n : ℕ) : (encNat (w + v) n).take w = encNat w (n / 256 ^ v) := by
  induction v generalizing n with
  | zero => rw [Nat.add_zero, pow_zero, Nat.div_one, List.take_of_length_le (by rw [encNat_length])]
  | succ v ih =>
    rw [show w + (v + 1) = (w + v) + 1 from rfl, encNat, List.take_append_of_le_length (by rw [encNat_length]; omega), ih,
      Nat.div_div_eq_div_mul, pow_succ, mul_comm]

theorem decNat_append (a b : Bytes) : decNat (a ++ b) = decNat a * 256 ^ b.length + decNat b := by
  induction b using List.reverseRecOn with
  | nil => simp [decNat]
  | append_singleton b x ih =>
    rw [← List.append_assoc, decNat_concat, ih, decNat_concat, List.length_append, List.length_singleton, pow_succ]
    ring

/-- C42: a file written with one width of integers is rejected when read with the other. -/
theorem C42_width {R S R' S' : Codec K} {N : Nrb K d} {control f : Bool} {nsd : Option ℤ} {bytes : Bytes} :
    (write 8 R S N control f nsd = .ok bytes → ∃ e, read 4 R' S' bytes = .error e) ∧
    (write 4 R S N control f nsd = .ok bytes → ∃ e, read 8 R' S' bytes = .error e) := by
  have hfile : ∀ w, write w R S N control f nsd = .ok bytes → ∃ info t, bytes = encInt w IGA_ID ++ (encInt w info ++ t) ∧
      (info = 0 ∨ info = 1 ∨ info = 2 ∨ info = 3) := by
    intro w hb
    have hinfo : ∀ k g, ∃ info t, fileOf w R S N k g = encInt w IGA_ID ++ (encInt w info ++ t) ∧
        (info = 0 ∨ info = 1 ∨ info = 2 ∨ info = 3) := by
      intro k g
      refine ⟨_, _, rfl, ?_⟩
      split_ifs <;> simp
    cases control with
    | false =>
      rw [write_plain] at hb
      exact Except.ok.inj hb ▸ hinfo none f
    | true =>
      by_cases hn : nsd.getD d < d ∨ 3 < nsd.getD d
      · rw [C41_rejects hn] at hb; cases hb
      · have e : nsd.getD (d : ℤ) = ((nsd.getD (d : ℤ)).toNat : ℤ) := by omega
        rw [write_control e (by omega) (by omega)] at hb
        exact Except.ok.inj hb ▸ hinfo _ f
  constructor
  · intro hb
    obtain ⟨info, t, rfl, -⟩ := hfile 8 hb
    refine C42_foreign (Or.inl ?_)
    rw [List.take_append_of_le_length (by rw [encInt_length]; omega)]
    have : (encInt 8 IGA_ID).take 4 = encNat 4 ((IGA_ID % 256 ^ 8).toNat / 256 ^ 4) := encNat_take 4 4 _
    rw [this]
    decide
  · intro hb
    obtain ⟨info, t, rfl, hi⟩ := hfile 4 hb
    refine C42_foreign (Or.inl ?_)
    rw [← List.append_assoc, List.take_left' (by rw [List.length_append, encInt_length, encInt_length])]
    rcases hi with rfl | rfl | rfl | rfl <;> decide

/-- C41: an object without fields written without control points is read back as the identity map of its parameter box,
when its knots and their averages are represented exactly. -/
theorem C41_plain_identity {w : ℕ} (hw : 4 ≤ w) {R S : Codec K} {N : Nrb K d} (h : N.Storable w) (hv : N.Valid)
    (hR : ∀ a j, 0 ≤ j → j < N.len a → R.round (N.U a j) = N.U a j)
    (hS : ∀ a i, 0 ≤ i → i < N.shape a → S.round ((∑ j ∈ Finset.range (N.degree a).toNat, N.U a (i + 1 + j)) / (N.degree a : K)) =
      (∑ j ∈ Finset.range (N.degree a).toNat, N.U a (i + 1 + j)) / (N.degree a : K)) (nsd : Option ℤ) :
    ∃ bytes M, write w R S N false false nsd = .ok bytes ∧ read w R S bytes = .ok ⟨d, M⟩ ∧ M.Valid ∧ M.IsIdentity ∧
      ∀ a, M.lo a = N.lo a ∧ M.hi a = N.hi a := by
  have hnd : ∀ a, N.degree a < N.shape a := fun a => by have := (hv a).le; simp only [Nrb.n] at this; omega
  obtain ⟨bytes, M, e1, e2, hK⟩ := C41_plain hw (R := R) (S := S) h hnd nsd false
  have hn : ∀ a, M.n a = N.n a := fun a => by simp only [Nrb.n, hK.shape]
  have hdeg : ∀ a, M.degree a = N.degree a := fun a => by simp only [Nrb.degree, hK.shape, hK.len]
  have hlen : ∀ a, N.len a = N.shape a + N.degree a + 1 := fun a => by simp only [Nrb.degree]; omega
  have hsn : ∀ a, N.shape a = N.n a + 1 := fun a => by simp only [Nrb.n]; omega
  have hU : ∀ a j, 0 ≤ j → j < N.len a → M.U a j = N.U a j := fun a j h0 h1 => by rw [hK.knots a j h0 h1, hR a j h0 h1]
  have hMv : M.Valid := by
    intro a
    rw [hn, hdeg]
    exact validKnots_congr (hv a) (fun j h0 h1 => hU a j h0 (by have := hlen a; have := hsn a; omega))
  refine ⟨bytes, M, e1, e2, hMv, identity_of_grevNet h.dim.2 hMv (by rw [hK.comps]; rfl) ?_, fun a => ?_⟩
  · intro idx c hi hc
    have hin : N.InNet idx := fun a => by have := hi a; rw [hn] at this; have := hsn a; omega
    by_cases hcd : c < d
    · have e := hK.coord idx hin ⟨c, hcd⟩
      simp only at e
      have hsum : (∑ j ∈ Finset.range (N.degree ⟨c, hcd⟩).toNat, R.round (N.U ⟨c, hcd⟩ (idx ⟨c, hcd⟩ + 1 + j))) =
          ∑ j ∈ Finset.range (N.degree ⟨c, hcd⟩).toNat, N.U ⟨c, hcd⟩ (idx ⟨c, hcd⟩ + 1 + j) := by
        refine Finset.sum_congr rfl (fun j hj => hR _ _ ?_ ?_)
        · have := (hin ⟨c, hcd⟩).1; omega
        · have := Finset.mem_range.mp hj
          have := (hin ⟨c, hcd⟩).2
          have := hlen ⟨c, hcd⟩
          omega
      rw [e, hsum, hS _ _ (hin _).1 (hin _).2]
      unfold grevNet
      rw [dif_pos hcd]
      have e0 : (List.ofFn idx).getD c 0 = idx ⟨c, hcd⟩ := by
        rw [List.getD_eq_getElem?_getD, List.getElem?_eq_getElem (by simpa using hcd)]
        simp
      rw [e0]
      dsimp only
      rw [hdeg]
      obtain ⟨p, hp⟩ := Int.eq_ofNat_of_zero_le (by have := h.degree ⟨c, hcd⟩; omega : 0 ≤ N.degree ⟨c, hcd⟩)
      have hp1 := h.degree ⟨c, hcd⟩
      rw [hp] at hp1 ⊢
      have hp0 : (p : K) ≠ 0 := by exact_mod_cast (by omega : p ≠ 0)
      rw [Int.toNat_natCast, Int.cast_natCast, div_eq_iff hp0, greville_mul _ _ (by omega)]
      refine Finset.sum_congr rfl (fun j hj => (hU _ _ ?_ ?_).symm)
      · have := (hin ⟨c, hcd⟩).1; omega
      · have := Finset.mem_range.mp hj
        have := (hin ⟨c, hcd⟩).2
        have := hlen ⟨c, hcd⟩
        omega
    · unfold grevNet
      rw [dif_neg hcd]
      by_cases h3 : c = 3
      · subst h3
        rw [hK.weight idx hin, if_pos rfl]
      · rw [hK.zero idx hin c (by omega) (by omega), if_neg h3]
  · have h1 := h.degree a
    have h2 := hlen a
    have h3 := hsn a
    have h4 := (hv a).le
    rw [Nrb.lo_eq, Nrb.lo_eq, Nrb.hi_eq, Nrb.hi_eq, hn, hdeg]
    exact ⟨hU a _ (by omega) (by omega), hU a _ (by omega) (by omega)⟩

theorem rd_bind_inv {α β : Type} {r : Rd α} {f : α → Rd β} {bs t : Bytes} {y : β} (h : (r >>= f).run bs = .ok (y, t)) :
    ∃ x t', r.run bs = .ok (x, t') ∧ (f x).run t' = .ok (y, t) := by
  cases hr : r.run bs with
  | error e => rw [rd_bind_err hr] at h; cases h
  | ok q => exact ⟨q.1, q.2, rfl, by rw [rd_bind_ok (x := q.1) (t := q.2) hr] at h; exact h⟩

theorem rd_assert_inv {c : Prop} [Decidable c] {bs t : Bytes} {y : Unit} (h : (rdAssert c).run bs = .ok (y, t)) : c := by
  by_contra hc
  have : (rdAssert c).run bs = .error .assertion := if_neg hc
  rw [this] at h
  cases h

theorem readAxis_inv {w : ℕ} {R : Codec K} {bs t : Bytes} {y : ℤ × ℤ × List K} (h : (readAxis w R).run bs = .ok (y, t)) :
    1 ≤ y.1 ∧ 2 ≤ y.2.1 - y.1 - 1 ∧ (y.2.2.length : ℤ) = y.2.1 := by
  unfold readAxis at h
  obtain ⟨p, t1, -, h⟩ := rd_bind_inv h
  obtain ⟨_, t2, hp, h⟩ := rd_bind_inv h
  obtain ⟨m, t3, -, h⟩ := rd_bind_inv h
  obtain ⟨_, t4, hm, h⟩ := rd_bind_inv h
  obtain ⟨U, t5, hU, h⟩ := rd_bind_inv h
  have e : (p, m, U) = y := congrArg Prod.fst (Except.ok.inj h)
  subst e
  refine ⟨rd_assert_inv hp, rd_assert_inv hm, ?_⟩
  unfold readExact at hU
  obtain ⟨A, t6, -, hU⟩ := rd_bind_inv hU
  obtain ⟨_, t7, hA, hU⟩ := rd_bind_inv hU
  have e : A = U := congrArg Prod.fst (Except.ok.inj hU)
  rw [← e]
  exact rd_assert_inv hA

theorem readAxes_inv {w : ℕ} {R : Codec K} : ∀ {k : ℕ} {bs t : Bytes} {y : Fin k → ℤ × ℤ × List K},
    (readAxes w R k).run bs = .ok (y, t) → ∀ a, 1 ≤ (y a).1 ∧ 2 ≤ (y a).2.1 - (y a).1 - 1
  | 0, _, _, _, _ => fun a => a.elim0
  | k + 1, bs, t, y, h => by
    unfold readAxes at h
    obtain ⟨x, t1, hx, h⟩ := rd_bind_inv h
    obtain ⟨xs, t2, hxs, h⟩ := rd_bind_inv h
    have e : Fin.cons x xs = y := congrArg Prod.fst (Except.ok.inj h)
    have h1 := readAxis_inv hx
    have h2 := readAxes_inv hxs
    subst e
    refine Fin.cases ?_ (fun a => ?_)
    · exact ⟨h1.1, h1.2.1⟩
    · exact h2 a

theorem res_bind_inv {α β : Type} {r : Res α} {f : α → Res β} {y : β} (h : (r >>= f) = .ok y) :
    ∃ x, r = .ok x ∧ f x = .ok y := by
  cases r with
  | error e => cases h
  | ok x => exact ⟨x, rfl, h⟩

theorem buildControl_shape {S : Codec K} {r : Raw K d} {C : Nd K} (h : buildControl S r = .ok C) : C.shape = sizes r ++ [4] := by
  unfold buildControl at h
  split at h
  · obtain ⟨A, -, h⟩ := res_bind_inv h
    rw [← Except.ok.inj h]
  · obtain ⟨A, -, h⟩ := res_bind_inv h
    rw [← Except.ok.inj h]

theorem ctorControl_four {C : Nd K} {l : List ℤ} {H : HNet K} (hC : C.shape = l ++ [4]) (hl : 1 ≤ l.length)
    (h : Nrb.ctorControl C none = .ok H) : H.shape = l ∧ H.nc = 4 := by
  unfold Nrb.ctorControl at h
  rw [hC, pyAssert_ok (by simp; omega), res_ok_bind] at h
  simp only [List.getLastD_concat, List.dropLast_concat] at h
  rw [pyAssert_ok (by norm_num), res_ok_bind, pyAssert_ok (by norm_num), res_ok_bind, if_neg (by norm_num),
    pyAssert_ok (by rfl), res_ok_bind] at h
  obtain rfl := Except.ok.inj h
  exact ⟨rfl, rfl⟩

theorem ctorFields_nc {H A : HNet K} {F : Option (Nd K)} (h : Nrb.ctorFields H F = .ok A) (hn : 4 ≤ H.nc) :
    A.shape = H.shape ∧ 4 ≤ A.nc := by
  unfold Nrb.ctorFields at h
  split at h
  · obtain rfl := Except.ok.inj h
    exact ⟨rfl, hn⟩
  · split at h
    · obtain rfl := Except.ok.inj h
      exact ⟨rfl, Nat.le_add_right 4 _⟩
    · obtain ⟨_, -, h⟩ := res_bind_inv h
      obtain ⟨_, -, h⟩ := res_bind_inv h
      obtain rfl := Except.ok.inj h
      exact ⟨rfl, Nat.le_add_right 4 _⟩

/-- C42: whatever the bytes, an object returned by `read` has one to three axes, on each axis a degree of at least one and
at least two control points, and four homogeneous components at least. -/
theorem C42_accepted {w : ℕ} {R S : Codec K} {bytes : Bytes} {M : Nrb K d} (h : read w R S bytes = .ok ⟨d, M⟩) :
    1 ≤ d ∧ d ≤ 3 ∧ 4 ≤ M.nc ∧ ∀ a, 1 ≤ M.degree a ∧ 2 ≤ M.shape a := by
  unfold PetIGA.read at h
  obtain ⟨⟨⟨d', r⟩, t⟩, hr, h⟩ := res_bind_inv h
  obtain ⟨N, hN, h⟩ := res_bind_inv h
  have e : (⟨d', N⟩ : (d : ℕ) × Nrb K d) = ⟨d, M⟩ := Except.ok.inj h
  obtain ⟨rfl, e⟩ := Sigma.mk.inj_iff.mp e
  obtain rfl := eq_of_heq e
  -- the axes
  have hax : ∀ a, 1 ≤ (r.axes a).1 ∧ 2 ≤ (r.axes a).2.1 - (r.axes a).1 - 1 := by
    unfold readRaw at hr
    obtain ⟨id, t1, -, hr⟩ := rd_bind_inv hr
    obtain ⟨_, t2, -, hr⟩ := rd_bind_inv hr
    obtain ⟨info, t3, -, hr⟩ := rd_bind_inv hr
    obtain ⟨dim, t4, -, hr⟩ := rd_bind_inv hr
    obtain ⟨_, t5, -, hr⟩ := rd_bind_inv hr
    obtain ⟨axes, t6, hx, hr⟩ := rd_bind_inv hr
    obtain ⟨C, t7, -, hr⟩ := rd_bind_inv hr
    obtain ⟨F, t8, -, hr⟩ := rd_bind_inv hr
    have e : (⟨dim.toNat, axes, C, F⟩ : (d : ℕ) × Raw K d) = ⟨d', r⟩ := congrArg Prod.fst (Except.ok.inj hr)
    obtain ⟨rfl, e⟩ := Sigma.mk.inj_iff.mp e
    obtain rfl := eq_of_heq e
    exact readAxes_inv hx
  unfold build at hN
  obtain ⟨C, hC, hN⟩ := res_bind_inv hN
  obtain ⟨F, hF, hN⟩ := res_bind_inv hN
  have hCs := buildControl_shape hC
  unfold Nrb.ctor at hN
  obtain ⟨_, h1, hN⟩ := res_bind_inv hN
  obtain ⟨_, h3, hN⟩ := res_bind_inv hN
  obtain ⟨_, -, hN⟩ := res_bind_inv hN
  dsimp only at hN
  obtain ⟨cw, hcw, hN⟩ := res_bind_inv hN
  obtain rfl := Except.ok.inj hcw
  obtain ⟨H, hH, hN⟩ := res_bind_inv hN
  obtain ⟨A, hA, hN⟩ := res_bind_inv hN
  obtain ⟨_, -, hN⟩ := res_bind_inv hN
  obtain ⟨_, -, hN⟩ := res_bind_inv hN
  obtain rfl := Except.ok.inj hN
  have h1 := pyAssert_ok_iff.mp h1
  have h3 := pyAssert_ok_iff.mp h3
  obtain ⟨hHs, hHn⟩ := ctorControl_four hCs (by simp [sizes]; omega) hH
  obtain ⟨hAs, hAn⟩ := ctorFields_nc hA (by rw [hHn])
  have hsh : ∀ a : Fin d', A.shape.getD a 0 = (r.axes a).2.1 - (r.axes a).1 - 1 := by
    intro a
    rw [hAs, hHs]
    simp [sizes]
  refine ⟨h1, h3, hAn, fun a => ?_⟩
  have := hax a
  simp only [Nrb.degree, hsh]
  constructor
  · show 1 ≤ (r.axes a).2.1 - 1 - _ - 1
    omega
  · exact this.2

/-! ## A concrete file -/

namespace Ex

/-- fixed point numbers with denominator 12 in eight bytes -/
def fixed : Codec ℚ where
  size := 8
  enc := fun x => encInt 8 ⌊12 * x⌋
  dec := fun bs => decInt 8 bs / 12
  size_pos := by norm_num
  length_enc := fun x => encInt_length _ _

theorem fixed_round {x : ℚ} (m : ℤ) (h : 12 * x = m) (h1 : -1000000 ≤ m) (h2 : m ≤ 1000000) : fixed.round x = x := by
  have hm : IntFits 8 m := by constructor <;> norm_num <;> omega
  simp only [Codec.round, fixed]
  rw [h, Int.floor_intCast, decInt_encInt hm, ← h]
  ring

theorem fixed_complex (x : ℚ) : fixed.complex.round x = fixed.round x := by
  simp only [Codec.round, Codec.complex]
  rw [List.take_left' (fixed.length_enc x)]

theorem S_storable {w : ℕ} (hw : 4 ≤ w) : S.Storable w := by
  refine ⟨by decide, by decide, by decide, by decide, ?_, ?_⟩
  · intro a
    fin_cases a <;> exact intFits_small hw (by decide) (by decide)
  · exact intFits_small hw (by decide) (by decide)

theorem S_exact : ExactIn fixed fixed S := by
  refine ⟨?_, ?_, ?_⟩
  · intro a j h0 h1
    fin_cases a
    · have h1 : j < 9 := h1
      interval_cases j <;> decide +kernel
    · have h1 : j < 6 := h1
      interval_cases j <;> decide +kernel
  · intro idx hi c hc
    have a0 : 0 ≤ idx 0 ∧ idx 0 < 6 := hi 0
    have a1 : 0 ≤ idx 1 ∧ idx 1 < 3 := hi 1
    by_cases h3 : c = 3
    · subst h3
      refine fixed_round (12 * (1 + idx 1)) ?_ (by omega) (by omega)
      simp [S]
    · refine fixed_round (12 * ((c + 1) * idx 0 * idx 0 + idx 1 * 3 - c)) ?_ ?_ ?_
      · simp [S, h3]
      all_goals (have hc4 : (c : ℤ) < 4 := by omega
                 nlinarith [mul_nonneg a0.1 a0.1, mul_nonneg (by omega : (0 : ℤ) ≤ c) (mul_nonneg a0.1 a0.1)])
  · intro idx hi c h4 hc
    have a0 : 0 ≤ idx 0 ∧ idx 0 < 6 := hi 0
    have a1 : 0 ≤ idx 1 ∧ idx 1 < 3 := hi 1
    obtain rfl : c = 4 := by have : c < 5 := hc; omega
    have e : S.P idx 4 / S.P idx 3 = ((5 * idx 0 * idx 0 + idx 1 * 3 - 4 : ℤ) : ℚ) / ((1 + idx 1 : ℤ) : ℚ) := by
      simp only [S]; norm_num
    rw [e]
    obtain ⟨x, hx⟩ : ∃ x, idx 0 = x := ⟨_, rfl⟩
    obtain ⟨y, hy⟩ : ∃ y, idx 1 = y := ⟨_, rfl⟩
    rw [hx] at a0 ⊢
    rw [hy] at a1 ⊢
    obtain ⟨h1, h2⟩ := a0
    obtain ⟨h3, h4⟩ := a1
    interval_cases x <;> interval_cases y <;> decide +kernel

end Ex

theorem Ex.S_weights_ne : ∀ idx, Ex.S.InNet idx → Ex.S.P idx 3 ≠ 0 := by
  intro idx hi
  have h : 0 ≤ idx 1 := (hi 1).1
  have e : Ex.S.P idx 3 = ((1 + idx 1 : ℤ) : ℚ) := by simp [Ex.S]
  rw [e]
  exact_mod_cast (by omega : 1 + idx 1 ≠ 0)

example := C41_exact (w := 4) le_rfl (Ex.S_storable le_rfl) Ex.S_exact Ex.S_weights_ne
example := C41_exact (w := 8) (by norm_num) (Ex.S_storable (by norm_num)) Ex.S_exact Ex.S_weights_ne
/-- complex scalars -/
example := C41_roundtrip (w := 4) le_rfl (R := Ex.fixed) (S := Ex.fixed.complex) (Ex.S_storable le_rfl) (nsd := none) (k := 2) rfl
  le_rfl (by norm_num) true
example := C41_plain (w := 4) le_rfl (R := Ex.fixed) (S := Ex.fixed) (Ex.S_storable le_rfl) (by decide) none true
/-- the third coordinate of a control point of the surface is lost by default -/
example := C41_lost (w := 4) le_rfl (R := Ex.fixed) (S := Ex.fixed) (Ex.S_storable le_rfl) (nsd := none) (k := 2) rfl le_rfl true
  (idx := ![1, 0]) (fun a => by fin_cases a <;> decide) (c := 2) le_rfl (by norm_num) (by decide +kernel)
example := C41_rejects (w := 4) (R := Ex.fixed) (S := Ex.fixed) (N := Ex.S) (nsd := some 1) (Or.inl (by decide)) true
example := C42_truncated (w := 4) le_rfl (R := Ex.fixed) (S := Ex.fixed) (Ex.S_storable le_rfl) (control := true) (f := true)
  (nsd := none) (write_control rfl le_rfl (by norm_num)) (List.take_prefix 100 _)
/-- a vector file is not an object file -/
example := C42_foreign (w := 4) (R := Ex.fixed) (S := Ex.fixed) (bytes := encInt 4 1211214) (Or.inl (by decide))
example := (C42_width (R := Ex.fixed) (S := Ex.fixed) (R' := Ex.fixed) (S' := Ex.fixed) (N := Ex.S)).1 (write_plain (f := true) (n := none))

example := C41_plain_identity (w := 4) le_rfl (R := Ex.fixed) (S := Ex.fixed) (Ex.S_storable le_rfl) Ex.S_valid Ex.S_exact.knots
  (by intro a i h0 h1; fin_cases a
      · have h1 : i < 6 := h1
        interval_cases i <;> decide +kernel
      · have h1 : i < 3 := h1
        interval_cases i <;> decide +kernel) none
example : ∃ M : Nrb ℚ 2, 4 ≤ M.nc ∧ ∀ a, 1 ≤ M.degree a ∧ 2 ≤ M.shape a := by
  obtain ⟨bytes, M, -, h, -⟩ := C41_exact (w := 4) le_rfl (Ex.S_storable le_rfl) Ex.S_exact Ex.S_weights_ne
  exact ⟨M, (C42_accepted h).2.2⟩

end Igakit
