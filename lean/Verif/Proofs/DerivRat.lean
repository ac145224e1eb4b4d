import Verif.Proofs.DerivLoops

set_option linter.unusedSectionVars false

/-!
# `TensorProd` and `Rationalize` on storage
-/

namespace Igakit

variable {K : Type} [Field K] [LinearOrder K]

/-! ## directions -/

/-- directions as Fortran indices -/
def enc {d : ℕ} (F : List (Fin d)) : List ℤ := F.map (fun i : Fin d => ((i : ℕ) : ℤ))

theorem tpCode_lt {d : ℕ} (F : List (Fin d)) : tpCode F < d ^ F.length := by
  induction F with
  | nil => simp [tpCode]
  | cons i F ih =>
    simp only [tpCode, List.length_cons, pow_succ]
    have hi := i.isLt
    nlinarith

theorem tpCode_inj {d : ℕ} {F G : List (Fin d)} (hl : F.length = G.length) (h : tpCode F = tpCode G) : F = G := by
  induction F generalizing G with
  | nil => exact (List.length_eq_zero_iff.mp hl.symm).symm
  | cons i F ih =>
    cases G with
    | nil => simp at hl
    | cons j G =>
      simp only [tpCode] at h
      have h2 : ((i : ℕ) : ℤ) + (d : ℤ) * (tpCode F : ℕ) = ((j : ℕ) : ℤ) + (d : ℤ) * (tpCode G : ℕ) := by exact_mod_cast h
      obtain ⟨e1, e2⟩ := off_inj (by positivity) (by exact_mod_cast i.isLt) (by positivity) (by exact_mod_cast j.isLt) h2
      rw [ih (by simpa using hl) (by exact_mod_cast e2), Fin.ext (by exact_mod_cast e1 : (i : ℕ) = j)]

theorem tpCode_surj {d : ℕ} (k : ℕ) {c : ℕ} (h : c < d ^ k) : ∃ F : List (Fin d), F.length = k ∧ tpCode F = c := by
  induction k generalizing c with
  | zero => exact ⟨[], rfl, by simp at h; simp [tpCode, h]⟩
  | succ k ih =>
    have hd : 0 < d := by
      rcases Nat.eq_zero_or_pos d with h0 | h0
      · subst h0; simp at h
      · exact h0
    obtain ⟨F, h1, h2⟩ := ih (c := c / d) (Nat.div_lt_of_lt_mul (by rwa [pow_succ, mul_comm] at h))
    refine ⟨⟨c % d, Nat.mod_lt _ hd⟩ :: F, by simp [h1], ?_⟩
    simp only [tpCode, h2]
    exact Nat.mod_add_div c d

/-- offset of the entry for directions `F` and local function `a` -/
def rOff {d : ℕ} (F : List (Fin d)) (a : ℤ) : ℤ := (tpCode F : ℤ) + (d : ℤ) ^ F.length * a

theorem rOff_inj {d : ℕ} {F G : List (Fin d)} (hl : F.length = G.length) {a b : ℤ} (h : rOff F a = rOff G b) : F = G ∧ a = b := by
  unfold rOff at h
  rw [← hl] at h
  obtain ⟨h1, h2⟩ := off_inj (by positivity) (by exact_mod_cast tpCode_lt F) (by positivity)
    (by rw [hl]; exact_mod_cast tpCode_lt G) h
  exact ⟨tpCode_inj hl (by exact_mod_cast h1), h2⟩

theorem rOff_range {d : ℕ} (F : List (Fin d)) {a nen : ℤ} (h1 : 0 ≤ a) (h2 : a < nen) :
    0 ≤ rOff F a ∧ rOff F a < (d : ℤ) ^ F.length * nen :=
  off_lt (by positivity) (by exact_mod_cast tpCode_lt F) h1 h2

theorem rOff_surj {d k : ℕ} {nen o : ℤ} (h0 : 0 ≤ o) (h : o < (d : ℤ) ^ k * nen) :
    ∃ (F : List (Fin d)) (a : ℤ), F.length = k ∧ 0 ≤ a ∧ a < nen ∧ rOff F a = o := by
  have hm : 0 < (d : ℤ) ^ k := by
    rcases (by positivity : 0 ≤ (d : ℤ) ^ k).eq_or_lt with h1 | h1
    · rw [← h1] at h; omega
    · exact h1
  have hb := Int.emod_lt_of_pos o hm
  have hb0 := Int.emod_nonneg o hm.ne'
  obtain ⟨F, h1, h2⟩ := tpCode_surj (d := d) k (c := (o % (d : ℤ) ^ k).toNat) (by
    have : ((o % (d : ℤ) ^ k).toNat : ℤ) < ((d ^ k : ℕ) : ℤ) := by push_cast; omega
    exact_mod_cast this)
  refine ⟨F, o / (d : ℤ) ^ k, h1, Int.ediv_nonneg h0 hm.le, Int.ediv_lt_of_lt_mul hm (by rwa [mul_comm]), ?_⟩
  unfold rOff
  rw [h1, h2, Int.toNat_of_nonneg hb0]
  exact Int.emod_add_mul_ediv o _

theorem cm_dirs {d : ℕ} (F : List (Fin d)) (l : List (ℤ × ℤ)) {o : ℤ} (h : cm l = .ok o) :
    cm ((enc F).map (fun i => (i, (d : ℤ))) ++ l) = .ok ((tpCode F : ℤ) + (d : ℤ) ^ F.length * o) := by
  induction F with
  | nil => simpa [enc, tpCode] using h
  | cons i F ih =>
    simp only [enc, List.map_cons, List.cons_append, cm]
    rw [if_pos ⟨by positivity, by exact_mod_cast i.isLt⟩]
    have : cm ((enc F).map (fun i => (i, (d : ℤ))) ++ l) = .ok ((tpCode F : ℤ) + (d : ℤ) ^ F.length * o) := ih
    unfold enc at this
    rw [this, ok_bind]
    congr 1
    simp only [tpCode, List.length_cons]
    push_cast
    ring

theorem cm_enc {d : ℕ} (F : List (Fin d)) : cm ((enc F).map (fun i => (i, (d : ℤ)))) = .ok (tpCode F : ℤ) := by
  have := cm_dirs F [] (o := 0) rfl
  simpa using this

theorem ratOff_ok {d : ℕ} (F : List (Fin d)) {a nen : ℤ} (h1 : 0 ≤ a) (h2 : a < nen) :
    ratOff d nen (enc F) a = .ok (rOff F a) :=
  cm_dirs F _ (cm_one h1 h2)

theorem ratTerms_enc {d : ℕ} (F : List (Fin d)) :
    ratTerms (enc F) = (ratTerms F).map (fun t => (enc t.1, enc t.2)) := by
  match F with
  | [] => rfl
  | [_] => rfl
  | [_, _] => rfl
  | [_, _, _] => rfl
  | [_, _, _, _] => rfl
  | _ :: _ :: _ :: _ :: _ :: _ => rfl

theorem ratTerms_len {d : ℕ} (F : List (Fin d)) : ∀ t ∈ ratTerms F,
    t.1.length < F.length ∧ 1 ≤ t.2.length ∧ (t.2.length < F.length ∨ t.2 = F) := by
  match F with
  | [] => simp [ratTerms]
  | [_] => simp [ratTerms]
  | [_, _] => simp [ratTerms]
  | [_, _, _] => simp [ratTerms]
  | [_, _, _, _] => simp [ratTerms]
  | _ :: _ :: _ :: _ :: _ :: _ => simp [ratTerms]

theorem enc_length {d : ℕ} (F : List (Fin d)) : (enc F).length = F.length := by simp [enc]

theorem enc_inj {d : ℕ} {F G : List (Fin d)} (h : enc F = enc G) : F = G := by
  unfold enc at h
  exact List.map_injective_iff.mpr (fun a b h => Fin.ext (by exact_mod_cast h)) h

/-- the rounds of the nest over directions -/
theorem exists_dirs {d k : ℕ} {q : Fin k → ℤ} (h : ∀ a, 0 ≤ q a ∧ q a ≤ (d : ℤ) - 1) :
    ∃ F : List (Fin d), F.length = k ∧ enc F = (List.ofFn q).reverse := by
  have key : ∀ l : List ℤ, (∀ x ∈ l, 0 ≤ x ∧ x ≤ (d : ℤ) - 1) → ∃ F : List (Fin d), enc F = l := by
    intro l
    induction l with
    | nil => intro _; exact ⟨[], rfl⟩
    | cons x l ih =>
      intro hl
      obtain ⟨F, hF⟩ := ih (fun y hy => hl y (by simp [hy]))
      have hx := hl x (by simp)
      refine ⟨⟨x.toNat, by omega⟩ :: F, ?_⟩
      unfold enc at *
      rw [List.map_cons, hF]
      congr 1
      simp only
      omega
  obtain ⟨F, hF⟩ := key (List.ofFn q).reverse (by
    intro x hx
    rw [List.mem_reverse] at hx
    obtain ⟨a, rfl⟩ := (List.mem_ofFn' _ _).mp hx
    exact h a)
  refine ⟨F, ?_, hF⟩
  rw [← enc_length, hF]; simp

theorem dirs_idx {d : ℕ} (F : List (Fin d)) : ∃ q : Fin F.length → ℤ, (∀ a, 0 ≤ q a ∧ q a ≤ (d : ℤ) - 1) ∧
    enc F = (List.ofFn q).reverse := by
  refine ⟨fun a => ((F.reverse.get (a.cast (by simp)) : ℕ) : ℤ), fun a => ?_, ?_⟩
  · have := (F.reverse.get (a.cast (by simp))).isLt
    dsimp only
    omega
  · rw [eq_comm, List.reverse_eq_iff]
    apply List.ext_getElem
    · simp [enc]
    · intro n h1 h2
      simp [enc]

/-! ## `Rationalize` -/

section
variable {d : ℕ} {nen : ℤ}

/-- `R = R / W0` -/
theorem ratDivC_ok (W0 : K) (R : Flat K) : ∃ R', ratDivC W0 R = .ok R' ∧ R'.size = R.size ∧
    ∀ o, 0 ≤ o → o < R.size → R'.val o = R.val o / W0 := by
  unfold ratDivC
  obtain ⟨R', h1, h2, h3⟩ := forUpC_indep (fun S : Flat K => S.size = R.size) (fun o S => S.val o = R.val o)
    (fun o S => S.val o = R.val o / W0) (lo := 0) (hi := R.size - 1) (s := R)
    (f := fun o (R : Flat K) => do
      let x ← R.get o
      R.set o (x / W0)) rfl (fun _ _ _ => rfl)
    (by
      intro o S a b hS hP
      refine ⟨⟨S.size, upd S.val o (S.val o / W0)⟩, ?_, hS, ?_, ?_⟩
      · rw [Flat.get_ok (by omega), ok_bind, Flat.set_ok (by omega)]
      · simp [upd, hP]
      · intro j _ _ hj
        simp [upd, hj])
  exact ⟨R', h1, h2, fun o a b => h3 o a (by omega)⟩

variable (d nen) in
/-- the values stored for directions `F` -/
def Holds (R : ℕ → Flat K) (ν : List (Fin d) → ℤ → K) (k : ℕ) : Prop :=
  (R k).size = (d : ℤ) ^ k * nen ∧ ∀ F : List (Fin d), F.length = k → ∀ a, 0 ≤ a → a < nen → (R k).val (rOff F a) = ν F a

variable (d) in
/-- the sums stored for directions `F` -/
def HoldsW (W : ℕ → Flat K) (ω : List (Fin d) → K) (k : ℕ) : Prop :=
  (W k).size = (d : ℤ) ^ k ∧ ∀ F : List (Fin d), F.length = k → (W k).val (tpCode F) = ω F

/-- the value before the division by `W0` -/
def ratPre (w : ℤ → K) (ν ρ : List (Fin d) → ℤ → K) (ω : List (Fin d) → K) (F : List (Fin d)) (a : ℤ) : K :=
  (ratTerms F).foldl (fun v t => v - ρ t.1 a * ω t.2) (w a * ν F a)

theorem ratRoundC_ok {W : Flat K} (hW : W.size = nen) {k : ℕ} {ν ρ : List (Fin d) → ℤ → K} {ω : List (Fin d) → K}
    (hω : ∀ F, ω F = ∑ a ∈ Finset.Ico 0 nen, W.val a * ν F a) {s : (ℕ → Flat K) × (ℕ → Flat K)}
    (hsz : (s.1 k).size = (d : ℤ) ^ k * nen) (hsw : (s.2 k).size = (d : ℤ) ^ k) (hρ : ∀ j, j < k → Holds d nen s.1 ρ j)
    (hwt : ∀ j, 1 ≤ j → j < k → HoldsW d s.2 ω j) {F : List (Fin d)} (hF : F.length = k)
    (hν : ∀ a, 0 ≤ a → a < nen → (s.1 k).val (rOff F a) = ν F a) :
    ∃ s', ratRoundC d nen W k (enc F) s = .ok s' ∧ (∀ j, j ≠ k → s'.1 j = s.1 j ∧ s'.2 j = s.2 j) ∧
      (s'.1 k).size = (s.1 k).size ∧ (s'.2 k).size = (s.2 k).size ∧
      (∀ a, 0 ≤ a → a < nen → (s'.1 k).val (rOff F a) = ratPre W.val ν ρ ω F a) ∧ (s'.2 k).val (tpCode F) = ω F ∧
      (∀ G : List (Fin d), G.length = k → G ≠ F → (s'.2 k).val (tpCode G) = (s.2 k).val (tpCode G) ∧
        ∀ a, (s'.1 k).val (rOff G a) = (s.1 k).val (rOff G a)) := by
  unfold ratRoundC
  rw [sumC_ok (g := fun a => W.val a * ν F a) (by
    intro a h1 h2
    rw [ratOff_ok F h1 h2, ok_bind, Flat.get_ok (by omega), ok_bind, Flat.get_ok (by
      rw [hsz, ← hF]; exact rOff_range F h1 h2), ok_bind, hν a h1 h2]), ok_bind, cm_enc, ok_bind,
    Flat.set_ok (by
      rw [hsw, ← hF]; exact ⟨by positivity, by exact_mod_cast tpCode_lt F⟩), ok_bind, ← hω F]
  dsimp only
  set Wt := Function.update s.2 k ⟨(s.2 k).size, upd (s.2 k).val (tpCode F : ℤ) (ω F)⟩ with hWt
  have hWk : (Wt k).val (tpCode F : ℤ) = ω F := by simp [hWt, upd]
  have hWo : ∀ j, j ≠ k → Wt j = s.2 j := fun j hj => by simp [hWt, hj]
  obtain ⟨N, h1, ⟨h2, h3, h4⟩, h5⟩ := forUpC_indep
    (fun N : ℕ → Flat K => (∀ j, j ≠ k → N j = s.1 j) ∧ (N k).size = (s.1 k).size ∧
      ∀ G : List (Fin d), G.length = k → G ≠ F → ∀ a, (N k).val (rOff G a) = (s.1 k).val (rOff G a))
    (fun a N => (N k).val (rOff F a) = ν F a) (fun a N => (N k).val (rOff F a) = ratPre W.val ν ρ ω F a)
    (lo := 0) (hi := nen - 1) (s := s.1)
    (f := fun a (N : ℕ → Flat K) => do
      let o ← ratOff d nen (enc F) a
      let x ← W.get a
      let y ← (N k).get o
      let v ← (ratTerms (enc F)).foldlM (fun v t => do
        let o1 ← ratOff d nen t.1 a
        let r ← (N t.1.length).get o1
        let o2 ← cm (t.2.map (fun i => (i, (d : ℤ))))
        let w ← (Wt t.2.length).get o2
        .ok (v - r * w)) (x * y)
      let Nk ← (N k).set o v
      .ok (Function.update N k Nk))
    ⟨fun _ _ => rfl, rfl, fun _ _ _ _ => rfl⟩ (fun a b c => hν a b (by omega))
    (by
      intro a N b c ⟨u1, u2, u3⟩ u4
      have hr := rOff_range F b (by omega : a < nen)
      rw [hF, ← hsz, ← u2] at hr
      refine ⟨Function.update N k ⟨(N k).size, upd (N k).val (rOff F a) (ratPre W.val ν ρ ω F a)⟩, ?_, ⟨?_, ?_, ?_⟩, ?_, ?_⟩
      · rw [ratOff_ok F b (by omega), ok_bind, Flat.get_ok (by omega), ok_bind, Flat.get_ok hr, ok_bind, u4, ratTerms_enc,
          List.foldlM_map, foldlM_ok (G := fun v t => v - ρ t.1 a * ω t.2)]
        · rw [ok_bind, Flat.set_ok hr, ok_bind]
          rfl
        · intro v t ht
          obtain ⟨e1, e2, e3⟩ := ratTerms_len F t ht
          rw [hF] at e1 e3
          have hρ1 := hρ _ e1
          dsimp only
          rw [enc_length, enc_length, u1 _ (by omega), ratOff_ok t.1 b (by omega), ok_bind,
            Flat.get_ok (by rw [hρ1.1]; exact rOff_range t.1 b (by omega)), ok_bind, hρ1.2 t.1 rfl a b (by omega),
            cm_enc, ok_bind]
          rcases e3 with e3 | e3
          · have hw := hwt _ e2 e3
            rw [hWo _ (by omega), Flat.get_ok (by
              rw [hw.1]; exact ⟨by positivity, by exact_mod_cast tpCode_lt t.2⟩), ok_bind, hw.2 t.2 rfl]
          · rw [e3, hF, Flat.get_ok (by
              have : (Wt k).size = (d : ℤ) ^ k := by simp [hWt, hsw]
              rw [this, ← hF]; exact ⟨by positivity, by exact_mod_cast tpCode_lt F⟩), ok_bind, hWk]
      · intro j hj; simp [hj, u1 j hj]
      · simp [u2]
      · intro G hG hne a'
        have : rOff G a' ≠ rOff F a := fun h => hne (rOff_inj (by omega) h).1
        simp [upd, this, u3 G hG hne a']
      · simp [upd]
      · intro j _ _ hj
        have : rOff F j ≠ rOff F a := fun h => hj (rOff_inj rfl h).2
        simp [upd, this])
  rw [h1, ok_bind]
  refine ⟨(N, Wt), rfl, fun j hj => ⟨h2 j hj, hWo j hj⟩, h3, by simp [hWt], fun a b c => h5 a b (by omega), hWk, ?_⟩
  intro G hG hne
  refine ⟨?_, h4 G hG hne⟩
  have : (tpCode G : ℤ) ≠ tpCode F := fun h => hne (tpCode_inj (by omega) (by exact_mod_cast h))
  simp [hWt, upd, this]

/-- the formulas of the model without loops -/
theorem rationalize_terms (L : Finset ℤ) (w : ℤ → K) (ν : List (Fin d) → ℤ → K) (F : List (Fin d)) (h1 : 1 ≤ F.length)
    (h4 : F.length ≤ 4) (a : ℤ) :
    rationalize L w ν F a = ratPre w ν (rationalize L w ν) (ratW L w ν) F a / ratW L w ν [] := by
  match F with
  | [] => simp at h1
  | [_] => rfl
  | [_, _] => rfl
  | [_, _, _] => rfl
  | [_, _, _, _] => rfl
  | _ :: _ :: _ :: _ :: _ :: _ => simp only [List.length_cons] at h4; omega

theorem rationalizeC_ok {W : Flat K} (hW : W.size = nen) {order : ℕ} (ho : order ≤ 4) {N Wt : ℕ → Flat K}
    {ν : List (Fin d) → ℤ → K} (hN : ∀ k, k ≤ order → Holds d nen N ν k)
    (hWt : ∀ k, 1 ≤ k → k ≤ order → (Wt k).size = (d : ℤ) ^ k) :
    ∃ N', rationalizeC d nen W order Wt N = .ok N' ∧
      ∀ k, k ≤ order → Holds d nen N' (rationalize (Finset.Ico 0 nen) W.val ν) k := by
  unfold rationalizeC
  have hN0 := hN 0 (by omega)
  have hz : (N 0).size = nen := by simpa using hN0.1
  have hr0 : ∀ a : ℤ, rOff ([] : List (Fin d)) a = a := by intro a; simp [rOff, tpCode]
  have hv0 : ∀ a, 0 ≤ a → a < nen → (N 0).val a = ν [] a := by
    intro a h1 h2
    have := hN0.2 [] rfl a h1 h2
    rwa [hr0] at this
  obtain ⟨R0, h1, h2, h3⟩ := forUpC_indep (fun R : Flat K => R.size = nen) (fun a R => R.val a = ν [] a)
    (fun a R => R.val a = W.val a * ν [] a) (lo := 0) (hi := nen - 1) (s := N 0)
    (f := fun a (R : Flat K) => do
      let x ← W.get a
      let y ← R.get a
      R.set a (x * y)) hz (fun a b c => hv0 a b (by omega))
    (by
      intro a R b c hR hP
      refine ⟨⟨R.size, upd R.val a (W.val a * ν [] a)⟩, ?_, hR, by simp [upd], ?_⟩
      · rw [Flat.get_ok (by omega), ok_bind, Flat.get_ok (by omega), ok_bind, Flat.set_ok (by omega), hP]
      · intro j _ _ hj
        simp [upd, hj])
  rw [h1, ok_bind, sumC_ok (g := fun a => W.val a * ν [] a) (by
    intro a b c
    rw [Flat.get_ok (by omega), h3 a b (by omega)]), ok_bind]
  set ρ := rationalize (Finset.Ico 0 nen) W.val ν with hρ
  set ω := ratW (Finset.Ico 0 nen) W.val ν with hω
  rw [show ∑ a ∈ Finset.Ico 0 nen, W.val a * ν [] a = ω [] from rfl]
  obtain ⟨S0, h4, h5, h6⟩ := ratDivC_ok (ω []) R0
  rw [h4, ok_bind]
  obtain ⟨s, e1, e2, -, -⟩ := forUpC_hoare
    (fun (i : ℤ) (s : (ℕ → Flat K) × (ℕ → Flat K)) => (∀ k : ℕ, (k : ℤ) < i → k ≤ order → Holds d nen s.1 ρ k) ∧
      (∀ k : ℕ, i ≤ (k : ℤ) → k ≤ order → Holds d nen s.1 ν k) ∧
      (∀ k : ℕ, 1 ≤ k → k ≤ order → (s.2 k).size = (d : ℤ) ^ k ∧ ((k : ℤ) < i → HoldsW d s.2 ω k)))
    (lo := 1) (hi := (order : ℤ)) (s := (Function.update N 0 S0, Wt))
    (f := fun k s => do
      let s ← nestC k.toNat (fun _ => (d : ℤ) - 1) (fun q s => ratRoundC d nen W k.toNat (List.ofFn q).reverse s) s
      let Rk ← ratDivC (ω []) (s.1 k.toNat)
      .ok (Function.update s.1 k.toNat Rk, s.2)) (by omega)
    (by
      refine ⟨?_, ?_, ?_⟩
      · intro k hk _
        have : k = 0 := by omega
        subst this
        refine ⟨by simp [h5, h2], ?_⟩
        intro F hF a b c
        have : F = [] := List.length_eq_zero_iff.mp hF
        subst this
        simp only [Function.update_self]
        rw [hr0, h6 a b (by omega), h3 a b (by omega)]
        rfl
      · intro k hk hko
        have hk0 : k ≠ 0 := by omega
        refine ⟨by simpa [hk0] using (hN k hko).1, ?_⟩
        intro F hF a b c
        simp only [Function.update_of_ne hk0]
        exact (hN k hko).2 F hF a b c
      · intro k hk hko
        exact ⟨hWt k hk hko, fun h => by omega⟩)
    (by
      intro i s a b ⟨u1, u2, u3⟩
      obtain ⟨k, rfl⟩ : ∃ k : ℕ, i = k := ⟨i.toNat, by omega⟩
      have hk1 : 1 ≤ k := by omega
      have hko : k ≤ order := by omega
      rw [Int.toNat_natCast]
      obtain ⟨s', v1, ⟨v2, v3, v4⟩, v5⟩ := nestC_indep k (fun _ => (d : ℤ) - 1)
        (fun t : (ℕ → Flat K) × (ℕ → Flat K) => (∀ j, j ≠ k → t.1 j = s.1 j ∧ t.2 j = s.2 j) ∧
          (t.1 k).size = (s.1 k).size ∧ (t.2 k).size = (s.2 k).size)
        (fun q t => ∀ F : List (Fin d), enc F = (List.ofFn q).reverse → ∀ a, 0 ≤ a → a < nen →
          (t.1 k).val (rOff F a) = ν F a)
        (fun q t => ∀ F : List (Fin d), enc F = (List.ofFn q).reverse → (t.2 k).val (tpCode F) = ω F ∧ ∀ a, 0 ≤ a → a < nen →
          (t.1 k).val (rOff F a) = ratPre W.val ν ρ ω F a)
        (fun q s => ratRoundC d nen W k (List.ofFn q).reverse s) s ⟨fun _ _ => ⟨rfl, rfl⟩, rfl, rfl⟩
        (by
          intro q hq F hF a b c
          refine (u2 k (by omega) hko).2 F ?_ a b c
          rw [← enc_length, hF]; simp)
        (by
          intro q t hq ⟨w1, w2, w3⟩ w4
          obtain ⟨F, hF1, hF2⟩ := exists_dirs hq
          have hlen : ∀ {G : List (Fin d)} {q : Fin k → ℤ}, enc G = (List.ofFn q).reverse → G.length = k := by
            intro G q hG
            rw [← enc_length, hG]; simp
          obtain ⟨t', x1, x2, x3, x4, x5, x6, x7⟩ := ratRoundC_ok (ν := ν) (ρ := ρ) (ω := ω) hW (fun _ => rfl) (s := t) (k := k)
            (by rw [w2]; exact (u2 k (by omega) hko).1) (by rw [w3]; exact (u3 k hk1 hko).1)
            (fun j hj => by
              have := u1 j (by omega) (by omega)
              unfold Holds at this ⊢
              rwa [(w1 j (by omega)).1])
            (fun j hj1 hj2 => by
              have := (u3 j hj1 (by omega)).2 (by omega)
              unfold HoldsW at this ⊢
              rwa [(w1 j (by omega)).2]) hF1 (w4 F hF2)
          rw [← hF2]
          refine ⟨t', x1, ⟨fun j hj => ⟨(x2 j hj).1.trans (w1 j hj).1, (x2 j hj).2.trans (w1 j hj).2⟩, x3.trans w2, x4.trans w3⟩, ?_, ?_⟩
          · intro G hG
            have : G = F := enc_inj (hG.trans rfl)
            subst this
            exact ⟨x6, x5⟩
          · intro q' hq' hne
            have hGF : ∀ G : List (Fin d), enc G = (List.ofFn q').reverse → G ≠ F := by
              rintro G hG rfl
              apply hne
              rw [hF2] at hG
              exact (List.ofFn_injective (List.reverse_injective hG)).symm
            refine ⟨fun h G hG a b c => ?_, fun h G hG => ?_⟩
            · rw [(x7 G (hlen hG) (hGF G hG)).2 a]
              exact h G hG a b c
            · refine ⟨?_, fun a b c => ?_⟩
              · rw [(x7 G (hlen hG) (hGF G hG)).1]
                exact (h G hG).1
              · rw [(x7 G (hlen hG) (hGF G hG)).2 a]
                exact (h G hG).2 a b c)
      rw [v1, ok_bind]
      obtain ⟨R, y1, y2, y3⟩ := ratDivC_ok (ω []) (s'.1 k)
      rw [y1, ok_bind]
      have hQ : ∀ F : List (Fin d), F.length = k → (s'.2 k).val (tpCode F) = ω F ∧ ∀ a, 0 ≤ a → a < nen →
          (s'.1 k).val (rOff F a) = ratPre W.val ν ρ ω F a := by
        intro F hF
        subst hF
        obtain ⟨q, q1, q2⟩ := dirs_idx F
        exact v5 q q1 F q2
      have hsz := (u2 k (by omega) hko).1
      refine ⟨_, rfl, ?_, ?_, ?_⟩
      · intro j hj hjo
        by_cases hjk : j = k
        · subst hjk
          refine ⟨by simp only [Function.update_self]; rw [y2, v3, hsz], ?_⟩
          intro F hF a b c
          simp only [Function.update_self]
          have hro := rOff_range F b c
          rw [y3 _ hro.1 (by rw [v3, hsz, ← hF]; exact hro.2), (hQ F hF).2 a b c, hρ, rationalize_terms _ _ _ F (by omega) (by omega)]
        · have := u1 j (by omega) hjo
          unfold Holds at this ⊢
          simp only [Function.update_of_ne hjk]
          rwa [(v2 j hjk).1]
      · intro j hj hjo
        have hjk : j ≠ k := by omega
        have := u2 j (by omega) hjo
        unfold Holds at this ⊢
        simp only [Function.update_of_ne hjk]
        rwa [(v2 j hjk).1]
      · intro j hj hjo
        by_cases hjk : j = k
        · subst hjk
          refine ⟨by simp only; rw [v4]; exact (u3 j hj hjo).1, fun _ => ⟨by simp only; rw [v4]; exact (u3 j hj hjo).1, ?_⟩⟩
          intro F hF
          exact (hQ F hF).1
        · have := u3 j hj hjo
          unfold HoldsW at this ⊢
          simp only [(v2 j hjk).2]
          exact ⟨this.1, fun h => this.2 (by omega)⟩)
  rw [e1, ok_bind]
  exact ⟨s.1, rfl, fun k hk => e2 k (by omega) hk⟩

end

end Igakit
