import Verif.Model.QuadLoops
import Verif.Proofs.DerivLoops
import Verif.Proofs.BoundsApi
import Verif.Props.Quad

set_option linter.unusedSectionVars false

/-!
# `BasisData` and `BasisDataCol`: lemmas
-/

namespace Igakit
open Spec

section
variable {α : Type}

theorem Arr.get_in {A : Arr α} {i : ℤ} (h : A.lo ≤ i ∧ i ≤ A.hi) : A.get i = .ok (A.val i) := if_pos h
theorem Arr.set_in {A : Arr α} {i : ℤ} {v : α} (h : A.lo ≤ i ∧ i ≤ A.hi) : A.set i v = .ok ⟨A.lo, A.hi, upd A.val i v⟩ := if_pos h
theorem Arr2.get_in {A : Arr2 α} {i j : ℤ} (h : A.In i j) : A.get i j = .ok (A.val i j) := if_pos h
theorem Arr2.set_in {A : Arr2 α} {i j : ℤ} {v : α} (h : A.In i j) :
    A.set i j v = .ok ⟨A.lo1, A.hi1, A.lo2, A.hi2, upd2 A.val i j v⟩ := if_pos h

/-- bounds of an array of rank two -/
def Arr2.Has (A : Arr2 α) (l1 h1 l2 h2 : ℤ) : Prop := A.lo1 = l1 ∧ A.hi1 = h1 ∧ A.lo2 = l2 ∧ A.hi2 = h2

theorem Arr2.Has.inside {A : Arr2 α} {l1 h1 l2 h2 i j : ℤ} (h : A.Has l1 h1 l2 h2) (a : l1 ≤ i) (b : i ≤ h1) (c : l2 ≤ j)
    (d : j ≤ h2) : A.In i j := by
  obtain ⟨rfl, rfl, rfl, rfl⟩ := h
  exact ⟨a, b, c, d⟩

theorem Arr2.Has.eq {A : Arr2 α} {l1 h1 l2 h2 : ℤ} (h : A.Has l1 h1 l2 h2) : A = ⟨l1, h1, l2, h2, A.val⟩ := by
  obtain ⟨rfl, rfl, rfl, rfl⟩ := h
  rfl

theorem transposeC_ok {B A : Arr2 α} {p d : ℤ} (hB : B.Has 0 d 0 p) (hA : A.Has 0 p 0 d) :
    transposeC B A = .ok ⟨0, d, 0, p, fun l a => A.val a l⟩ := by
  obtain ⟨b1, b2, b3, b4⟩ := hB
  obtain ⟨a1, a2, a3, a4⟩ := hA
  unfold transposeC
  rw [b1, b2, b3, b4, a1, a2, a3, a4, if_pos ⟨rfl, rfl⟩]
  simp

end

variable {K : Type} [Field K] [LinearOrder K] [IsStrictOrderedRing K]

theorem basisDataOC_ok {eps : K} (heps : 0 ≤ eps) {n p m r : ℤ} (h0 : 0 ≤ p) (hm : m = n + p + 1) (hpn : p ≤ n) (U : ℤ → K)
    (jo : ℤ → ℤ) (hr : ((spanList U p (n + 1)).length : ℤ) ≤ r) :
    basisDataOC eps p m ⟨0, m, U⟩ ⟨1, r, jo⟩ = .ok ((basisDataO eps p m U jo).1, ⟨1, r, (basisDataO eps p m U jo).2⟩) := by
  have mono : ∀ i, p ≤ i → i ≤ n → (spanList U p (i + 1)).length ≤ (spanList U p (n + 1)).length := by
    intro i a b
    rw [spanList_length, spanList_length]
    refine Finset.card_le_card fun k hk => ?_
    simp only [Finset.mem_filter, Finset.mem_Icc] at hk ⊢
    exact ⟨⟨hk.1.1, by omega⟩, hk.2⟩
  refine forUpC_inv (fun st : ℤ × (ℤ → ℤ) => ((st.1, ⟨1, r, st.2⟩) : ℤ × Arr ℤ)) (s := (1, jo))
    (fun i st => 1 ≤ st.1 ∧ st.1 ≤ 1 + (spanList U p i).length) ⟨le_rfl, by simp⟩ ?_
  rintro i ⟨ir, O⟩ a b ⟨c1, c2⟩
  dsimp only at c1 c2 ⊢
  rw [Arr.get_ok (by omega) (by omega), ok_bind, Arr.get_ok (by omega) (by omega), ok_bind]
  by_cases h : |U i - U (i + 1)| > eps
  · have hne : U i ≠ U (i + 1) := fun e => by
      rw [e, sub_self, abs_zero] at h
      exact absurd h (not_lt.mpr heps)
    have hs := spanList_succ (U := U) a
    rw [if_pos hne] at hs
    have hlen : (spanList U p (i + 1)).length = (spanList U p i).length + 1 := by rw [hs]; simp
    have := mono i a (by omega)
    rw [if_pos h, if_pos h, Arr.set_ok (by omega) (by omega), ok_bind]
    exact ⟨rfl, by dsimp only; omega, by dsimp only; rw [hlen]; push_cast; omega⟩
  · rw [if_neg h, if_neg h]
    refine ⟨rfl, c1, c2.trans ?_⟩
    rw [spanList_succ a, List.length_append]
    push_cast
    omega

/-- the shapes of the arrays while `BasisData` is running -/
structure QuadArr.Shape (s : QuadArr K) (p d q r : ℤ) : Prop where
  J1 : s.J.lo = 1
  J2 : s.J.hi = r
  X : s.X.Has 1 q 1 r
  N : s.N.Has 1 q 1 r
  NN : ∀ i j, (s.N.val i j).Has 0 d 0 p
  basis : s.basis.Has 0 p 0 d

theorem basisDataPtsC_ok {p m d q r ir i : ℤ} (h0 : 0 ≤ p) (hd : 0 ≤ d) (hi : p ≤ i) (him : i + p ≤ m) (hr1 : 1 ≤ ir) (hr2 : ir ≤ r)
    (jk : ℤ → K) (j2 ja : ℤ → ℤ → K) (U : ℤ → K) {V : ℤ → ℤ → ℤ → K} {s : QuadArr K} (hs : s.Shape p d q r)
    (hV : ∀ iq, 1 ≤ iq → iq ≤ q → ∀ jd a l, 0 ≤ a → a ≤ p → 0 ≤ l → l ≤ d →
      dersBasisFuns jk j2 ja jd i (s.X.val iq ir) p d U a l = V iq a l) :
    ∃ s', basisDataPtsC jk j2 ja p ⟨0, m, U⟩ d q ir i s = .ok s' ∧ (s'.Shape p d q r ∧ s'.O = s.O ∧ s'.J = s.J ∧ s'.W = s.W ∧
        s'.X = s.X ∧ ∀ iq j, j ≠ ir → s'.N.val iq j = s.N.val iq j) ∧
      ∀ iq, 1 ≤ iq → iq ≤ q → ∀ a l, 0 ≤ a → a ≤ p → 0 ≤ l → l ≤ d → (s'.N.val iq ir).val l a = V iq a l := by
  unfold basisDataPtsC
  refine forUpC_indep (fun s' : QuadArr K => s'.Shape p d q r ∧ s'.O = s.O ∧ s'.J = s.J ∧ s'.W = s.W ∧
        s'.X = s.X ∧ ∀ iq j, j ≠ ir → s'.N.val iq j = s.N.val iq j) (fun _ _ => True)
    (fun iq s' => ∀ a l, 0 ≤ a → a ≤ p → 0 ≤ l → l ≤ d → (s'.N.val iq ir).val l a = V iq a l)
    ⟨hs, rfl, rfl, rfl, rfl, fun _ _ _ => rfl⟩ (fun _ _ _ => trivial) ?_
  rintro iq t a b ⟨ht, e1, e2, e3, e4, e5⟩ _
  have hb := ht.basis.eq
  rw [Arr2.get_in (ht.X.inside a b hr1 hr2), ok_bind, hb, dersBasisFunsC_ok h0 hi him hd, ok_bind,
    Arr2.get_in (ht.N.inside a b hr1 hr2), ok_bind, transposeC_ok (ht.NN iq ir) ⟨rfl, rfl, rfl, rfl⟩, ok_bind,
    Arr2.set_in (ht.N.inside a b hr1 hr2), ok_bind]
  refine ⟨_, rfl, ⟨⟨ht.J1, ht.J2, ht.X, ht.N, ?_, ⟨rfl, rfl, rfl, rfl⟩⟩, e1, e2, e3, e4, ?_⟩, ?_, ?_⟩
  · intro i' j'
    dsimp only
    unfold upd2
    split
    · exact ⟨rfl, rfl, rfl, rfl⟩
    · exact ht.NN i' j'
  · intro i' j' hj
    dsimp only
    unfold upd2
    rw [if_neg (fun h => hj h.2)]
    exact e5 i' j' hj
  · intro a' l' a1 a2 l1 l2
    dsimp only
    unfold upd2
    rw [if_pos ⟨rfl, rfl⟩]
    dsimp only
    rw [e4]
    exact hV iq a b _ a' l' a1 a2 l1 l2
  · intro iq' _ _ hne
    refine ⟨fun _ => trivial, fun h a' l' a1 a2 l1 l2 => ?_⟩
    dsimp only
    unfold upd2
    rw [if_neg (fun h => hne h.1)]
    exact h a' l' a1 a2 l1 l2

theorem basisDataElemsC_ok {p m d q r : ℤ} (h0 : 0 ≤ p) (hd : 0 ≤ d) (jk : ℤ → K) (j2 ja : ℤ → ℤ → K) (U Xg : ℤ → K)
    {V : ℤ → ℤ → ℤ → ℤ → K} {s : QuadArr K} (hs : s.Shape p d q r) (hO1 : s.O.lo = 1) (hO2 : s.O.hi = r)
    (hO : ∀ ir, 1 ≤ ir → ir ≤ r → 0 ≤ s.O.val ir ∧ s.O.val ir + p + 1 ≤ m ∧ s.O.val ir + p + p ≤ m)
    (hV : ∀ ir, 1 ≤ ir → ir ≤ r → ∀ iq, 1 ≤ iq → iq ≤ q → ∀ jd a l, 0 ≤ a → a ≤ p → 0 ≤ l → l ≤ d →
      dersBasisFuns jk j2 ja jd (s.O.val ir + p)
        ((Xg iq + 1) * ((U (s.O.val ir + p + 1) - U (s.O.val ir + p)) / 2) + U (s.O.val ir + p)) p d U a l = V ir iq a l) :
    ∃ s', basisDataElemsC jk j2 ja p ⟨0, m, U⟩ ⟨1, q, Xg⟩ d q r s = .ok s' ∧ (s'.Shape p d q r ∧ s'.O = s.O ∧ s'.W = s.W) ∧
      ∀ ir, 1 ≤ ir → ir ≤ r → s'.J.val ir = (U (s.O.val ir + p + 1) - U (s.O.val ir + p)) / 2 ∧
        ∀ iq, 1 ≤ iq → iq ≤ q →
          s'.X.val iq ir = (Xg iq + 1) * ((U (s.O.val ir + p + 1) - U (s.O.val ir + p)) / 2) + U (s.O.val ir + p) ∧
          ∀ a l, 0 ≤ a → a ≤ p → 0 ≤ l → l ≤ d → (s'.N.val iq ir).val l a = V ir iq a l := by
  unfold basisDataElemsC
  refine forUpC_indep (fun s' : QuadArr K => s'.Shape p d q r ∧ s'.O = s.O ∧ s'.W = s.W) (fun _ _ => True)
    (fun ir s' => s'.J.val ir = (U (s.O.val ir + p + 1) - U (s.O.val ir + p)) / 2 ∧
        ∀ iq, 1 ≤ iq → iq ≤ q →
          s'.X.val iq ir = (Xg iq + 1) * ((U (s.O.val ir + p + 1) - U (s.O.val ir + p)) / 2) + U (s.O.val ir + p) ∧
          ∀ a l, 0 ≤ a → a ≤ p → 0 ≤ l → l ≤ d → (s'.N.val iq ir).val l a = V ir iq a l)
    ⟨hs, rfl, rfl⟩ (fun _ _ _ => trivial) ?_
  rintro ir t a b ⟨ht, e1, e2⟩ _
  obtain ⟨o1, o2, o3⟩ := hO ir a b
  dsimp only
  rw [Arr.get_in (by rw [e1, hO1, hO2]; exact ⟨a, b⟩), ok_bind, e1]
  set i := s.O.val ir + p with hi
  rw [Arr.get_ok (by omega) (by omega), ok_bind, Arr.get_ok (by omega) (by omega), ok_bind,
    Arr.set_in (by rw [ht.J1, ht.J2]; exact ⟨a, b⟩), ok_bind]
  obtain ⟨X', w1, ⟨w2, w3⟩, w4⟩ := forUpC_indep
    (fun X : Arr2 K => X.Has 1 q 1 r ∧ ∀ iq j, j ≠ ir → X.val iq j = t.X.val iq j) (fun _ _ => True)
    (fun iq X => X.val iq ir = (Xg iq + 1) * ((U (i + 1) - U i) / 2) + U i) (lo := 1) (hi := q) (s := t.X)
    (f := fun iq (X : Arr2 K) => do
      let x ← (⟨1, q, Xg⟩ : Arr K).get iq
      let j ← (⟨t.J.lo, t.J.hi, upd t.J.val ir ((U (i + 1) - U i) / 2)⟩ : Arr K).get ir
      let u0 ← (.ok (U i) : Chk K)
      X.set iq ir ((x + 1) * j + u0))
    ⟨ht.X, fun _ _ _ => rfl⟩ (fun _ _ _ => trivial)
    (by
      rintro iq X c c' ⟨x1, x2⟩ _
      rw [Arr.get_ok c c', ok_bind, Arr.get_ok (by rw [ht.J1]; exact a) (by rw [ht.J2]; exact b), ok_bind,
        ok_bind, Arr2.set_in (x1.inside c c' a b), upd_same]
      refine ⟨_, rfl, ⟨x1, ?_⟩, ?_, ?_⟩
      · intro iq' j hj
        dsimp only
        unfold upd2
        rw [if_neg (fun h => hj h.2)]
        exact x2 iq' j hj
      · dsimp only
        unfold upd2
        rw [if_pos ⟨rfl, rfl⟩]
      · intro iq' _ _ hne
        refine ⟨fun _ => trivial, fun h => ?_⟩
        dsimp only
        unfold upd2
        rw [if_neg (fun h => hne h.1)]
        exact h)
  rw [w1, ok_bind]
  obtain ⟨s', z1, ⟨z2, z3, z4, z5, z6, z7⟩, z8⟩ := basisDataPtsC_ok (m := m) h0 hd (i := i) (by omega) (by omega) a b jk j2 ja U (V := V ir)
    (s := { t with O := s.O, J := ⟨t.J.lo, t.J.hi, upd t.J.val ir ((U (i + 1) - U i) / 2)⟩, X := X' })
    ⟨ht.J1, ht.J2, w2, ht.N, ht.NN, ht.basis⟩
    (by
      intro iq c c' jd a' l' a1 a2 l1 l2
      dsimp only
      rw [w4 iq c c']
      exact hV ir a b iq c c' jd a' l' a1 a2 l1 l2)
  refine ⟨s', z1, ⟨z2, z3, z5.trans e2⟩, ⟨?_, ?_⟩, ?_⟩
  · rw [z4]; dsimp only; rw [upd_same]
  · intro iq c c'
    refine ⟨?_, z8 iq c c'⟩
    rw [z6]
    exact w4 iq c c'
  · intro j _ _ hj
    refine ⟨fun _ => trivial, fun ⟨y1, y2⟩ => ⟨?_, ?_⟩⟩
    · rw [z4]; dsimp only; rw [upd_ne _ _ hj]; exact y1
    · intro iq c c'
      obtain ⟨y3, y4⟩ := y2 iq c c'
      refine ⟨?_, ?_⟩
      · rw [z6]; dsimp only; rw [w3 iq j hj]; exact y3
      · intro a' l' a1 a2 l1 l2
        rw [z7 iq j hj]
        exact y4 a' l' a1 a2 l1 l2

end Igakit
