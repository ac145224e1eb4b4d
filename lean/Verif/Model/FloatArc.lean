import Verif.Model.FloatCircle
import Verif.Model.FloatRotate

/-!
# Circular arcs in floating point arithmetic
-/

namespace Igakit.Cad
open Transform

/-- `np.searchsorted(quadrants, abs(sweep))` (cad.py:116-118) in floating point.  `np.pi` is the rounded number; the four entries are
in increasing order, so the search gives the number of entries before the first one that is not smaller -/
noncomputable def arcSpansF (rd : ℝ → ℝ) (sweep : ℝ) : ℕ :=
  let pi := rd Real.pi
  if |sweep| ≤ 0 then 0 else if |sweep| ≤ rd (pi / 2) then 1 else if |sweep| ≤ pi then 2
  else if |sweep| ≤ rd (rd (3 * pi) / 2) then 3 else 4

/-- the single segment `Ca` (cad.py:122-131) in floating point, `s`, `c`, `t` are the values of `np.sin`, `np.cos`, `np.tan` -/
noncomputable def arcSegmentF (rd : ℝ → ℝ) (radius s c t : ℝ) : ℤ → Fin 4 → ℝ := fun j =>
  let x := rd (radius * c)
  let y := rd (radius * s)
  let xm := rd (x + rd (y * t))
  if j = 0 then ![x, -y, 0, 1] else if j = 1 then ![rd (c * xm), 0, 0, c] else ![x, y, 0, 1]

/-- `transform().rotate(angle, 2)` (transform.py:92-127, called in cad.py:135, 138) in floating point: `A` may be its matrix -/
def RotZF (rd : ℝ → ℝ) (δ angle : ℝ) (A : Mat4 ℝ) : Prop :=
  if angle = 0 then A = 1 else ∃ R, RotF rd δ angle (.int 2) R ∧ ChainF rd [embed3 R] A

/-- one row of `R(Cw)` (transform.py:17-18, called in cad.py:136, 141): `x` may be the image of the row `v` -/
def RowF (rd : ℝ → ℝ) (A : Mat4 ℝ) (v x : Fin 4 → ℝ) : Prop :=
  ∀ i, Fp.Dot rd [(v 0, A i 0), (v 1, A i 1), (v 2, A i 2), (v 3, A i 3)] (x i)

/-- the net of an arc (cad.py:121-141) in floating point: `C` may be the array `Cw`.  Each row is written once, so the loop is given by
the rows it leaves: row `j ≥ 3` is made from row `j - 2`.  The library functions have relative error `δ`; the cosine is a number of the
machine -/
def ArcNetF (rd : ℝ → ℝ) (δ radius start alpha : ℝ) (spans : ℕ) (C : ℤ → Fin 4 → ℝ) : Prop :=
  ∃ s c t A B, Libm δ alpha s c ∧ |t - Real.tan alpha| ≤ δ * |Real.tan alpha| ∧ rd c = c ∧
    RotZF rd δ (rd (alpha + start)) A ∧ (∀ j, 0 ≤ j → j ≤ 2 → RowF rd A (arcSegmentF rd radius s c t j) (C j)) ∧
    RotZF rd δ (rd (2 * alpha)) B ∧ ∀ j, 3 ≤ j → j ≤ 2 * (spans : ℤ) → RowF rd B (C (j - 2)) (C j)

/-- entry `i` of `np.linspace(0, 1, spans+1)` (cad.py:150) in floating point: multiples of the rounded step, the last one is 1 -/
noncomputable def linspaceF (rd : ℝ → ℝ) (spans : ℕ) (i : ℤ) : ℝ := if i = spans then 1 else rd (i * rd (1 / spans))

/-- cad.py:146-152 in floating point: the knots are `0`, each entry of `linspace` twice, and `1` -/
noncomputable def circleObjF (rd : ℝ → ℝ) (spans : ℕ) (Cw : ℤ → Fin 4 → ℝ) : Res (Nrb ℝ 1) :=
  Nrb.ctor (fun _ => { shape := [2 * ((spans : ℤ) + 1) + 2], get := fun i =>
      let j := i.headD 0
      if j ≤ 0 then 0 else if j ≥ 2 * spans + 3 then 1 else linspaceF rd spans ((j - 1) / 2) })
    (.arr { shape := [2 * (spans : ℤ) + 1, 4], get := fun i =>
      if h : (i.getD 1 0).toNat < 4 then Cw (i.getD 0 0) ⟨(i.getD 1 0).toNat, h⟩ else 0 }) none none

/-- `cad.circle(radius, angle=(start, stop))` (cad.py:106-141, 146-152) in floating point: `L` may be the result.  Without sweep
line 136 raises ValueError -/
def ArcF (rd : ℝ → ℝ) (δ radius start stop : ℝ) (L : Nrb ℝ 1) : Prop :=
  let sweep := rd (stop - start)
  let spans := arcSpansF rd sweep
  spans ≠ 0 ∧ ∃ C, ArcNetF rd δ radius start (rd (sweep / (2 * spans))) spans C ∧ circleObjF rd spans C = .ok L

/-- `cad.circle(radius, center, (start, stop))` (cad.py:106-152) in floating point: `L` may be the result.  The code translates the
net before the object is made (line 145); here the net of the object is translated, by the same `transform.__call__` -/
def ArcAtF (rd : ℝ → ℝ) (δ radius : ℝ) (t : Fin 3 → ℝ) (start stop : ℝ) (L : Nrb ℝ 1) : Prop :=
  ∃ L0 A, ArcF rd δ radius start stop L0 ∧ ChainF rd [transMat t] A ∧ L0.TransformF rd A L

end Igakit.Cad
