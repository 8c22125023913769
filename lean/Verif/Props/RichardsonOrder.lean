import Verif.Props.RichardsonCoef
import Verif.Lemmas.Gravity

/-!
# Richardson's series satisfy the cubic equations up to terms of the fourth order
-/

namespace Verif.Props

open Set Verif Verif.Model.Py

/-- The part of the product of two series that has a factor `ε ^ 4`. -/
def pairTail (ε u1 u2 u3 v1 v2 v3 : ℝ) : ℝ := u2 * v2 + u1 * v3 + u3 * v1 + ε * (u2 * v3 + u3 * v2) + ε ^ 2 * (u3 * v3)

/-- The part of the product of three series that has a factor `ε ^ 4`. -/
def tripleTail (ε u1 u2 u3 v1 v2 v3 w1 w2 w3 : ℝ) : ℝ :=
  u1 * v1 * (w2 + ε * w3) + u1 * (v2 + ε * v3) * w1 + (u2 + ε * u3) * v1 * w1
    + ε * (u1 * (v2 + ε * v3) * (w2 + ε * w3) + (u2 + ε * u3) * v1 * (w2 + ε * w3) + (u2 + ε * u3) * (v2 + ε * v3) * w1)
    + ε ^ 2 * ((u2 + ε * u3) * (v2 + ε * v3) * (w2 + ε * w3))

/-- The part of the second derivative that has a factor `ε ^ 4`, with the frequency `l (1 + σ ε ^ 2)`. -/
def accTail (l ε σ X1 X2 X3 : ℝ) : ℝ := l ^ 2 * (2 * σ * X2 + 2 * ε * σ * X3 + σ ^ 2 * (ε * X1 + ε ^ 2 * X2 + ε ^ 3 * X3))

/-- The part of the first derivative that has a factor `ε ^ 4`. -/
def velTail (l ε σ Y2 Y3 : ℝ) : ℝ := l * (σ * Y2 + ε * σ * Y3)

/-- The sum of a series. -/
def ser (ε u1 u2 u3 : ℝ) : ℝ := ε * u1 + ε ^ 2 * u2 + ε ^ 3 * u3

theorem ser_mul (ε u1 u2 u3 v1 v2 v3 : ℝ) :
    ser ε u1 u2 u3 * ser ε v1 v2 v3 = ε ^ 2 * (u1 * v1) + ε ^ 3 * (u1 * v2 + u2 * v1) + ε ^ 4 * pairTail ε u1 u2 u3 v1 v2 v3 := by
  unfold ser pairTail; ring

theorem ser_mul_mul (ε u1 u2 u3 v1 v2 v3 w1 w2 w3 : ℝ) :
    ser ε u1 u2 u3 * ser ε v1 v2 v3 * ser ε w1 w2 w3 = ε ^ 3 * (u1 * v1 * w1) + ε ^ 4 * tripleTail ε u1 u2 u3 v1 v2 v3 w1 w2 w3 := by
  unfold ser tripleTail; ring

theorem ser_acc (l ε σ X1 X2 X3 : ℝ) :
    (l * (1 + σ * ε ^ 2)) ^ 2 * ser ε X1 X2 X3 = ε * (l ^ 2 * X1) + ε ^ 2 * (l ^ 2 * X2) + ε ^ 3 * (l ^ 2 * (X3 + 2 * σ * X1)) + ε ^ 4 * accTail l ε σ X1 X2 X3 := by
  unfold ser accTail; ring

theorem ser_vel (l ε σ Y1 Y2 Y3 : ℝ) :
    l * (1 + σ * ε ^ 2) * ser ε Y1 Y2 Y3 = ε * (l * Y1) + ε ^ 2 * (l * Y2) + ε ^ 3 * (l * (Y3 + σ * Y1)) + ε ^ 4 * velTail l ε σ Y2 Y3 := by
  unfold ser velTail; ring

/-! ## The terms of the three series, as polynomials in the cosine and the sine -/

variable (R : Rich) (δ α β c s : ℝ)

def tx1 : ℝ := -(α * c)
def tx2 : ℝ := R.a21 * α ^ 2 + R.a22 * β ^ 2 + (R.a23 * α ^ 2 - R.a24 * β ^ 2) * (2 * c ^ 2 - 1)
def tx3 : ℝ := (R.a31 * α ^ 3 - R.a32 * α * β ^ 2) * (4 * c ^ 3 - 3 * c)
def tx1' : ℝ := α * s
def tx2' : ℝ := -2 * (R.a23 * α ^ 2 - R.a24 * β ^ 2) * (2 * s * c)
def tx3' : ℝ := -3 * (R.a31 * α ^ 3 - R.a32 * α * β ^ 2) * (s * (4 * c ^ 2 - 1))
def tx1'' : ℝ := α * c
def tx2'' : ℝ := -4 * (R.a23 * α ^ 2 - R.a24 * β ^ 2) * (2 * c ^ 2 - 1)
def tx3'' : ℝ := -9 * (R.a31 * α ^ 3 - R.a32 * α * β ^ 2) * (4 * c ^ 3 - 3 * c)
def ty1 : ℝ := R.k * α * s
def ty2 : ℝ := (R.b21 * α ^ 2 - R.b22 * β ^ 2) * (2 * s * c)
def ty3 : ℝ := (R.b31 * α ^ 3 - R.b32 * α * β ^ 2) * (s * (4 * c ^ 2 - 1)) + (R.b33 * α ^ 3 + R.b34 * α * β ^ 2 - R.b35 * α * β ^ 2) * s
def ty1' : ℝ := R.k * α * c
def ty2' : ℝ := 2 * (R.b21 * α ^ 2 - R.b22 * β ^ 2) * (2 * c ^ 2 - 1)
def ty3' : ℝ := 3 * (R.b31 * α ^ 3 - R.b32 * α * β ^ 2) * (4 * c ^ 3 - 3 * c) + (R.b33 * α ^ 3 + R.b34 * α * β ^ 2 - R.b35 * α * β ^ 2) * c
def ty1'' : ℝ := -(R.k * α * s)
def ty2'' : ℝ := -4 * (R.b21 * α ^ 2 - R.b22 * β ^ 2) * (2 * s * c)
def ty3'' : ℝ := -9 * (R.b31 * α ^ 3 - R.b32 * α * β ^ 2) * (s * (4 * c ^ 2 - 1)) - (R.b33 * α ^ 3 + R.b34 * α * β ^ 2 - R.b35 * α * β ^ 2) * s
def tz1 : ℝ := δ * β * c
def tz2 : ℝ := δ * R.d21 * α * β * (2 * c ^ 2 - 1 - 3)
def tz3 : ℝ := δ * (R.d32 * β * α ^ 2 - R.d31 * β ^ 3) * (4 * c ^ 3 - 3 * c)
def tz1'' : ℝ := -(δ * β * c)
def tz2'' : ℝ := -4 * (δ * R.d21 * α * β) * (2 * c ^ 2 - 1)
def tz3'' : ℝ := -9 * (δ * (R.d32 * β * α ^ 2 - R.d31 * β ^ 3)) * (4 * c ^ 3 - 3 * c)
def tσ : ℝ := R.s1 * α ^ 2 + R.s2 * β ^ 2

variable {R δ s c}

section
variable (h : RichRel R) (hs : s ^ 2 + c ^ 2 - 1 = 0) (hδ : δ ^ 2 - 1 = 0)
include h

theorem ox1 : R.lam ^ 2 * tx1'' α c - 2 * (R.lam * ty1' R α c) - (1 + 2 * R.c2) * tx1 α c = 0 := by
  unfold tx1'' ty1' tx1
  linear_combination ((1) * c * α) * h.x11

include hs hδ in
theorem ox2 : R.lam ^ 2 * tx2'' R α β c - 2 * (R.lam * ty2' R α β c) - (1 + 2 * R.c2) * tx2 R α β c
    - 3 / 2 * R.c3 * (2 * (tx1 α c * tx1 α c) - ty1 R α s * ty1 R α s - tz1 δ β c * tz1 δ β c) = 0 := by
  unfold tx2'' ty2' tx2 tx1 ty1 tz1
  linear_combination ((1) * α ^ 2) * h.x20a + ((1) * β ^ 2) * h.x20b + ((2) * c ^ 2 * α ^ 2 + (-1) * α ^ 2) * h.x22a + ((2) * c ^ 2 * β ^ 2 + (-1) * β ^ 2) * h.x22b + ((3 / 2) * R.c3 * R.k ^ 2 * α ^ 2) * hs + ((3 / 2) * c ^ 2 * R.c3 * β ^ 2) * hδ

include hs hδ in
theorem ox3 : R.lam ^ 2 * (tx3'' R α β c + 2 * tσ R α β * tx1'' α c) - 2 * (R.lam * (ty3' R α β c + tσ R α β * ty1' R α c)) - (1 + 2 * R.c2) * tx3 R α β c
    - 3 / 2 * R.c3 * (2 * (tx1 α c * tx2 R α β c + tx2 R α β c * tx1 α c) - (ty1 R α s * ty2 R α β c s + ty2 R α β c s * ty1 R α s)
      - (tz1 δ β c * tz2 R δ α β c + tz2 R δ α β c * tz1 δ β c))
    - 2 * R.c4 * (2 * (tx1 α c * tx1 α c * tx1 α c) - 3 * (tx1 α c * ty1 R α s * ty1 R α s) - 3 * (tx1 α c * tz1 δ β c * tz1 δ β c)) = 0 := by
  unfold tx3'' tσ tx1'' ty3' ty1' tx3 tx2 tx1 ty1 ty2 tz1 tz2
  linear_combination ((-3) * c * α ^ 3 + (4) * c ^ 3 * α ^ 3) * h.x33a + ((-3) * c * α * β ^ 2 + (4) * c ^ 3 * α * β ^ 2) * h.x33b + ((1) * c * α ^ 3) * h.x31a + ((1) * c * α * β ^ 2) * h.x31b + ((6) * R.b21 * c * R.c3 * R.k * α ^ 3 + (-6) * R.b22 * c * R.c3 * R.k * α * β ^ 2 + (-6) * c * R.c4 * R.k ^ 2 * α ^ 3) * hs + ((-12) * c * R.c3 * R.d21 * α * β ^ 2 + (6) * c ^ 3 * R.c3 * R.d21 * α * β ^ 2 + (-6) * c ^ 3 * R.c4 * α * β ^ 2) * hδ

theorem oy1 : R.lam ^ 2 * ty1'' R α s + 2 * (R.lam * tx1' α s) + (R.c2 - 1) * ty1 R α s = 0 := by
  unfold ty1'' tx1' ty1
  linear_combination ((-1) * s * α) * h.y11

theorem oy2 : R.lam ^ 2 * ty2'' R α β c s + 2 * (R.lam * tx2' R α β c s) + (R.c2 - 1) * ty2 R α β c s + 3 * R.c3 * (tx1 α c * ty1 R α s) = 0 := by
  unfold ty2'' tx2' ty2 tx1 ty1
  linear_combination ((2) * c * s * α ^ 2) * h.y22a + ((2) * c * s * β ^ 2) * h.y22b

include hs hδ in
theorem oy3 : R.lam ^ 2 * (ty3'' R α β c s + 2 * tσ R α β * ty1'' R α s) + 2 * (R.lam * (tx3' R α β c s + tσ R α β * tx1' α s)) + (R.c2 - 1) * ty3 R α β c s
    + 3 * R.c3 * (tx1 α c * ty2 R α β c s + tx2 R α β c * ty1 R α s)
    + 3 / 2 * R.c4 * (4 * (tx1 α c * tx1 α c * ty1 R α s) - ty1 R α s * ty1 R α s * ty1 R α s - ty1 R α s * tz1 δ β c * tz1 δ β c) = 0 := by
  unfold ty3'' tσ ty1'' tx3' tx1' ty3 ty2 ty1 tx2 tx1 tz1
  linear_combination ((4) * c ^ 2 * s * α ^ 3 + (-1) * s * α ^ 3) * h.y33a + ((4) * c ^ 2 * s * α * β ^ 2 + (-1) * s * α * β ^ 2) * h.y33b + ((1) * s * α ^ 3) * h.y31a + ((1) * s * α * β ^ 2) * h.y31b + ((-3 / 2) * R.c4 * R.k ^ 3 * s * α ^ 3) * hs + ((-3 / 2) * c ^ 2 * R.c4 * R.k * s * α * β ^ 2) * hδ

omit h in
theorem oz1 : R.lam ^ 2 * tz1'' δ β c + R.lam ^ 2 * tz1 δ β c = 0 := by
  unfold tz1'' tz1; ring

theorem oz2 : R.lam ^ 2 * tz2'' R δ α β c + R.lam ^ 2 * tz2 R δ α β c + 3 * R.c3 * (tx1 α c * tz1 δ β c) = 0 := by
  unfold tz2'' tz2 tx1 tz1
  linear_combination ((2) * c ^ 2 * α * β * δ) * h.z2

include hs hδ in
theorem oz3 : R.lam ^ 2 * (tz3'' R δ α β c + 2 * tσ R α β * tz1'' δ β c) + R.lam ^ 2 * tz3 R δ α β c + (R.l1 * α ^ 2 + R.l2 * β ^ 2) * tz1 δ β c
    + 3 * R.c3 * (tx1 α c * tz2 R δ α β c + tx2 R α β c * tz1 δ β c)
    + 3 / 2 * R.c4 * (4 * (tx1 α c * tx1 α c * tz1 δ β c) - ty1 R α s * ty1 R α s * tz1 δ β c - tz1 δ β c * tz1 δ β c * tz1 δ β c) = 0 := by
  unfold tz3'' tσ tz1'' tz3 tz2 tz1 tx2 tx1 ty1
  linear_combination ((-3) * c * α ^ 2 * β * δ + (4) * c ^ 3 * α ^ 2 * β * δ) * h.z33a + ((-3) * c * β ^ 3 * δ + (4) * c ^ 3 * β ^ 3 * δ) * h.z33b + ((1) * c * α ^ 2 * β * δ) * h.l1 + ((1) * c * β ^ 3 * δ) * h.l2 + ((-3 / 2) * c * R.c4 * R.k ^ 2 * α ^ 2 * β * δ) * hs + ((-3 / 2) * c ^ 3 * R.c4 * β ^ 3 * δ) * hδ

end

/-! ## The tails -/

/-- The tail of the first equation. -/
noncomputable def tailX (l σ c3 c4 ε x1 x2 x3 y1 y2 y3 z1 z2 z3 X1 X2 X3 Y2 Y3 : ℝ) : ℝ :=
  accTail l ε σ X1 X2 X3 - 2 * velTail l ε σ Y2 Y3
    - 3 / 2 * c3 * (2 * pairTail ε x1 x2 x3 x1 x2 x3 - pairTail ε y1 y2 y3 y1 y2 y3 - pairTail ε z1 z2 z3 z1 z2 z3)
    - 2 * c4 * (2 * tripleTail ε x1 x2 x3 x1 x2 x3 x1 x2 x3 - 3 * tripleTail ε x1 x2 x3 y1 y2 y3 y1 y2 y3 - 3 * tripleTail ε x1 x2 x3 z1 z2 z3 z1 z2 z3)

/-- The tail of the second equation. -/
noncomputable def tailY (l σ c3 c4 ε x1 x2 x3 y1 y2 y3 z1 z2 z3 Y1 Y2 Y3 X2 X3 : ℝ) : ℝ :=
  accTail l ε σ Y1 Y2 Y3 + 2 * velTail l ε σ X2 X3 + 3 * c3 * pairTail ε x1 x2 x3 y1 y2 y3
    + 3 / 2 * c4 * (4 * tripleTail ε x1 x2 x3 x1 x2 x3 y1 y2 y3 - tripleTail ε y1 y2 y3 y1 y2 y3 y1 y2 y3 - tripleTail ε y1 y2 y3 z1 z2 z3 z1 z2 z3)

/-- The tail of the third equation; `w` is the change of the square of the frequency. -/
noncomputable def tailZ (l σ w c3 c4 ε x1 x2 x3 y1 y2 y3 z1 z2 z3 Z1 Z2 Z3 : ℝ) : ℝ :=
  accTail l ε σ Z1 Z2 Z3 + w * (z2 + ε * z3) + 3 * c3 * pairTail ε x1 x2 x3 z1 z2 z3
    + 3 / 2 * c4 * (4 * tripleTail ε x1 x2 x3 x1 x2 x3 z1 z2 z3 - tripleTail ε y1 y2 y3 y1 y2 y3 z1 z2 z3 - tripleTail ε z1 z2 z3 z1 z2 z3 z1 z2 z3)

section
variable (ε : ℝ) (h : RichRel R) (hs : s ^ 2 + c ^ 2 - 1 = 0) (hδ : δ ^ 2 - 1 = 0)
include h hs hδ

theorem series_x :
    (R.lam * (1 + tσ R α β * ε ^ 2)) ^ 2 * ser ε (tx1'' α c) (tx2'' R α β c) (tx3'' R α β c)
      - 2 * (R.lam * (1 + tσ R α β * ε ^ 2) * ser ε (ty1' R α c) (ty2' R α β c) (ty3' R α β c))
      - (1 + 2 * R.c2) * ser ε (tx1 α c) (tx2 R α β c) (tx3 R α β c)
      - 3 / 2 * R.c3 * (2 * (ser ε (tx1 α c) (tx2 R α β c) (tx3 R α β c) * ser ε (tx1 α c) (tx2 R α β c) (tx3 R α β c))
          - ser ε (ty1 R α s) (ty2 R α β c s) (ty3 R α β c s) * ser ε (ty1 R α s) (ty2 R α β c s) (ty3 R α β c s)
          - ser ε (tz1 δ β c) (tz2 R δ α β c) (tz3 R δ α β c) * ser ε (tz1 δ β c) (tz2 R δ α β c) (tz3 R δ α β c))
      - 2 * R.c4 * (2 * (ser ε (tx1 α c) (tx2 R α β c) (tx3 R α β c) * ser ε (tx1 α c) (tx2 R α β c) (tx3 R α β c) * ser ε (tx1 α c) (tx2 R α β c) (tx3 R α β c))
          - 3 * (ser ε (tx1 α c) (tx2 R α β c) (tx3 R α β c) * ser ε (ty1 R α s) (ty2 R α β c s) (ty3 R α β c s) * ser ε (ty1 R α s) (ty2 R α β c s) (ty3 R α β c s))
          - 3 * (ser ε (tx1 α c) (tx2 R α β c) (tx3 R α β c) * ser ε (tz1 δ β c) (tz2 R δ α β c) (tz3 R δ α β c) * ser ε (tz1 δ β c) (tz2 R δ α β c) (tz3 R δ α β c)))
      = ε ^ 4 * tailX R.lam (tσ R α β) R.c3 R.c4 ε (tx1 α c) (tx2 R α β c) (tx3 R α β c) (ty1 R α s) (ty2 R α β c s) (ty3 R α β c s) (tz1 δ β c) (tz2 R δ α β c)
          (tz3 R δ α β c) (tx1'' α c) (tx2'' R α β c) (tx3'' R α β c) (ty2' R α β c) (ty3' R α β c) := by
  have h1 := ox1 α h (c := c)
  have h2 := ox2 α β h hs hδ
  have h3 := ox3 α β h hs hδ
  rw [ser_acc, ser_vel]
  simp only [ser_mul_mul]
  simp only [ser_mul]
  unfold tailX ser
  linear_combination ε * h1 + ε ^ 2 * h2 + ε ^ 3 * h3

theorem series_y :
    (R.lam * (1 + tσ R α β * ε ^ 2)) ^ 2 * ser ε (ty1'' R α s) (ty2'' R α β c s) (ty3'' R α β c s)
      + 2 * (R.lam * (1 + tσ R α β * ε ^ 2) * ser ε (tx1' α s) (tx2' R α β c s) (tx3' R α β c s))
      + (R.c2 - 1) * ser ε (ty1 R α s) (ty2 R α β c s) (ty3 R α β c s)
      + 3 * R.c3 * (ser ε (tx1 α c) (tx2 R α β c) (tx3 R α β c) * ser ε (ty1 R α s) (ty2 R α β c s) (ty3 R α β c s))
      + 3 / 2 * R.c4 * (4 * (ser ε (tx1 α c) (tx2 R α β c) (tx3 R α β c) * ser ε (tx1 α c) (tx2 R α β c) (tx3 R α β c) * ser ε (ty1 R α s) (ty2 R α β c s) (ty3 R α β c s))
          - ser ε (ty1 R α s) (ty2 R α β c s) (ty3 R α β c s) * ser ε (ty1 R α s) (ty2 R α β c s) (ty3 R α β c s) * ser ε (ty1 R α s) (ty2 R α β c s) (ty3 R α β c s)
          - ser ε (ty1 R α s) (ty2 R α β c s) (ty3 R α β c s) * ser ε (tz1 δ β c) (tz2 R δ α β c) (tz3 R δ α β c) * ser ε (tz1 δ β c) (tz2 R δ α β c) (tz3 R δ α β c))
      = ε ^ 4 * tailY R.lam (tσ R α β) R.c3 R.c4 ε (tx1 α c) (tx2 R α β c) (tx3 R α β c) (ty1 R α s) (ty2 R α β c s) (ty3 R α β c s) (tz1 δ β c) (tz2 R δ α β c)
          (tz3 R δ α β c) (ty1'' R α s) (ty2'' R α β c s) (ty3'' R α β c s) (tx2' R α β c s) (tx3' R α β c s) := by
  have h1 := oy1 α h (s := s)
  have h2 := oy2 α β h (s := s) (c := c)
  have h3 := oy3 α β h hs hδ
  rw [ser_acc, ser_vel]
  simp only [ser_mul_mul]
  simp only [ser_mul]
  unfold tailY ser
  linear_combination ε * h1 + ε ^ 2 * h2 + ε ^ 3 * h3

theorem series_z :
    (R.lam * (1 + tσ R α β * ε ^ 2)) ^ 2 * ser ε (tz1'' δ β c) (tz2'' R δ α β c) (tz3'' R δ α β c)
      + (R.lam ^ 2 + (R.l1 * α ^ 2 + R.l2 * β ^ 2) * ε ^ 2) * ser ε (tz1 δ β c) (tz2 R δ α β c) (tz3 R δ α β c)
      + 3 * R.c3 * (ser ε (tx1 α c) (tx2 R α β c) (tx3 R α β c) * ser ε (tz1 δ β c) (tz2 R δ α β c) (tz3 R δ α β c))
      + 3 / 2 * R.c4 * (4 * (ser ε (tx1 α c) (tx2 R α β c) (tx3 R α β c) * ser ε (tx1 α c) (tx2 R α β c) (tx3 R α β c) * ser ε (tz1 δ β c) (tz2 R δ α β c) (tz3 R δ α β c))
          - ser ε (ty1 R α s) (ty2 R α β c s) (ty3 R α β c s) * ser ε (ty1 R α s) (ty2 R α β c s) (ty3 R α β c s) * ser ε (tz1 δ β c) (tz2 R δ α β c) (tz3 R δ α β c)
          - ser ε (tz1 δ β c) (tz2 R δ α β c) (tz3 R δ α β c) * ser ε (tz1 δ β c) (tz2 R δ α β c) (tz3 R δ α β c) * ser ε (tz1 δ β c) (tz2 R δ α β c) (tz3 R δ α β c))
      = ε ^ 4 * tailZ R.lam (tσ R α β) (R.l1 * α ^ 2 + R.l2 * β ^ 2) R.c3 R.c4 ε (tx1 α c) (tx2 R α β c) (tx3 R α β c) (ty1 R α s) (ty2 R α β c s) (ty3 R α β c s)
          (tz1 δ β c) (tz2 R δ α β c) (tz3 R δ α β c) (tz1'' δ β c) (tz2'' R δ α β c) (tz3'' R δ α β c) := by
  have h1 := oz1 β (R := R) (δ := δ) (c := c)
  have h2 := oz2 α β h (δ := δ) (c := c)
  have h3 := oz3 α β h hs hδ
  rw [ser_acc]
  simp only [ser_mul_mul]
  simp only [ser_mul]
  unfold tailZ ser
  linear_combination ε * h1 + ε ^ 2 * h2 + ε ^ 3 * h3

end

theorem bounded_on_box5 (f : ℝ × ℝ × ℝ × ℝ × ℝ → ℝ) (hf : Continuous f) :
    ∃ C : ℝ, 0 ≤ C ∧ ∀ a b c d e : ℝ, |a| ≤ 1 → |b| ≤ 1 → |c| ≤ 1 → |d| ≤ 1 → |e| ≤ 1 → |f (a, b, c, d, e)| ≤ C := by
  obtain ⟨C, hC⟩ := (isCompact_Icc (a := ((-1, -1, -1, -1, -1) : ℝ × ℝ × ℝ × ℝ × ℝ)) (b := (1, 1, 1, 1, 1))).exists_bound_of_continuousOn hf.continuousOn
  refine ⟨C, ?_, fun a b c d e ha hb hc hd he => ?_⟩
  · exact (norm_nonneg _).trans (hC (0, 0, 0, 0, 0) (by simp [Prod.le_def, mem_Icc]))
  · refine (Real.norm_eq_abs _).symm.le.trans (hC _ ?_)
    have := abs_le.1 ha; have := abs_le.1 hb; have := abs_le.1 hc; have := abs_le.1 hd; have := abs_le.1 he
    refine ⟨⟨?_, ?_, ?_, ?_, ?_⟩, ⟨?_, ?_, ?_, ?_, ?_⟩⟩ <;> simp only [] <;> linarith

theorem tails_bounded (R : Rich) (δ : ℝ) : ∃ C : ℝ, 0 ≤ C ∧ ∀ ε α β c s : ℝ, |ε| ≤ 1 → |α| ≤ 1 → |β| ≤ 1 → |c| ≤ 1 → |s| ≤ 1 →
    |tailX R.lam (tσ R α β) R.c3 R.c4 ε (tx1 α c) (tx2 R α β c) (tx3 R α β c) (ty1 R α s) (ty2 R α β c s) (ty3 R α β c s) (tz1 δ β c) (tz2 R δ α β c)
          (tz3 R δ α β c) (tx1'' α c) (tx2'' R α β c) (tx3'' R α β c) (ty2' R α β c) (ty3' R α β c)| ≤ C ∧
    |tailY R.lam (tσ R α β) R.c3 R.c4 ε (tx1 α c) (tx2 R α β c) (tx3 R α β c) (ty1 R α s) (ty2 R α β c s) (ty3 R α β c s) (tz1 δ β c) (tz2 R δ α β c)
          (tz3 R δ α β c) (ty1'' R α s) (ty2'' R α β c s) (ty3'' R α β c s) (tx2' R α β c s) (tx3' R α β c s)| ≤ C ∧
    |tailZ R.lam (tσ R α β) (R.l1 * α ^ 2 + R.l2 * β ^ 2) R.c3 R.c4 ε (tx1 α c) (tx2 R α β c) (tx3 R α β c) (ty1 R α s) (ty2 R α β c s) (ty3 R α β c s)
          (tz1 δ β c) (tz2 R δ α β c) (tz3 R δ α β c) (tz1'' δ β c) (tz2'' R δ α β c) (tz3'' R δ α β c)| ≤ C := by
  have c_tx1 : Continuous fun q : ℝ × ℝ × ℝ × ℝ × ℝ => tx1 q.2.1 q.2.2.2.1 := by unfold tx1; fun_prop
  have c_tx2 : Continuous fun q : ℝ × ℝ × ℝ × ℝ × ℝ => tx2 R q.2.1 q.2.2.1 q.2.2.2.1 := by unfold tx2; fun_prop
  have c_tx3 : Continuous fun q : ℝ × ℝ × ℝ × ℝ × ℝ => tx3 R q.2.1 q.2.2.1 q.2.2.2.1 := by unfold tx3; fun_prop
  have c_tx1' : Continuous fun q : ℝ × ℝ × ℝ × ℝ × ℝ => tx1' q.2.1 q.2.2.2.2 := by unfold tx1'; fun_prop
  have c_tx2' : Continuous fun q : ℝ × ℝ × ℝ × ℝ × ℝ => tx2' R q.2.1 q.2.2.1 q.2.2.2.1 q.2.2.2.2 := by unfold tx2'; fun_prop
  have c_tx3' : Continuous fun q : ℝ × ℝ × ℝ × ℝ × ℝ => tx3' R q.2.1 q.2.2.1 q.2.2.2.1 q.2.2.2.2 := by unfold tx3'; fun_prop
  have c_tx1'' : Continuous fun q : ℝ × ℝ × ℝ × ℝ × ℝ => tx1'' q.2.1 q.2.2.2.1 := by unfold tx1''; fun_prop
  have c_tx2'' : Continuous fun q : ℝ × ℝ × ℝ × ℝ × ℝ => tx2'' R q.2.1 q.2.2.1 q.2.2.2.1 := by unfold tx2''; fun_prop
  have c_tx3'' : Continuous fun q : ℝ × ℝ × ℝ × ℝ × ℝ => tx3'' R q.2.1 q.2.2.1 q.2.2.2.1 := by unfold tx3''; fun_prop
  have c_ty1 : Continuous fun q : ℝ × ℝ × ℝ × ℝ × ℝ => ty1 R q.2.1 q.2.2.2.2 := by unfold ty1; fun_prop
  have c_ty2 : Continuous fun q : ℝ × ℝ × ℝ × ℝ × ℝ => ty2 R q.2.1 q.2.2.1 q.2.2.2.1 q.2.2.2.2 := by unfold ty2; fun_prop
  have c_ty3 : Continuous fun q : ℝ × ℝ × ℝ × ℝ × ℝ => ty3 R q.2.1 q.2.2.1 q.2.2.2.1 q.2.2.2.2 := by unfold ty3; fun_prop
  have c_ty1' : Continuous fun q : ℝ × ℝ × ℝ × ℝ × ℝ => ty1' R q.2.1 q.2.2.2.1 := by unfold ty1'; fun_prop
  have c_ty2' : Continuous fun q : ℝ × ℝ × ℝ × ℝ × ℝ => ty2' R q.2.1 q.2.2.1 q.2.2.2.1 := by unfold ty2'; fun_prop
  have c_ty3' : Continuous fun q : ℝ × ℝ × ℝ × ℝ × ℝ => ty3' R q.2.1 q.2.2.1 q.2.2.2.1 := by unfold ty3'; fun_prop
  have c_ty1'' : Continuous fun q : ℝ × ℝ × ℝ × ℝ × ℝ => ty1'' R q.2.1 q.2.2.2.2 := by unfold ty1''; fun_prop
  have c_ty2'' : Continuous fun q : ℝ × ℝ × ℝ × ℝ × ℝ => ty2'' R q.2.1 q.2.2.1 q.2.2.2.1 q.2.2.2.2 := by unfold ty2''; fun_prop
  have c_ty3'' : Continuous fun q : ℝ × ℝ × ℝ × ℝ × ℝ => ty3'' R q.2.1 q.2.2.1 q.2.2.2.1 q.2.2.2.2 := by unfold ty3''; fun_prop
  have c_tz1 : Continuous fun q : ℝ × ℝ × ℝ × ℝ × ℝ => tz1 δ q.2.2.1 q.2.2.2.1 := by unfold tz1; fun_prop
  have c_tz2 : Continuous fun q : ℝ × ℝ × ℝ × ℝ × ℝ => tz2 R δ q.2.1 q.2.2.1 q.2.2.2.1 := by unfold tz2; fun_prop
  have c_tz3 : Continuous fun q : ℝ × ℝ × ℝ × ℝ × ℝ => tz3 R δ q.2.1 q.2.2.1 q.2.2.2.1 := by unfold tz3; fun_prop
  have c_tz1'' : Continuous fun q : ℝ × ℝ × ℝ × ℝ × ℝ => tz1'' δ q.2.2.1 q.2.2.2.1 := by unfold tz1''; fun_prop
  have c_tz2'' : Continuous fun q : ℝ × ℝ × ℝ × ℝ × ℝ => tz2'' R δ q.2.1 q.2.2.1 q.2.2.2.1 := by unfold tz2''; fun_prop
  have c_tz3'' : Continuous fun q : ℝ × ℝ × ℝ × ℝ × ℝ => tz3'' R δ q.2.1 q.2.2.1 q.2.2.2.1 := by unfold tz3''; fun_prop
  have cσ : Continuous fun q : ℝ × ℝ × ℝ × ℝ × ℝ => tσ R q.2.1 q.2.2.1 := by unfold tσ; fun_prop
  obtain ⟨C1, h1, H1⟩ := bounded_on_box5 (fun q => tailX R.lam (tσ R q.2.1 q.2.2.1) R.c3 R.c4 q.1 (tx1 q.2.1 q.2.2.2.1) (tx2 R q.2.1 q.2.2.1 q.2.2.2.1) (tx3 R q.2.1 q.2.2.1 q.2.2.2.1) (ty1 R q.2.1 q.2.2.2.2) (ty2 R q.2.1 q.2.2.1 q.2.2.2.1 q.2.2.2.2) (ty3 R q.2.1 q.2.2.1 q.2.2.2.1 q.2.2.2.2) (tz1 δ q.2.2.1 q.2.2.2.1) (tz2 R δ q.2.1 q.2.2.1 q.2.2.2.1) (tz3 R δ q.2.1 q.2.2.1 q.2.2.2.1) (tx1'' q.2.1 q.2.2.2.1) (tx2'' R q.2.1 q.2.2.1 q.2.2.2.1) (tx3'' R q.2.1 q.2.2.1 q.2.2.2.1) (ty2' R q.2.1 q.2.2.1 q.2.2.2.1) (ty3' R q.2.1 q.2.2.1 q.2.2.2.1)) (by
    unfold tailX accTail velTail pairTail tripleTail; fun_prop)
  obtain ⟨C2, h2, H2⟩ := bounded_on_box5 (fun q => tailY R.lam (tσ R q.2.1 q.2.2.1) R.c3 R.c4 q.1 (tx1 q.2.1 q.2.2.2.1) (tx2 R q.2.1 q.2.2.1 q.2.2.2.1) (tx3 R q.2.1 q.2.2.1 q.2.2.2.1) (ty1 R q.2.1 q.2.2.2.2) (ty2 R q.2.1 q.2.2.1 q.2.2.2.1 q.2.2.2.2) (ty3 R q.2.1 q.2.2.1 q.2.2.2.1 q.2.2.2.2) (tz1 δ q.2.2.1 q.2.2.2.1) (tz2 R δ q.2.1 q.2.2.1 q.2.2.2.1) (tz3 R δ q.2.1 q.2.2.1 q.2.2.2.1) (ty1'' R q.2.1 q.2.2.2.2) (ty2'' R q.2.1 q.2.2.1 q.2.2.2.1 q.2.2.2.2) (ty3'' R q.2.1 q.2.2.1 q.2.2.2.1 q.2.2.2.2) (tx2' R q.2.1 q.2.2.1 q.2.2.2.1 q.2.2.2.2) (tx3' R q.2.1 q.2.2.1 q.2.2.2.1 q.2.2.2.2)) (by
    unfold tailY accTail velTail pairTail tripleTail; fun_prop)
  obtain ⟨C3, h3, H3⟩ := bounded_on_box5 (fun q => tailZ R.lam (tσ R q.2.1 q.2.2.1) (R.l1 * q.2.1 ^ 2 + R.l2 * q.2.2.1 ^ 2) R.c3 R.c4 q.1 (tx1 q.2.1 q.2.2.2.1) (tx2 R q.2.1 q.2.2.1 q.2.2.2.1) (tx3 R q.2.1 q.2.2.1 q.2.2.2.1) (ty1 R q.2.1 q.2.2.2.2) (ty2 R q.2.1 q.2.2.1 q.2.2.2.1 q.2.2.2.2) (ty3 R q.2.1 q.2.2.1 q.2.2.2.1 q.2.2.2.2) (tz1 δ q.2.2.1 q.2.2.2.1) (tz2 R δ q.2.1 q.2.2.1 q.2.2.2.1) (tz3 R δ q.2.1 q.2.2.1 q.2.2.2.1) (tz1'' δ q.2.2.1 q.2.2.2.1) (tz2'' R δ q.2.1 q.2.2.1 q.2.2.2.1) (tz3'' R δ q.2.1 q.2.2.1 q.2.2.2.1)) (by
    unfold tailZ accTail pairTail tripleTail; fun_prop)
  refine ⟨C1 + C2 + C3, by positivity, fun ε α β c s a1 a2 a3 a4 a5 => ⟨?_, ?_, ?_⟩⟩
  · exact (H1 ε α β c s a1 a2 a3 a4 a5).trans (by linarith)
  · exact (H2 ε α β c s a1 a2 a3 a4 a5).trans (by linarith)
  · exact (H3 ε α β c s a1 a2 a3 a4 a5).trans (by linarith)

end Verif.Props
