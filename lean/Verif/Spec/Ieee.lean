import Mathlib.Data.Real.Basic

/-!
# Element types of arrays and what their bytes mean

Numbers are stored with the least significant byte first, as on all processors XLA runs on.
-/

namespace Verif.Spec

/-- Values of the bytes of an unsigned integer, least significant byte first. -/
def ofBytes : List ℕ → ℕ
  | [] => 0
  | b :: l => b + 256 * ofBytes l

/-- A number in the format of IEEE 754 with `e` bits of exponent and `p` bits of fraction, given by its bits. Infinities and not-a-numbers (largest exponent) are given the
value 0; nothing is claimed about them. -/
noncomputable def ieee (e p : ℕ) (bits : ℕ) : ℝ :=
  let sign : ℝ := if (bits / 2 ^ (e + p)) % 2 = 1 then -1 else 1
  let expo := (bits / 2 ^ p) % 2 ^ e
  let frac := bits % 2 ^ p
  let bias : ℤ := 2 ^ (e - 1) - 1
  if expo = 2 ^ e - 1 then 0
  else if expo = 0 then sign * (frac / 2 ^ p) * 2 ^ (1 - bias)
  else sign * (1 + frac / 2 ^ p) * 2 ^ ((expo : ℤ) - bias)

/-- `float64`. -/
noncomputable def float64 (bits : ℕ) : ℝ := ieee 11 52 bits
/-- `float32`. -/
noncomputable def float32 (bits : ℕ) : ℝ := ieee 8 23 bits
/-- A signed integer of `w` bytes. -/
def signed (w bits : ℕ) : ℤ := if bits < 2 ^ (8 * w - 1) then bits else (bits : ℤ) - 2 ^ (8 * w)

/-- The element types of arrays of points that JAX passes on without conversion. -/
inductive ElemType
  | f64 | f32 | i64 | i32
  deriving DecidableEq

/-- Bytes of one element. -/
def ElemType.width : ElemType → ℕ
  | .f64 => 8
  | .f32 => 4
  | .i64 => 8
  | .i32 => 4

/-- The number an element stands for. -/
noncomputable def ElemType.value : ElemType → ℕ → ℝ
  | .f64, b => float64 b
  | .f32, b => float32 b
  | .i64, b => signed 8 b
  | .i32, b => signed 4 b

/-- A one-dimensional array: its element type and the bits of its elements. -/
structure TypedArray where
  ty : ElemType
  bits : List ℕ
  fits : ∀ b ∈ bits, b < 256 ^ ty.width

/-- Number of elements. -/
def TypedArray.size (a : TypedArray) : ℕ := a.bits.length

/-- The number at position `j`. -/
noncomputable def TypedArray.val (a : TypedArray) (j : ℕ) : ℝ := a.ty.value (a.bits.getD j 0)

end Verif.Spec
