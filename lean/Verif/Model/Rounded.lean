import Mathlib.Data.Real.Basic

/-!
# The domain map in rounded arithmetic

The other models compute with exact numbers. Here every `+`, `-`, `*`, `/` of the source is followed by a rounding `rnd`, as in IEEE
arithmetic. Overflow and underflow are left out (the exponent is unbounded), and so are infinities and not-a-numbers; a compiler that
contracts `a * b + c` to a fused multiply-add rounds once less and is not covered.
-/

namespace Verif.Model.Rounded

/-- The `double`s of BF.cc:29-237: numbers on which every operation is followed by the rounding `rnd`. The models of the compiled polynomial classes (Model/PolyCC and
Model/BasisFuncCC) are instantiated with this type. -/
structure Fl (rnd : ℝ → ℝ) where
  val : ℝ

namespace Fl
variable {rnd : ℝ → ℝ}

/-- The constant 0. -/
instance : Zero (Fl rnd) := ⟨⟨0⟩⟩
/-- The constant 1. -/
instance : One (Fl rnd) := ⟨⟨1⟩⟩
/-- Rounded addition. -/
noncomputable instance : Add (Fl rnd) := ⟨fun a b => ⟨rnd (a.val + b.val)⟩⟩
/-- Rounded subtraction. -/
noncomputable instance : Sub (Fl rnd) := ⟨fun a b => ⟨rnd (a.val - b.val)⟩⟩
/-- Rounded multiplication. -/
noncomputable instance : Mul (Fl rnd) := ⟨fun a b => ⟨rnd (a.val * b.val)⟩⟩
/-- Rounded division. -/
noncomputable instance : Div (Fl rnd) := ⟨fun a b => ⟨rnd (a.val / b.val)⟩⟩
/-- Changing the sign is exact. -/
noncomputable instance : Neg (Fl rnd) := ⟨fun a => ⟨-a.val⟩⟩
/-- The conversion of `int` to `double`, and literals. -/
noncomputable instance : NatCast (Fl rnd) := ⟨fun n => ⟨rnd n⟩⟩
/-- `pow(c, d)`, taken to be correctly rounded. -/
noncomputable instance : Pow (Fl rnd) ℕ := ⟨fun a n => ⟨rnd (a.val ^ n)⟩⟩
/-- Comparisons are exact. -/
instance : LE (Fl rnd) := ⟨fun a b => a.val ≤ b.val⟩
/-- Comparisons are exact. -/
noncomputable instance : DecidableLE (Fl rnd) := fun a b => Real.decidableLE a.val b.val
/-- The greater of two numbers. -/
noncomputable instance : Max (Fl rnd) := ⟨fun a b => ⟨max a.val b.val⟩⟩
/-- The comparison with `0.` in src/tfc/utils/BF.cc:1941 is exact. -/
noncomputable instance : DecidableEq (Fl rnd) := Classical.decEq _

end Fl

variable (rnd : ℝ → ℝ)

/-- BF.cc:40 and BF_Py.py:57, for several variables BF.cc:1039, 1294 and BF_Py.py:915, 1263: `c = (zf - z0) / (xf - x0)`. -/
noncomputable def rndSlope (z0 zf x0 xf : ℝ) : ℝ := rnd (rnd (zf - z0) / rnd (xf - x0))

/-- BF.cc:67 and 114 (BF.cc:1117 and 1377 for several variables; BF_Py.py:79, 1035 and 1364): `z = (x - x0) * c + z0`. -/
noncomputable def rndToZ (z0 zf x0 xf x : ℝ) : ℝ := rnd (rnd (rnd (x - x0) * rndSlope rnd z0 zf x0 xf) + z0)

/-- utfc.py:184 and 187 (mtfc.py:342 and 352 for several variables): `x = (z - z0) / c + x0`. -/
noncomputable def rndToX (z0 zf x0 xf z : ℝ) : ℝ := rnd (rnd (rnd (z - z0) / rndSlope rnd z0 zf x0 xf) + x0)

end Verif.Model.Rounded
