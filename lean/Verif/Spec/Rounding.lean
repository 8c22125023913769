import Mathlib.Data.Real.Basic

/-! # Binary floating point numbers and rounding to nearest -/

namespace Verif.Spec

/-- The numbers with a significand of `p` binary digits (53 for doubles), the exponent being unbounded. -/
def IsFloat (p : ℕ) (x : ℝ) : Prop := ∃ m e : ℤ, |m| ≤ 2 ^ p ∧ x = m * 2 ^ e

/-- `rnd` gives a number of the format nearest to its argument; ties may be broken in any way. -/
structure RoundsToNearest (p : ℕ) (rnd : ℝ → ℝ) : Prop where
  float : ∀ x, IsFloat p (rnd x)
  nearest : ∀ x y, IsFloat p y → |rnd x - x| ≤ |y - x|

/-- A prescribed value is met up to rounding: `computed` differs from `prescribed` by at most `u * (|prescribed| + 2 * |prescribed - free|)`, where `free` is the
value of the free function there and `u` the unit roundoff, and not at all if the prescribed value is 0, or of the same sign as `free` and within a factor
two of it. -/
structure MetUpToRounding (u computed prescribed free : ℝ) : Prop where
  error : |computed - prescribed| ≤ u * (|prescribed| + 2 * |prescribed - free|)
  exact : prescribed = 0 ∨ (free ≤ 2 * prescribed ∧ prescribed ≤ 2 * free) ∨ (2 * prescribed ≤ free ∧ 2 * free ≤ prescribed) → computed = prescribed

end Verif.Spec
