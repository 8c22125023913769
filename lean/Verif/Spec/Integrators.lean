import Mathlib.Analysis.Calculus.Deriv.Basic
import Mathlib.Analysis.Calculus.Deriv.Prod

/-!
# What an integrator is asked for
-/

namespace Verif.Spec

open Set

/-- `Y` is continuous on `[a, b]` and satisfies `Y' = f(x, Y)` between `a` and `b`, except at the points of `bad`. -/
structure Solves (f : ℝ → ℝ × ℝ → ℝ × ℝ) (a b : ℝ) (bad : Set ℝ) (Y : ℝ → ℝ × ℝ) : Prop where
  cont : ContinuousOn Y (Icc a b)
  deriv : ∀ x ∈ Ioo a b, x ∉ bad → HasDerivAt Y (f x (Y x)) x

end Verif.Spec
