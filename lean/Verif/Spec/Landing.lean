import Mathlib.MeasureTheory.Integral.IntervalIntegral.Basic
import Mathlib.Analysis.Calculus.ContDiff.Basic

/-! # The landing with least energy: motion `X'' = ag + u` from the position `R0` and the velocity `V0` to rest at the origin, with the control `u` -/

namespace Verif.Spec

/-- A motion from position `R0` and velocity `V0` at time 0 to rest at the origin at time `T`. -/
structure Trajectory (R0 V0 : Fin 3 → ℝ) (T : ℝ) (X : Fin 3 → ℝ → ℝ) : Prop where
  smooth : ∀ i, ContDiff ℝ 2 (X i)
  start : ∀ i, X i 0 = R0 i
  speed : ∀ i, deriv (X i) 0 = V0 i
  goal : ∀ i, X i T = 0
  rest : ∀ i, deriv (X i) T = 0

/-- Half the integral of the square of the control `u = X'' - ag`. -/
noncomputable def energy (ag : Fin 3 → ℝ) (T : ℝ) (X : Fin 3 → ℝ → ℝ) : ℝ := 1 / 2 * ∫ t in (0 : ℝ)..T, ∑ i, (deriv (deriv (X i)) t - ag i) ^ 2

/-- `X` needs the least energy among all motions of duration `T`, and every other motion needs more. -/
structure LeastEnergy (R0 V0 ag : Fin 3 → ℝ) (T : ℝ) (X : Fin 3 → ℝ → ℝ) : Prop where
  motion : Trajectory R0 V0 T X
  least : ∀ Y, Trajectory R0 V0 T Y → energy ag T X ≤ energy ag T Y
  only : ∀ Y, Trajectory R0 V0 T Y → energy ag T Y = energy ag T X → ∀ i, ∀ t ∈ Set.Icc 0 T, Y i t = X i t

/-- The least cost of a landing of duration `T`, where a unit of time costs `Gam`. -/
noncomputable def leastCost (R0 V0 ag : Fin 3 → ℝ) (Gam T : ℝ) : ℝ := sInf {c | ∃ X, Trajectory R0 V0 T X ∧ c = Gam * T + energy ag T X}

end Verif.Spec
