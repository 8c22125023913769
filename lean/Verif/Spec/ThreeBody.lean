import Mathlib.Analysis.Calculus.Deriv.Basic
import Mathlib.Analysis.SpecialFunctions.Pow.Real

/-!
# The circular restricted three-body problem

Two bodies of mass `1 - μ` and `μ` rest at `(-μ, 0, 0)` and `(1 - μ, 0, 0)` in a frame that turns with angular velocity 1.
-/

namespace Verif.Spec

/-- The distance from the first body. -/
noncomputable def dist1 (μ : ℝ) (p : Fin 3 → ℝ) : ℝ := Real.sqrt ((p 0 + μ) ^ 2 + p 1 ^ 2 + p 2 ^ 2)

/-- The distance from the second body. -/
noncomputable def dist2 (μ : ℝ) (p : Fin 3 → ℝ) : ℝ := Real.sqrt ((p 0 - (1 - μ)) ^ 2 + p 1 ^ 2 + p 2 ^ 2)

/-- The acceleration in the turning frame: Coriolis force, centrifugal force, and the attraction of the two bodies. -/
noncomputable def acceleration (μ : ℝ) (p v : Fin 3 → ℝ) (i : Fin 3) : ℝ :=
  (![2 * v 1, -(2 * v 0), 0] : Fin 3 → ℝ) i + (![p 0, p 1, 0] : Fin 3 → ℝ) i
    - (1 - μ) * (p i - (![-μ, 0, 0] : Fin 3 → ℝ) i) / dist1 μ p ^ 3 - μ * (p i - (![1 - μ, 0, 0] : Fin 3 → ℝ) i) / dist2 μ p ^ 3

/-- `X` is a motion of the third body for all times, without collision. -/
structure ThreeBody (μ : ℝ) (X : Fin 3 → ℝ → ℝ) : Prop where
  apart1 : ∀ t, dist1 μ (fun i => X i t) ≠ 0
  apart2 : ∀ t, dist2 μ (fun i => X i t) ≠ 0
  velocity : ∀ i t, HasDerivAt (X i) (deriv (X i) t) t
  law : ∀ i t, HasDerivAt (deriv (X i)) (acceleration μ (fun k => X k t) (fun k => deriv (X k) t) i) t

/-- The constant of Jacobi, with the usual additive constant `μ (1 - μ)`. -/
noncomputable def jacobi (μ : ℝ) (p v : Fin 3 → ℝ) : ℝ :=
  p 0 ^ 2 + p 1 ^ 2 + 2 * (1 - μ) / dist1 μ p + 2 * μ / dist2 μ p + μ * (1 - μ) - (v 0 ^ 2 + v 1 ^ 2 + v 2 ^ 2)

/-- `P` is a period of the motion. -/
def PeriodicMotion (P : ℝ) (X : Fin 3 → ℝ → ℝ) : Prop := ∀ i t, X i (t + P) = X i t

/-- A point where the third body can rest. -/
def Equilibrium (μ : ℝ) (p : Fin 3 → ℝ) : Prop := dist1 μ p ≠ 0 ∧ dist2 μ p ≠ 0 ∧ ∀ i, acceleration μ p (fun _ => 0) i = 0

end Verif.Spec
