import Verif.Spec.ThreeBody
import Mathlib.LinearAlgebra.Matrix.Defs
import Mathlib.Data.Matrix.Mul

/-!
# Motions in the plane of the two bodies

The state is `(x, y, ẋ, ẏ)`.
-/

namespace Verif.Spec

/-- The derivative of the state. -/
noncomputable def planarField (μ : ℝ) (s : Fin 4 → ℝ) : Fin 4 → ℝ :=
  ![s 2, s 3, acceleration μ ![s 0, s 1, 0] ![s 2, s 3, 0] 0, acceleration μ ![s 0, s 1, 0] ![s 2, s 3, 0] 1]

/-- No collision with either body. -/
def Apart (μ : ℝ) (s : Fin 4 → ℝ) : Prop := dist1 μ ![s 0, s 1, 0] ≠ 0 ∧ dist2 μ ![s 0, s 1, 0] ≠ 0

/-- `X` is a motion on `[a, b]`, without collision. -/
def PlanarMotion (μ a b : ℝ) (X : ℝ → Fin 4 → ℝ) : Prop := ∀ t ∈ Set.Icc a b, Apart μ (X t) ∧ HasDerivWithinAt X (planarField μ (X t)) (Set.Icc a b) t

/-- The state on the other side of the line through the two bodies, with the time reversed. -/
def mirrored (s : Fin 4 → ℝ) : Fin 4 → ℝ := ![s 0, -s 1, -s 2, s 3]

/-- The constant of Jacobi of a state in the plane. -/
noncomputable def planarJacobi (μ : ℝ) (s : Fin 4 → ℝ) : ℝ := jacobi μ ![s 0, s 1, 0] ![s 2, s 3, 0]

/-- The four equations of Penrose. -/
structure IsPinv (M P : Matrix (Fin 2) (Fin 2) ℝ) : Prop where
  first : M * P * M = M
  second : P * M * P = P
  third : (M * P).transpose = M * P
  fourth : (P * M).transpose = P * M

end Verif.Spec
