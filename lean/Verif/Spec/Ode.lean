import Verif.Spec.Bvp

/-! # Nonlinear boundary value problems `y'' + f y y' = f2` -/

namespace Verif.Spec

open Polynomial

/-- `p'' + f p p' - f2` at `t`. -/
noncomputable def odeMiss (f f2 : ℝ → ℝ) (p : ℝ[X]) (t : ℝ) : ℝ :=
  (derivative (derivative p)).eval t + f t * p.eval t * (derivative p).eval t - f2 t

/-- The equation linearised at `p`, for `q`: `q'' + f (p q' + p' q - p p') - f2` at `t`. It equals `odeMiss` for `q = p`. -/
noncomputable def odeLin (f f2 : ℝ → ℝ) (p q : ℝ[X]) (t : ℝ) : ℝ :=
  (derivative (derivative q)).eval t +
    f t * (p.eval t * (derivative q).eval t + (derivative p).eval t * q.eval t - p.eval t * (derivative p).eval t) - f2 t

/-- `p'` is a Newton step from `p`: an admissible polynomial for which the sum of the squares of the linearised equation at the points
is the smallest. -/
def NewtonStep (deg : ℕ) (ti tf yi yf : ℝ) (f f2 : ℝ → ℝ) (pts : List ℝ) (p p' : ℝ[X]) : Prop :=
  ∀ q, MeetsEnds deg ti tf yi yf q → (pts.map fun t => odeLin f f2 p p' t ^ 2).sum ≤ (pts.map fun t => odeLin f f2 p q t ^ 2).sum

end Verif.Spec
