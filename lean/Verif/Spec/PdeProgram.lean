import Verif.Model.Pdes
import Mathlib.Algebra.MvPolynomial.Degrees

/-! # The problem `z_xx + z_yy + z z_y = s` on the square with `z = 0` on three sides and `z_y = k` on the fourth -/

namespace Verif.Spec

open Verif.Model.Prog

/-- The functions among which the program looks for a solution, one for each free function `g`: the terms that correct the values of `g` on
`x = 0`, `x = 1` and `y = 0` and its derivative on `y = 1`. -/
noncomputable def meets (k : ℝ → ℝ) (g : ℝ → ℝ → ℝ) (x y : ℝ) : ℝ :=
  let g1 := fun x y => g x y - (1 - x) * g 0 y - x * g 1 y
  g1 x y - g1 x 0 + y * (k x - deriv (g1 x) 1)

/-- A polynomial in two variables as a function. -/
noncomputable def evalXY (P : MvPolynomial (Fin 2) ℝ) (x y : ℝ) : ℝ := MvPolynomial.eval ![x, y] P

/-- `z_xx + z_yy + z z_y - s`. -/
noncomputable def pdeMiss (s z : ℝ → ℝ → ℝ) (x y : ℝ) : ℝ := dx (dx z) x y + dy (dy z) x y + z x y * dy z x y - s x y

/-- The equation linearised at `z`, for `w`: `w_xx + w_yy + z w_y + w z_y - z z_y - s`. It equals `pdeMiss` for `w = z`. -/
noncomputable def pdeLin (s z w : ℝ → ℝ → ℝ) (x y : ℝ) : ℝ :=
  dx (dx w) x y + dy (dy w) x y + (z x y * dy w x y + w x y * dy z x y - z x y * dy z x y) - s x y

/-- `w` is a Newton step from `z`: among the functions that meet the boundary conditions and come from a polynomial of total degree at
most `deg`, the sum of the squares of the linearised equation at the points is the smallest for `w`. -/
def PdeNewtonStep (deg : ℕ) (k : ℝ → ℝ) (s : ℝ → ℝ → ℝ) (pts : List (ℝ × ℝ)) (z w : ℝ → ℝ → ℝ) : Prop :=
  ∀ P : MvPolynomial (Fin 2) ℝ, P.totalDegree ≤ deg →
    (pts.map fun t => pdeLin s z w t.1 t.2 ^ 2).sum ≤ (pts.map fun t => pdeLin s z (meets k (evalXY P)) t.1 t.2 ^ 2).sum

end Verif.Spec
