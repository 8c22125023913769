import Verif.Model.Reference

/-!
# Model of the programs that call scipy's integrators for comparison

J is /repo/examples/Hunter_Johnston_Dissertation. The integrators (`solve_ivp`, `solve_bvp`, `fsolve`) are not modelled: the model is the functions
they are given. A pair stands for the array of the two entries.
-/

namespace Verif.Model.Prog

/-- `dydx(x,y)`, J/Chapter_4/Examples_4_1thru3/laneEmden_ode.py 21–29, for a natural number `type`. -/
noncomputable def laneDe (type : ℕ) (x : ℝ) (y : ℝ × ℝ) : ℝ × ℝ :=
  let dy1 := y.2
  let dy2 := if x = 0 then 0 else -2 / x * dy1 - y.1 ^ type
  (dy1, dy2)

/-- `y0`, laneEmden_ode.py 32. -/
def laneStart : ℝ × ℝ := (1, 0)

/-- `bc(ya,yb)`, J/Chapter_4/Example_4_4/BVP_ode.py 25, 26. -/
def bvpBc (ya yb : ℝ × ℝ) : ℝ × ℝ := (ya.1, yb.1)

/-- `dydx(x,y)`, BVP_ode.py 28–33. -/
noncomputable def bvpDe (x : ℝ) (y : ℝ × ℝ) : ℝ × ℝ :=
  let dy1 := y.2
  let f := Real.exp (-2 * x) * Real.sin x * (Real.cos x - Real.sin x) - 2 * Real.exp (-x) * Real.cos x
  let dy2 := -y.1 * dy1 + f
  (dy1, dy2)

/-- `de(t,y)`, J/Chapter_4/Example_4_5/shootingMethod_linearNonlnear.py 41–50. -/
noncomputable def shootDe (t : ℝ) (y : ℝ × ℝ) : ℝ × ℝ :=
  let a : ℕ := if t ≤ Real.pi / 2 then 0 else 1
  (y.2, -y.1 * y.2 ^ a - Real.exp (Real.pi - 2 * t) + Real.exp (Real.pi / 2 - t))

/-- The start of the integration for the slope `yp0`, shootingMethod_linearNonlnear.py 54. -/
noncomputable def shootStart (yp0 : ℝ) : ℝ × ℝ := (9 / 10 + 1 / 10 * Real.exp (Real.pi / 2) * (5 - 2 * Real.exp (Real.pi / 2)), yp0)

/-- What `func` returns for the solution `Y`, shootingMethod_linearNonlnear.py 55. -/
noncomputable def shootMiss (Y : ℝ → ℝ × ℝ) : ℝ := (Y Real.pi).1 - Real.exp (-Real.pi / 2)

end Verif.Model.Prog
