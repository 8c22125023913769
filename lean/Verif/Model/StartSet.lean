import Mathlib.Analysis.SpecialFunctions.Trigonometric.Basic
import Mathlib.Analysis.SpecialFunctions.Pow.Real

/-!
# The random starts of the landing programs

/repo/examples/Hunter_Johnston_Dissertation/Chapter_6/Example_6_2/generateIC.py. The numbers returned by `np.random.rand()` are arguments; they are in `[0, 1)`.
Rounding is not modelled.
-/

namespace Verif.Model.StartSet

/-- The distance from the centre, generateIC.py 17, 18 with `a`, `b` of 10, 11: `w1` is the number drawn for the angle, `w2` that for the distance. -/
noncomputable def radius (w1 w2 : ℝ) : ℝ :=
  w2 * (1000 * 500) / Real.sqrt (1000 ^ 2 * Real.sin (2 * Real.pi * w1) ^ 2 + 500 ^ 2 * Real.cos (2 * Real.pi * w1) ^ 2)

/-- A row of `data['R0']`, generateIC.py 17–22. -/
noncomputable def R0 (w1 w2 w3 : ℝ) : ℝ × ℝ × ℝ :=
  (-2000 + radius w1 w2 * Real.cos (2 * Real.pi * w1), 0 + radius w1 w2 * Real.sin (2 * Real.pi * w1), 1500 + (100 * w3 - 100))

/-- A row of `data['V0']`, generateIC.py 24–28. -/
noncomputable def V0 (w4 w5 : ℝ) : ℝ × ℝ × ℝ :=
  (100 * Real.cos (Real.pi * w4 - Real.pi / 2), 100 * Real.sin (Real.pi * w4 - Real.pi / 2), -75 + (10 * w5 - 10))

end Verif.Model.StartSet
