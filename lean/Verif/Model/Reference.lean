import Verif.Model.Pdes
import Mathlib.Analysis.SpecialFunctions.Pow.Real
import Mathlib.Analysis.SpecialFunctions.Trigonometric.Arctan

/-!
# Model of the reference solutions and the residuals of the tests and example programs

`egrad` is the derivative, as in `Verif.Model.Pdes`. A residual is written as an operator on the candidate `y` or `u`; in the programs the
candidate is the constrained expression with coefficients `xi`. B is /repo/examples/TfcBook, D is
/repo/examples/Carl_Leake_Dissertation, J is /repo/examples/Hunter_Johnston_Dissertation, E is /repo/examples/Extra_Examples.
-/

namespace Verif.Model.Prog

/-! ## One variable -/

/-- `f2`, tests/test_ODE.py 13; `f` of J/Chapter_4/Example_4_4/BVP_tfc.py 56 and B/Chapter_3/section_3_5_2.py 40. -/
noncomputable def bvpF (t : ℝ) : ℝ :=
  Real.exp (-2 * t) * Real.sin t * (Real.cos t - Real.sin t) - 2 * Real.exp (-t) * Real.cos t

/-- `real`, tests/test_ODE.py 21, 71; `ytrue` of J/Chapter_4/Example_4_4/BVP_tfc.py 38 and B/Chapter_3/section_3_5_2.py 56. -/
noncomputable def bvpReal (t : ℝ) : ℝ := Real.exp (-t) * Real.sin t

/-- `r`, tests/test_ODE.py 50, 100 (`f` is 1); `L` of J/Chapter_4/Example_4_4/BVP_tfc.py 63 and B/Chapter_3/section_3_5_2.py 48. -/
noncomputable def bvpResid (y : ℝ → ℝ) (t : ℝ) : ℝ := deriv (deriv y) t + y t * deriv y t - bvpF t

/-- `soln`, D/Appendices/Appendix_D.py 8, J/Chapter_4/Example_4_6/convectionDiffusionGen.py 25, convectionDiffusionNLS.py 22. -/
noncomputable def convReal (Pe x : ℝ) : ℝ := (1 - Real.exp (Pe * (x - 1))) / (1 - Real.exp (-Pe))

/-- `L`, D/Appendices/Appendix_D.py 39; `L1` of J/Chapter_4/Example_4_6/convectionDiffusionGen.py 91, convectionDiffusionNLS.py 93. -/
noncomputable def convResid (Pe : ℝ) (y : ℝ → ℝ) (x : ℝ) : ℝ := deriv (deriv y) x - Pe * deriv y x

/-- `ytrue` of B/Chapter_3/section_3_5_1.py 63–71 and J/Chapter_4/Examples_4_1thru3/laneEmden_tfc.py 37–58, at one point: the entry with
index 0 belongs to the point 0. -/
noncomputable def laneReal (k : ℕ) (x : ℝ) : ℝ :=
  if k = 0 then 1 - 1 / 6 * x ^ 2
  else if k = 1 then (if x = 0 then 1 else Real.sin x / x)
  else (1 + x ^ 2 / 3) ^ (-1 / 2 : ℝ)

/-- `L`, B/Chapter_3/section_3_5_1.py 49, J/Chapter_4/Examples_4_1thru3/laneEmden_tfc.py 87. -/
noncomputable def laneResid (k : ℕ) (y : ℝ → ℝ) (x : ℝ) : ℝ := x * deriv (deriv y) x + 2 * deriv y x + x * y x ^ k

/-- `yTrue`, B/Chapter_3/example_3_1.py 110–112. -/
noncomputable def oscReal (w y0 y0p x : ℝ) : ℝ :=
  Real.sqrt (y0 ^ 2 + (y0p / w) ^ 2) * Real.cos (w * x + Real.arctan (-y0p / w / y0))

/-- `L`, B/Chapter_3/example_3_1.py 74. -/
noncomputable def oscResid (w : ℝ) (y : ℝ → ℝ) (x : ℝ) : ℝ := deriv (deriv y) x + w ^ 2 * y x

/-- `ytrue`, J/Chapter_4/Example_4_5/tfc_linearNonlinear.py 37–46, the first branch (41–43). -/
noncomputable def hybReal1 (x : ℝ) : ℝ :=
  -1 / 5 * Real.exp (Real.pi - 2 * x) + 1 / 2 * Real.exp (Real.pi / 2 - x) + (9 * Real.cos x + 7 * Real.sin x) / 10

/-- `ytrue`, J/Chapter_4/Example_4_5/tfc_linearNonlinear.py 37–46, the second branch (45). -/
noncomputable def hybReal2 (x : ℝ) : ℝ := Real.exp (Real.pi / 2 - x)

/-- `ytrue`, J/Chapter_4/Example_4_5/tfc_linearNonlinear.py 37–46. -/
noncomputable def hybReal (x : ℝ) : ℝ := if x ≤ Real.pi / 2 then hybReal1 x else hybReal2 x

/-- `f`, J/Chapter_4/Example_4_5/tfc_linearNonlinear.py 106. -/
noncomputable def hybF (x : ℝ) : ℝ := -Real.exp (Real.pi - 2 * x) + Real.exp (Real.pi / 2 - x)

/-- `L1`, J/Chapter_4/Example_4_5/tfc_linearNonlinear.py 109. -/
noncomputable def hybResid1 (y : ℝ → ℝ) (x : ℝ) : ℝ := deriv (deriv y) x + y x - hybF x

/-- `L2`, J/Chapter_4/Example_4_5/tfc_linearNonlinear.py 110–111. -/
noncomputable def hybResid2 (y : ℝ → ℝ) (x : ℝ) : ℝ := deriv (deriv y) x + y x * deriv y x - hybF x

/-- `y0`, J/Chapter_4/Example_4_5/tfc_linearNonlinear.py 30. -/
noncomputable def hybY0 : ℝ := 9 / 10 + 1 / 10 * Real.exp (Real.pi / 2) * (5 - 2 * Real.exp (Real.pi / 2))

/-- `yf`, J/Chapter_4/Example_4_5/tfc_linearNonlinear.py 31. -/
noncomputable def hybYf : ℝ := Real.exp (-Real.pi / 2)

/-! ## Two variables -/

/-- `real`, tests/test_PDE.py 19, 65. -/
noncomputable def pdeReal (x y : ℝ) : ℝ := y ^ 2 * Real.sin (Real.pi * x)

/-- `z1`, tests/test_PDE.py 34, 80, at one point: `g` is `np.dot(H(*x),xi)`. -/
noncomputable def pdeU1 (g : ℝ → ℝ → ℝ) (x y : ℝ) : ℝ := g x y - (1 - x) * g 0 y - x * g 1 y

/-- `z`, tests/test_PDE.py 35, 81. -/
noncomputable def pdeU (g : ℝ → ℝ → ℝ) (x y : ℝ) : ℝ :=
  pdeU1 g x y - pdeU1 g x 0 + y * (2 * Real.sin (Real.pi * x) - dy (pdeU1 g) x 1)

/-- `r`, tests/test_PDE.py 42, 88. -/
noncomputable def pdeResid (z : ℝ → ℝ → ℝ) (x y : ℝ) : ℝ :=
  dx (dx z) x y + dy (dy z) x y + z x y * dy z x y
    - Real.sin (Real.pi * x) * (2 - Real.pi ^ 2 * y ^ 2 + 2 * y ^ 3 * Real.sin (Real.pi * x))

/-- `real`, D/Chapter_3/Example_3_2_tfc.py 22, Example_3_4.py 18, Example_3_5.py 24. -/
noncomputable def poiReal (x y : ℝ) : ℝ := Real.exp (-x) * (x + y ^ 3)

/-- `L`, D/Chapter_3/Example_3_2_tfc.py 50–51, Example_3_5.py 52–53. -/
noncomputable def poiResid (u : ℝ → ℝ → ℝ) (x y : ℝ) : ℝ :=
  dx (dx u) x y + dy (dy u) x y - Real.exp (-x) * (x - 2 + y ^ 3 + 6 * y)

/-- `real`, D/Chapter_4/WaveEquation/WaveEquation.py 20. -/
noncomputable def wavReal (x t : ℝ) : ℝ := Real.sin (Real.pi * x) * Real.cos (Real.pi * t)

/-- `L`, D/Chapter_4/WaveEquation/WaveEquation.py 48. -/
noncomputable def wavResid (u : ℝ → ℝ → ℝ) (x t : ℝ) : ℝ := dx (dx u) x t - dy (dy u) x t

/-- `real`, D/Chapter_4/BiharmonicEquation/BiharmonicCartesianCoordinates.py 20. -/
noncomputable def bihReal (x y : ℝ) : ℝ := 1 / Real.pi ^ 2 * Real.sin (Real.pi * x) * Real.sin (Real.pi * y)

/-- `L`, D/Chapter_4/BiharmonicEquation/BiharmonicCartesianCoordinates.py 57–60. -/
noncomputable def bihResid (u : ℝ → ℝ → ℝ) (x y : ℝ) : ℝ :=
  dx (dx (dx (dx u))) x y + dy (dy (dy (dy u))) x y + 2 * dy (dy (dx (dx u))) x y
    - 4 * Real.pi ^ 2 * Real.sin (Real.pi * x) * Real.sin (Real.pi * y)

/-- `L`, D/Chapter_4/BiharmonicEquation/BiharmonicPolarCoordinates.py 59–69. -/
noncomputable def polResid (u : ℝ → ℝ → ℝ) (r th : ℝ) : ℝ :=
  dx (dx (dx (dx u))) r th + 2 / r ^ 2 * dy (dy (dx (dx u))) r th + 1 / r ^ 4 * dy (dy (dy (dy u))) r th
    + 2 / r * dx (dx (dx u)) r th - 2 / r ^ 3 * dy (dy (dx u)) r th - 1 / r ^ 2 * dx (dx u) r th + 4 / r ^ 4 * dy (dy u) r th
    + 1 / r ^ 3 * dx u r th

/-- `r`, E/PDE/Burgers1D.py 45–48. -/
noncomputable def burResid (p : BurgersPar) (u : ℝ → ℝ → ℝ) (x t : ℝ) : ℝ :=
  dy u x t + p.alpha * u x t * dx u x t - p.nu * dx (dx u) x t

/-- `realSoln`, B/Chapter_3/Problem_8.py 16. -/
noncomputable def annReal (r th : ℝ) : ℝ := 4 * (-1024 + r ^ 10) * Real.sin (5 * th) / (1023 * r ^ 5)

/-- `L`, B/Chapter_3/Problem_8.py 34–37. -/
noncomputable def annResid (u : ℝ → ℝ → ℝ) (r th : ℝ) : ℝ :=
  dx (dx u) r th + 1 / r * dx u r th + 1 / r ^ 2 * dy (dy u) r th

/-! ## Three variables -/

/-- `real`, D/Chapter_4/WaveEquation/WaveEquation2D.py 18, WaveEquationComparison2D.py 19. -/
noncomputable def wav2Real (x y t : ℝ) : ℝ :=
  Real.sin (Real.pi * x) * Real.sin (Real.pi * y) * Real.cos (Real.pi * Real.sqrt 2 / 8 * t)

/-- `L`, D/Chapter_4/WaveEquation/WaveEquation2D.py 44–48, `r` of WaveEquationComparison2D.py 49. -/
noncomputable def wav2Resid (u : ℝ → ℝ → ℝ → ℝ) (x y t : ℝ) : ℝ :=
  deriv (fun x => deriv (fun x => u x y t) x) x + deriv (fun y => deriv (fun y => u x y t) y) y
    - 64 * deriv (fun t => deriv (fun t => u x y t) t) t

/-- `uTrue`, D/Chapter_3/Navier_Stokes_TFC_and_XTFC.py 117, Navier_Stokes_DeepTFC.py 78: the profile at the end of the channel. -/
noncomputable def nsReal (Hb mu P y : ℝ) : ℝ := P * (4 * y ^ 2 - Hb ^ 2) / (8 * mu)

/-- `L1`, `L2`, `L3`, D/Chapter_3/Navier_Stokes_TFC_and_XTFC.py 53–62; `u`, `v` are `f` with the coefficients `xiu`, `xiv`. -/
noncomputable def nsResid (rho mu P : ℝ) (u v : ℝ → ℝ → ℝ → ℝ) (x y t : ℝ) : ℝ × ℝ × ℝ :=
  (deriv (fun x => u x y t) x + deriv (fun y => v x y t) y,
   rho * (deriv (fun t => u x y t) t + u x y t * deriv (fun x => u x y t) x + v x y t * deriv (fun y => u x y t) y) + P
     - mu * (deriv (fun x => deriv (fun x => u x y t) x) x + deriv (fun y => deriv (fun y => u x y t) y) y),
   rho * (deriv (fun t => v x y t) t + u x y t * deriv (fun x => v x y t) x + v x y t * deriv (fun y => v x y t) y)
     - mu * (deriv (fun x => deriv (fun x => v x y t) x) x + deriv (fun y => deriv (fun y => v x y t) y) y))

end Verif.Model.Prog
