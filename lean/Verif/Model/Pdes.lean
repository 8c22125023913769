import Verif.Model.Sets
import Mathlib.MeasureTheory.Integral.IntervalIntegral.Basic

/-!
# Model of the constrained expressions of the example programs with several independent variables

One entry of the arrays: all operations work entry by entry. `g x y` is the free function, `np.dot(H(x,y),xi)` in the programs that use an
`mtfc` object (by C79_object a smooth function, and `Hx`, `Hx2` its derivatives), a given function or a neural network in the others. `egrad`
of an expression in its variable `x[0]` is `dx`, in `x[1]` it is `dy`. B is /repo/examples/TfcBook, D is
/repo/examples/Carl_Leake_Dissertation, E is /repo/examples/Extra_Examples.
-/

namespace Verif.Model.Prog

/-- `egrad(g, 1)` of `g(xi, x, y)`: the derivative in `x`, TFCUtils.py 75–116 (C54). -/
noncomputable def dx (g : ℝ → ℝ → ℝ) (x y : ℝ) : ℝ := deriv (fun s => g s y) x

/-- `egrad(g, 2)` of `g(xi, x, y)`: the derivative in `y`, TFCUtils.py 75–116 (C54). -/
noncomputable def dy (g : ℝ → ℝ → ℝ) (x y : ℝ) : ℝ := deriv (fun s => g x s) y

/-- `u` of B/Chapter_1/example_1_29.py 17–24. -/
noncomputable def lines4 (g : ℝ → ℝ → ℝ) (x y : ℝ) : ℝ :=
  g x y + -y * (y - 1) * (y - 3) / 30 * (Real.sin (2 * x) - g x (-2))
    + (y + 2) * (y - 1) * (y - 3) / 6 * (5 * Real.sqrt |x| - g x 0)
    + -y * (y + 2) * (y - 3) / 6 * (9 * Real.exp (-x ^ 2) - g x 1)
    + y * (y + 2) * (y - 1) / 30 * ((1 - x) - g x 3)

/-- `u` of B/Chapter_1/example_1_30.py 18–24. -/
noncomputable def lines3 (g : ℝ → ℝ → ℝ) (x y : ℝ) : ℝ :=
  g x y + (y ^ 2 - 1) / 3 * (Real.sin (2 * x) - g x (-2)) + -(y ^ 2 + y - 2) * dy g x 0
    + (4 - y ^ 2) / 3 * (9 * Real.exp (-x ^ 2) - g x 1)

/-- `u1` of B/Chapter_2/example_2_4.py 17–19 (D/Chapter_2/Example_2_6.py). -/
noncomputable def relU1 (g : ℝ → ℝ → ℝ) (x y : ℝ) : ℝ :=
  g x y + (3 - 2 * x) / 3 * (y ^ 2 * Real.sin (Real.pi * y) - g 0 y) + x / 3 * (y * Real.sin (Real.pi * y) - g 2 y - g 1 y)

/-- `u` of B/Chapter_2/example_2_4.py 20–23 (D/Chapter_2/Example_2_6.py). -/
noncomputable def relU (g : ℝ → ℝ → ℝ) (x y : ℝ) : ℝ :=
  relU1 g x y - (y - y ^ 2) * dy (relU1 g) x 0 - y ^ 2 * (relU1 g x 1 - relU1 g x 0)

/-- `u1` of B/Chapter_2/example_2_8.py 19 (D/Chapter_2/Example_2_9.py); `int1` is the number of lines 15–16. -/
noncomputable def compU1 (gu : ℝ → ℝ → ℝ) (int1 x y : ℝ) : ℝ :=
  gu x y + (1 - x) * (Real.cos (Real.pi * y) - gu 0 y) + x / 3 * (Real.exp 1 - int1)

/-- `u` of B/Chapter_2/example_2_8.py 20. -/
noncomputable def compU (gu : ℝ → ℝ → ℝ) (int1 x y : ℝ) : ℝ :=
  compU1 gu int1 x y + (1 - 2 * y) / 2 * (compU1 gu int1 x 2 - compU1 gu int1 x 1 - 2)

/-- `v1` of B/Chapter_2/example_2_8.py 22. -/
noncomputable def compV1 (gv : ℝ → ℝ → ℝ) (x y : ℝ) : ℝ := gv x y + 5 - Real.cos (Real.pi * y) - gv 0 y

/-- `v` of B/Chapter_2/example_2_8.py 23. -/
noncomputable def compV (gu gv : ℝ → ℝ → ℝ) (int1 x y : ℝ) : ℝ := compV1 gv x y + 5 - compV1 gv x 0 - compU gu int1 x 0

/-- `gu`, B/Chapter_2/example_2_8.py 12. -/
noncomputable def compGu (x y : ℝ) : ℝ := x * y + Real.sin x + y ^ 2

/-- `intgu`, B/Chapter_2/example_2_8.py 15. -/
noncomputable def compInt (y : ℝ) : ℝ := y ^ 2 / 2 + Real.sin 1 * y + y ^ 3 / 3

/-- `u1` of D/Chapter_3/Example_3_2_tfc.py 42–44, Example_3_5.py 44–46, auxillary/Example_3_4_aux.py 35–36. -/
noncomputable def poiU1 (g : ℝ → ℝ → ℝ) (x y : ℝ) : ℝ :=
  g x y + (1 - x) * (y ^ 3 - g 0 y) + x * ((1 + y ^ 3) * Real.exp (-1) - g 1 y)

/-- `u` of D/Chapter_3/Example_3_2_tfc.py 45–47, Example_3_5.py 47–49, auxillary/Example_3_4_aux.py 37–38. -/
noncomputable def poiU (g : ℝ → ℝ → ℝ) (x y : ℝ) : ℝ :=
  poiU1 g x y + (1 - y) * (x * Real.exp (-x) - poiU1 g x 0) + y * (Real.exp (-x) * (x + 1) - poiU1 g x 1)

/-- `u1` of D/Chapter_4/WaveEquation/WaveEquation.py 40. -/
noncomputable def wavU1 (g : ℝ → ℝ → ℝ) (x t : ℝ) : ℝ := g x t - (1 - x) * g 0 t - x * g 1 t

/-- `u` of D/Chapter_4/WaveEquation/WaveEquation.py 41–42. -/
noncomputable def wavU (g : ℝ → ℝ → ℝ) (x t : ℝ) : ℝ :=
  wavU1 g x t + Real.sin (Real.pi * x) - wavU1 g x 0 - t * dy (wavU1 g) x 0

/-- `u1` of D/Chapter_4/BiharmonicEquation/BiharmonicCartesianCoordinates.py 43–47. -/
noncomputable def bihU1 (g : ℝ → ℝ → ℝ) (x y : ℝ) : ℝ :=
  g x y - (1 - x) * g 0 y - x * g 1 y - (-x ^ 3 + 3 * x ^ 2 - 2 * x) / 6 * dx (dx g) 0 y - (x ^ 3 - x) / 6 * dx (dx g) 1 y

/-- `u` of D/Chapter_4/BiharmonicEquation/BiharmonicCartesianCoordinates.py 48–53. -/
noncomputable def bihU (g : ℝ → ℝ → ℝ) (x y : ℝ) : ℝ :=
  bihU1 g x y - (1 - y) * bihU1 g x 0 - y * bihU1 g x 1
    - (-y ^ 3 + 3 * y ^ 2 - 2 * y) / 6 * dy (dy (bihU1 g)) x 0 - (y ^ 3 - y) / 6 * dy (dy (bihU1 g)) x 1

/-- `real` of D/Chapter_4/BiharmonicEquation/BiharmonicPolarCoordinates.py 20. -/
noncomputable def polReal (r th : ℝ) : ℝ :=
  r ^ 2 / 8 + Real.pi * Real.cos th / r + r ^ 2 / 4 * Real.sin (2 * th) + r ^ 3 / 16 * Real.sin (3 * th)

/-- `u1` of D/Chapter_4/BiharmonicEquation/BiharmonicPolarCoordinates.py 21, 44–48. -/
noncomputable def polU1 (g : ℝ → ℝ → ℝ) (r th : ℝ) : ℝ :=
  g r th + (-r + 4) / 3 * (polReal 1 th - g 1 th) + (r - 1) / 3 * (polReal 4 th - g 4 th)
    + (-r ^ 3 + 12 * r ^ 2 - 39 * r + 28) / 18 * (dx (dx polReal) 1 th - dx (dx g) 1 th)
    + (r ^ 3 - 3 * r ^ 2 - 6 * r + 8) / 18 * (dx (dx polReal) 4 th - dx (dx g) 4 th)

/-- `u` of D/Chapter_4/BiharmonicEquation/BiharmonicPolarCoordinates.py 49–56. -/
noncomputable def polU (g : ℝ → ℝ → ℝ) (r th : ℝ) : ℝ :=
  polU1 g r th - th / (2 * Real.pi) * (polU1 g r (2 * Real.pi) - polU1 g r 0)
    + (-th ^ 2 + 2 * Real.pi * th) / (4 * Real.pi) * (dy (polU1 g) r (2 * Real.pi) - dy (polU1 g) r 0)
    + (-th ^ 3 + 3 * Real.pi * th ^ 2 - 2 * Real.pi ^ 2 * th) / (12 * Real.pi) *
        (dy (dy (polU1 g)) r (2 * Real.pi) - dy (dy (polU1 g)) r 0)
    + (-th ^ 4 + 4 * Real.pi * th ^ 3 - 4 * Real.pi ^ 2 * th ^ 2) / (48 * Real.pi) *
        (dy (dy (dy (polU1 g))) r (2 * Real.pi) - dy (dy (dy (polU1 g))) r 0)

/-- The constants `c`, `nu`, `alpha`, `xInit`, `xFinal` of E/PDE/Burgers1D.py 10–14. -/
structure BurgersPar where
  c : ℝ
  nu : ℝ
  alpha : ℝ
  xInit : ℝ
  xFinal : ℝ

/-- `real` of E/PDE/Burgers1D.py 26 (B/Chapter_3/section_3_6_3_Burgers_TFC.py). -/
noncomputable def burReal (p : BurgersPar) (x t : ℝ) : ℝ :=
  p.c / p.alpha - p.c / p.alpha * Real.tanh (p.c * (x - p.c * t) / (2 * p.nu))

/-- `u1` of E/PDE/Burgers1D.py 38–40. -/
noncomputable def burU1 (p : BurgersPar) (g : ℝ → ℝ → ℝ) (x t : ℝ) : ℝ :=
  g x t + (p.xFinal - x) / (p.xFinal - p.xInit) *
      (p.c / p.alpha - p.c / p.alpha * Real.tanh (p.c * (p.xInit - p.c * t) / (2 * p.nu)) - g p.xInit t)
    + (x - p.xInit) / (p.xFinal - p.xInit) *
      (p.c / p.alpha - p.c / p.alpha * Real.tanh (p.c * (p.xFinal - p.c * t) / (2 * p.nu)) - g p.xFinal t)

/-- `u` of E/PDE/Burgers1D.py 41–42. -/
noncomputable def burU (p : BurgersPar) (g : ℝ → ℝ → ℝ) (x t : ℝ) : ℝ :=
  burU1 p g x t + p.c / p.alpha - p.c / p.alpha * Real.tanh (p.c * x / (2 * p.nu)) - burU1 p g x 0

/-- `u1` of B/Chapter_3/Problem_8.py 25–27, with `r0 = 2`, `rf = 4` (11–12). -/
noncomputable def annU1 (g : ℝ → ℝ → ℝ) (r th : ℝ) : ℝ :=
  g r th + (r - 4) / (2 - 4) * (0 - g 2 th) + (r - 2) / (4 - 2) * (4 * Real.sin (5 * th) - g 4 th)

/-- `u` of B/Chapter_3/Problem_8.py 28–30, with `th0 = 0`, `thf = 2π` (13–14). -/
noncomputable def annU (g : ℝ → ℝ → ℝ) (r th : ℝ) : ℝ :=
  annU1 g r th + -th / (2 * Real.pi) * (annU1 g r (2 * Real.pi) - annU1 g r 0)
    + (-th ^ 2 + 2 * Real.pi * th) / (4 * Real.pi) * (dy (annU1 g) r (2 * Real.pi) - dy (annU1 g) r 0)

/-! ## Three variables -/

/-- `f1` of D/Chapter_3/Navier_Stokes_TFC_and_XTFC.py 49 (B/Chapter_3/section_3_6_4_TFC_and_X-TFC.py): `Hx` is the derivative in the
first variable, `xend` the constant of line 15. -/
noncomputable def nsF1 (xend : ℝ) (g : ℝ → ℝ → ℝ → ℝ) (x y t : ℝ) : ℝ :=
  g x y t - g 0 y t - x * deriv (fun s => g s y t) xend

/-- `f2` of D/Chapter_3/Navier_Stokes_TFC_and_XTFC.py 50. -/
noncomputable def nsF2 (Hb xend : ℝ) (g : ℝ → ℝ → ℝ → ℝ) (x y t : ℝ) : ℝ :=
  nsF1 xend g x y t - (Hb - 2 * y) / (2 * Hb) * nsF1 xend g x (-Hb / 2) t - (Hb + 2 * y) / (2 * Hb) * nsF1 xend g x (Hb / 2) t

/-- `f` of D/Chapter_3/Navier_Stokes_TFC_and_XTFC.py 51. -/
noncomputable def nsF (Hb xend : ℝ) (g : ℝ → ℝ → ℝ → ℝ) (x y t : ℝ) : ℝ := nsF2 Hb xend g x y t - nsF2 Hb xend g x y 0

/-- `u1` of D/Chapter_4/WaveEquation/WaveEquation2D.py 38 and WaveEquationComparison2D.py 39. -/
noncomputable def wav2U1 (g : ℝ → ℝ → ℝ → ℝ) (x y t : ℝ) : ℝ := g x y t - (1 - x) * g 0 y t - x * g 1 y t

/-- `u2` of D/Chapter_4/WaveEquation/WaveEquation2D.py 39 and WaveEquationComparison2D.py 40. -/
noncomputable def wav2U2 (g : ℝ → ℝ → ℝ → ℝ) (x y t : ℝ) : ℝ := wav2U1 g x y t - (1 - y) * wav2U1 g x 0 t - y * wav2U1 g x 1 t

/-- `u` of D/Chapter_4/WaveEquation/WaveEquation2D.py 40–41 and WaveEquationComparison2D.py 41–42. -/
noncomputable def wav2U (g : ℝ → ℝ → ℝ → ℝ) (x y t : ℝ) : ℝ :=
  wav2U2 g x y t + Real.sin (Real.pi * x) * Real.sin (Real.pi * y) - wav2U2 g x y 0 - t * deriv (fun s => wav2U2 g x y s) 0

/-- `u` of D/Appendices/Appendix_I/Example_I_2.py 12. -/
noncomputable def pointU (g : ℝ → ℝ → ℝ) (x y : ℝ) : ℝ := g x y + 5 - g 0 0

/-- `u` of D/Appendices/Appendix_I/Example_I_3.py 16–20. -/
noncomputable def cubeU (g : ℝ → ℝ → ℝ → ℝ) (x y z : ℝ) : ℝ :=
  g x y z + z * (Real.sin x * Real.cos y - g x y 1)
    + (1 - z) * ((1 - x) * (Real.exp y - g 0 y 0) + x * ((1 - y) * (3 - g 1 0 0) + y * (5 - g 1 1 0)))

/-! ## An affine image of the unit square, and Coons patches -/

/-- `A` of B/Chapter_2/example_2_16.py 13–21 (D/Appendices/Appendix_I/Example_I_1.py), with the columns `p1-p0 = (2,1)`, `p2-p0 = (1,1)` of `a` written out. -/
def affA (X : ℝ × ℝ) : ℝ × ℝ := (2 * X.1 + 1 * X.2 + 2, 1 * X.1 + 1 * X.2 + 3)

/-- `Ainv` of B/Chapter_2/example_2_16.py 17, 23–25, with the inverse of `a` written out. -/
def affAinv (x : ℝ × ℝ) : ℝ × ℝ := (1 * (x.1 - 2) + (-1) * (x.2 - 3), (-1) * (x.1 - 2) + 2 * (x.2 - 3))

/-- `dgn1` of B/Chapter_2/example_2_16.py 28–30, 36. -/
noncomputable def affDn1 (g : ℝ → ℝ → ℝ) (x : ℝ × ℝ) : ℝ :=
  dx g x.1 x.2 * (2 / Real.sqrt (2 ^ 2 + 1 ^ 2)) + dy g x.1 x.2 * (1 / Real.sqrt (2 ^ 2 + 1 ^ 2))

/-- `u1` of B/Chapter_2/example_2_16.py 39–41; `I` is `intgn2`. -/
noncomputable def affU1 (g : ℝ → ℝ → ℝ) (I : ℝ → ℝ) (x : ℝ × ℝ) : ℝ :=
  g x.1 x.2 + Real.sqrt (2 ^ 2 + 1 ^ 2) * ((affAinv x).1 - 1) * (0.5 - affDn1 g (affA (0, (affAinv x).2)))
    + 1 / Real.sqrt (1 ^ 2 + 1 ^ 2) * (-2 - I 5 + I 4)

/-- `uslow` of B/Chapter_2/example_2_16.py 42–43. -/
noncomputable def affU (g : ℝ → ℝ → ℝ) (I : ℝ → ℝ) (x : ℝ × ℝ) : ℝ :=
  affU1 g I x + (1 / 2 - (affAinv x).2) * (affU1 g I (affA ((affAinv x).1, 1)) - affU1 g I (affA ((affAinv x).1, 0)))

/-- `g`, B/Chapter_2/example_2_16.py 35. -/
noncomputable def affG (x y : ℝ) : ℝ := Real.sin x * Real.cos y

/-- `intgn2`, B/Chapter_2/example_2_16.py 37. -/
noncomputable def affInt (t : ℝ) : ℝ := -1 / 2 * Real.cos t ^ 2 * Real.sqrt 2

/-- `np.linalg.multi_dot([phix, M, phiy])` with `phix = PhiX(x)`, `phiy = PhiX(y)`, B/Chapter_4/Figure_4_3.py 14, 25–28: row vector, matrix,
column vector. -/
def patch (M : Fin 3 → Fin 3 → ℝ) (x y : ℝ) : ℝ := ∑ i, ∑ j, (![1, 1 - x, x] : Fin 3 → ℝ) i * M i j * (![1, 1 - y, y] : Fin 3 → ℝ) j

/-- `A(x,y)`, B/Chapter_4/Figure_4_3.py 5–7. -/
noncomputable def coonsA (x y : ℝ) : Fin 3 → Fin 3 → ℝ :=
  ![![0, 3 * x ^ 2, 3 * x * Real.cos (2 * Real.pi * x)], ![Real.sin (2 * Real.pi * y), 0, 0], ![3 * Real.cos (4 * Real.pi * y), -3, -3]]

/-- `M(x,y)`, B/Chapter_4/Figure_4_3.py 11–13. -/
noncomputable def coonsM (g : ℝ → ℝ → ℝ) (x y : ℝ) : Fin 3 → Fin 3 → ℝ :=
  ![![0, 3 * x ^ 2 - g x 0, 3 * x * Real.cos (2 * Real.pi * x) - g x 1],
    ![Real.sin (2 * Real.pi * y) - g 0 y, g 0 0, g 0 1],
    ![3 * Real.cos (4 * Real.pi * y), g 1 0 - 3, g 1 1 - 3]]

/-- `coons`, B/Chapter_4/Figure_4_3.py 27. -/
noncomputable def coons (x y : ℝ) : ℝ := patch (coonsA x y) x y

/-- `ce`, B/Chapter_4/Figure_4_3.py 28. -/
noncomputable def coonsCe (g : ℝ → ℝ → ℝ) (x y : ℝ) : ℝ := g x y + patch (coonsM g x y) x y

/-- `g`, B/Chapter_4/Figure_4_3.py 10. -/
noncomputable def coonsG (x y : ℝ) : ℝ := 3 / 5 * Real.sin (6 * Real.pi * x) * Real.cos (5 * Real.pi * y) * Real.exp x

end Verif.Model.Prog
