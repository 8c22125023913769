import Verif.Model.Sets

/-!
# Model of the example programs that join two segments

D/Appendices/Appendix_D.py (the same file as B/Chapter_3/section_3_5_4.py), J/Chapter_4/Example_4_6/convectionDiffusionNLS.py,
J/Chapter_4/Example_4_5/tfc_linearNonlinear.py (B/Chapter_3/Problem_3.py). `h1 d z` and `h2 d z` are the products of `H(z, d=d)` with
`xi['xi1']` and `xi['xi2']`; `y` and `yd` are `xi['y']` and `xi['yd']`.
-/

namespace Verif.Model.Prog

/-- `xpBoundL` and `xpBoundU`, Appendix_D.py 53–58. -/
noncomputable def xpBounds (Pe : ℝ) : ℝ × ℝ := if Pe > 10 ^ 3 then (0 + 0.001, 1 - 0.001) else (0 + 0.1, 1 - 0.1)

/-- `xp`, Appendix_D.py 77. -/
noncomputable def splitXp (Pe xpHat : ℝ) : ℝ := clamp (xpBounds Pe).1 (xpBounds Pe).2 xpHat

/-- `xpdark` and `xp`, convectionDiffusionNLS.py 30, 35, 54–56. -/
noncomputable def nlsXp (b : ℝ) : ℝ :=
  let xpdark := 2 / b ^ 2 + 0
  xpdark + ((1 - 0.001) - xpdark) * step (xpdark - (1 - 0.001))

/-- `c1`, Appendix_D.py 79 and convectionDiffusionNLS.py 58 (`xI = 0`). -/
noncomputable def segC1 (xp : ℝ) : ℝ := 2 / (xp - 0)

/-- `c2`, Appendix_D.py 80 and convectionDiffusionNLS.py 59 (`xf = 1`). -/
noncomputable def segC2 (xp : ℝ) : ℝ := 2 / (1 - xp)

/-- `x1`, Appendix_D.py 82 and convectionDiffusionNLS.py 61. -/
noncomputable def segX1 (xp z : ℝ) : ℝ := (z + 1) / segC1 xp + 0

/-- `x2`, Appendix_D.py 83 and convectionDiffusionNLS.py 62. -/
noncomputable def segX2 (xp z : ℝ) : ℝ := (z + 1) / segC2 xp + xp

/-- `y1`, Appendix_D.py 85–87 (`z0 = -1`, `zf = 1`) and convectionDiffusionNLS.py 64–66, 72–75 (`z0`, `zf` the ends of `tfc.z`, 46–49). -/
noncomputable def segY1 (h : ℕ → ℝ → ℝ) (z0 zf xp y yd z : ℝ) : ℝ :=
  h 0 z + (1 - 2 * z + z ^ 2) / 4 * (1 - h 0 z0) + (3 + 2 * z - z ^ 2) / 4 * (y - h 0 zf)
    + (-1 + z ^ 2) / 2 * (yd / segC1 xp - h 1 zf)

/-- `y2`, Appendix_D.py 93–95 and convectionDiffusionNLS.py 68–70, 83–86. -/
noncomputable def segY2 (h : ℕ → ℝ → ℝ) (z0 zf xp y yd z : ℝ) : ℝ :=
  h 0 z + (3 - 2 * z - z ^ 2) / 4 * (y - h 0 z0) + (1 - z ^ 2) / 2 * (yd / segC2 xp - h 1 z0)
    + (1 + 2 * z + z ^ 2) / 4 * (0 - h 0 zf)

/-- `yd1`, Appendix_D.py 88–90 and convectionDiffusionNLS.py 76–80. -/
noncomputable def segYd1 (h : ℕ → ℝ → ℝ) (z0 zf xp y yd z : ℝ) : ℝ := deriv (segY1 h z0 zf xp y yd) z * segC1 xp

/-- `yd2`, Appendix_D.py 96–98 and convectionDiffusionNLS.py 88–90. -/
noncomputable def segYd2 (h : ℕ → ℝ → ℝ) (z0 zf xp y yd z : ℝ) : ℝ := deriv (segY2 h z0 zf xp y yd) z * segC2 xp

/-- `ys1`, tfc_linearNonlinear.py 58–61, 79–87. -/
noncomputable def hybridY1 (h : ℕ → ℝ → ℝ) (pts : List ℝ) (x0 x1 y0 y1 y1d x : ℝ) : ℝ :=
  h 0 x + 1 / (x1 - x0) ^ 2 * (x1 ^ 2 - 2 * x1 * x + x ^ 2) * (y0 - h 0 (first pts))
    + 1 / (x1 - x0) ^ 2 * (x0 * (x0 - 2 * x1) + 2 * x1 * x - x ^ 2) * (y1 - h 0 (last pts))
    + 1 / (x1 - x0) * (x0 * x1 - (x0 + x1) * x + x ^ 2) * (y1d - h 1 (last pts))

/-- `ys2`, tfc_linearNonlinear.py 70–73, 93–101. -/
noncomputable def hybridY2 (h : ℕ → ℝ → ℝ) (pts : List ℝ) (x1 xf y1 y1d yf x : ℝ) : ℝ :=
  h 0 x + 1 / (xf - x1) ^ 2 * (xf * (xf - 2 * x1) + 2 * x1 * x - x ^ 2) * (y1 - h 0 (first pts))
    + 1 / (xf - x1) * (-xf * x1 + (xf + x1) * x - x ^ 2) * (y1d - h 1 (first pts))
    + 1 / (xf - x1) ^ 2 * (x1 ^ 2 - 2 * x1 * x + x ^ 2) * (yf - h 0 (last pts))

end Verif.Model.Prog
