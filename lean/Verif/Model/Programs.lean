import Verif.Libm
import Mathlib.Analysis.SpecialFunctions.Trigonometric.Basic
import Mathlib.Analysis.Real.Sqrt
import Mathlib.Analysis.Calculus.Deriv.Basic

/-!
# Model of the programs in /repo/examples that use one independent variable: the constrained expressions

Below, D stands for /repo/examples/Carl_Leake_Dissertation, J for /repo/examples/Hunter_Johnston_Dissertation and B for
/repo/examples/TfcBook. Each expression is written as in the program. The argument `h` stands for the basis object and the coefficients:
`h 0 t` is the entry of `np.dot(H(x),xi)` for the point `t`, `h 1 t` the one of `np.dot(dH(x),xi)`. Which functions these are is the
subject of C76. Arrays of points are treated entry by entry (all operations of the expressions are entrywise), and the rows
`H(x[0:1])` used for every entry by broadcasting. `egrad` of an expression is its derivative (the rule `H_jvp`, C26).
The expressions that C93 treats in rounded arithmetic are written over any number type `K` with the operations.
-/

namespace Verif.Model.Prog

variable {K : Type} [Zero K] [One K] [Add K] [Sub K] [Mul K] [Div K] [Neg K] [NatCast K] [Pow K ℕ]

/-- `x[0:1]` or `x[0]` for the points `x` of the object. E.g. B/Chapter_3/section_3_5_2.py 31. -/
def first (x : List K) : K := x.headD 0

/-- `x[-1:]` or `x[-1]`. E.g. B/Chapter_3/section_3_5_2.py 32. -/
def last (x : List K) : K := x.getLastD 0

/-- `step(x)` at one entry, src/tfc/utils/TFCUtils.py 1731–1746 (`np.heaviside(x, 0)`, see `Verif.Model.Step`). -/
noncomputable def step (a : ℝ) : ℝ := if a < 0 then 0 else if 0 < a then 1 else 0

/-! ## Values at given points -/

/-- `g` of D/Appendices/Appendix_C.py 63–66 (the same file as B/Chapter_1/example_1_16.py), with `H0`, `H4`, `H8` of 58–60. -/
noncomputable def threePoint (h : ℕ → ℝ → ℝ) (x : ℝ) : ℝ :=
  h 0 x + (x ^ 2 - 12 * x + 32) / 32 * (0 - h 0 0) + (-x ^ 2 + 8 * x) / 16 * (-0.2 - h 0 4) + (x ^ 2 - 4 * x) / 32 * (-0.1 - h 0 8)

/-- `y` of D/Appendices/Appendix_D.py 35 and B/Chapter_3/section_3_5_4.py 35. -/
def convDiff (h : ℕ → K → K) (x : K) : K := h 0 x + (1 - x) * (1 - h 0 0) - x * h 0 1

/-- `y` of J/Chapter_4/Example_4_4/BVP_tfc.py 49–58 and B/Chapter_3/section_3_5_2.py 31–43, with `H0 = H(tfc.x[0:1])`,
`Hf = H(tfc.x[-1:])`. -/
def bvp [Libm K] (h : ℕ → K → K) (pts : List K) (y0 yf : K) (x : K) : K :=
  h 0 x + (Libm.pi - x) / Libm.pi * (y0 - h 0 (first pts)) + x / Libm.pi * (yf - h 0 (last pts))

/-- `y` of J/Chapter_4/Examples_4_1thru3/laneEmden_tfc.py 73–82 and B/Chapter_3/section_3_5_1.py 35–44 (`y0 = 1`, `y0p = 0`), and of
B/Chapter_3/example_3_1.py 55–65, Problem_1.py 55–65, Problem_2.py 68–78 (`IC['y0']`, `IC['y0p']`). -/
def ivp (h : ℕ → K → K) (pts : List K) (y0 y0p : K) (x : K) : K :=
  h 0 x + 1 * (y0 - h 0 (first pts)) + x * (y0p - h 1 (first pts))

/-- `x` of J/Chapter_4/Example_4_7/UnknownTime.py 42–56 and B/Chapter_3/Problem_5.py 42–56, with `Hx0 = Hx(xtfc.z[0:1])`. -/
def twoPointZ (h : ℕ → K → K) (pts : List K) (x0 xf : K) (a : K) : K :=
  h 0 a + (last pts - a) / (last pts - first pts) * (x0 - h 0 (first pts)) +
    (a - first pts) / (last pts - first pts) * (xf - h 0 (last pts))

/-- `r` of B/Chapter_3/Problem_4.py 20–23. -/
def brachistochrone (h : ℕ → K → K) (th0 thf r0 rf : K) (th : K) : K :=
  h 0 th + (th - thf) / (th0 - thf) * (r0 - h 0 th0) + (th - th0) / (thf - th0) * (rf - h 0 thf)

/-- `u` of B/Chapter_1/Problem_4.py 11–14. -/
noncomputable def curveU (g : ℝ → ℝ) (t : ℝ) : ℝ :=
  g t + (t - 1) * (t - 2) / 2 * (0 - g 0) + -t * (t - 2) * (Real.pi - g 1) + t * (t - 1) / 2 * (Real.exp 1 - g 2)

/-- `v` of B/Chapter_1/Problem_4.py 16–19. -/
noncomputable def curveV (g : ℝ → ℝ) (t : ℝ) : ℝ :=
  g t + (t - 1) * (t - 2) / 2 * (0 - g 0) + -t * (t - 2) * (2 - g 1) + t * (t - 1) / 2 * (-3 - g 2)

/-- `yhat` of J/Chapter_2/Example_2_9/Figure_2_2.py 42–51. -/
noncomputable def lagrange3 (h : ℕ → ℝ → ℝ) (x1 x2 x3 y1 y2 y3 : ℝ) (x : ℝ) : ℝ :=
  h 0 x
    + ((x2 * x3) / ((x1 - x2) * (x1 - x3)) - x * (x2 + x3) / ((x1 - x2) * (x1 - x3)) + x ^ 2 / ((x1 - x2) * (x1 - x3))) * (y1 - h 0 x1)
    + ((x1 * x3) / ((x1 - x2) * (x3 - x2)) + x * (x1 + x3) / ((x1 - x2) * (x2 - x3)) + x ^ 2 / ((x2 - x1) * (x2 - x3))) * (y2 - h 0 x2)
    + ((x1 * x2) / ((x1 - x3) * (x2 - x3)) + x * (x1 + x2) / ((x1 - x3) * (x3 - x2)) + x ^ 2 / ((x1 - x3) * (x2 - x3))) * (y3 - h 0 x3)

/-! ## Values and derivatives at both ends -/

/-- `phi1`, e.g. J/Chapter_4/Example_4_8/Lyap.py 55–56, J/Chapter_4/Example_4_9/Halo.py 62–63, B/Chapter_3/Problem_7.py 66–67,
B/Chapter_3/Problem_6.py 52–53, J/Chapter_6/Example_6_1/singleLoop/singleTFC_EOL.py 59–60, outerLoop/outTFC_EOL.py 60–61,
J/Chapter_6/Example_6_2/TFC_EOL.py 52–53. -/
def hphi1 (z0 zf a : K) : K :=
  1 / (zf - z0) ^ 3 * (-zf ^ 2 * (3 * z0 - zf) + 6 * z0 * zf * a - 3 * (z0 + zf) * a ^ 2 + 2 * a ^ 3)

/-- `phi2`, Lyap.py 57–58 and the other programs. -/
def hphi2 (z0 zf a : K) : K :=
  1 / (zf - z0) ^ 3 * (-z0 ^ 2 * (z0 - 3 * zf) - 6 * z0 * zf * a + 3 * (z0 + zf) * a ^ 2 - 2 * a ^ 3)

/-- `phi3`, Lyap.py 59–60 and the other programs. -/
def hphi3 (z0 zf a : K) : K :=
  1 / (zf - z0) ^ 2 * (-z0 * zf ^ 2 + zf * (2 * z0 + zf) * a - (z0 + 2 * zf) * a ^ 2 + a ^ 3)

/-- `phi4`, Lyap.py 61–62 and the other programs. -/
def hphi4 (z0 zf a : K) : K :=
  1 / (zf - z0) ^ 2 * (-z0 ^ 2 * zf + z0 * (z0 + 2 * zf) * a - (2 * z0 + zf) * a ^ 2 + a ^ 3)

/-- One component of `r`, Lyap.py 65–68 (also Halo.py 72–75, Problem_7.py 76–79): the same value and derivative at both ends. -/
def periodic (h : ℕ → K → K) (pts : List K) (R0 V0 : K) (z : K) : K :=
  h 0 z + hphi1 (first pts) (last pts) z * (R0 - h 0 (first pts)) + hphi2 (first pts) (last pts) z * (R0 - h 0 (last pts))
    + hphi3 (first pts) (last pts) z * (V0 - h 1 (first pts)) + hphi4 (first pts) (last pts) z * (V0 - h 1 (last pts))

/-- `D0` of Lyap.py 52 and Problem_7.py 60. -/
noncomputable def lyapD0 (mu X Y : ℝ) : ℝ := Real.sqrt ((X + mu - 1) ^ 2 + Y ^ 2)

/-- The components of `r(z, xi)`, Lyap.py 51–68: `R0 = [X, Y]`, `V0 = [dX, dY]/b**2/(1./D0)`. The two columns of `xi['xis']` give the
products `hx` and `hy`. -/
noncomputable def lyapR (hx hy : ℕ → ℝ → ℝ) (pts : List ℝ) (mu X Y dX dY b : ℝ) (z : ℝ) : ℝ × ℝ :=
  (periodic hx pts X (dX / b ^ 2 / (1 / lyapD0 mu X Y)) z, periodic hy pts Y (dY / b ^ 2 / (1 / lyapD0 mu X Y)) z)

/-- `r2`, Lyap.py 71 (Problem_7.py 83). -/
noncomputable def lyapR2 (mu : ℝ) (r : ℝ × ℝ) : ℝ := Real.sqrt ((r.1 + mu - 1) ^ 2 + r.2 ^ 2)

/-- `v(z, xi) = d2 * xi['b']**2 * egrad(r)(z, xi)`, Lyap.py 73–75 (Problem_7.py 86–90). -/
noncomputable def lyapV (hx hy : ℕ → ℝ → ℝ) (pts : List ℝ) (mu X Y dX dY b : ℝ) (z : ℝ) : ℝ × ℝ :=
  let d2 := 1 / lyapR2 mu (lyapR hx hy pts mu X Y dX dY b z)
  (d2 * b ^ 2 * deriv (fun z => (lyapR hx hy pts mu X Y dX dY b z).1) z,
    d2 * b ^ 2 * deriv (fun z => (lyapR hx hy pts mu X Y dX dY b z).2) z)

/-- One component of `v(z, xi) = xi['b']**2 * egrad(r)(z, xi)` of J/Chapter_4/Example_4_9/Halo.py 59–80 (`V0 = [dX, dY, dZ]/b**2`). -/
noncomputable def haloV (h : ℕ → ℝ → ℝ) (pts : List ℝ) (X dX b : ℝ) (z : ℝ) : ℝ :=
  b ^ 2 * deriv (periodic h pts X (dX / b ^ 2)) z

/-- One component of `r`, B/Chapter_3/Problem_6.py 63–67, singleTFC_EOL.py 70–74, J/Chapter_6/Example_6_2/TFC_EOL.py 63–67 (scale `b**2`)
and outTFC_EOL.py 71–75 (scale `IC['c']`): start at `R0` with velocity `V0/scale`, end at rest in 0. -/
def landing (h : ℕ → K → K) (pts : List K) (R0 V0 scale : K) (z : K) : K :=
  h 0 z + hphi1 (first pts) (last pts) z * (R0 - h 0 (first pts)) + hphi2 (first pts) (last pts) z * (-h 0 (last pts))
    + hphi3 (first pts) (last pts) z * (V0 / scale - h 1 (first pts)) + hphi4 (first pts) (last pts) z * (-h 1 (last pts))

/-! ## From an initial value to a boundary value problem -/

/-- `y` of J/Chapter_4/Example_4_11/IVP2BVP.py 49–60, with `H0 = H(tfc.z[0:1])`, `Hf = H(tfc.z[-1:])`, `H0p = dH(tfc.z[0:1])`. -/
noncomputable def ivp2bvp (h : ℕ → ℝ → ℝ) (z : List ℝ) (gamma y0 y0p yf : ℝ) (x : ℝ) : ℝ :=
  h 0 x + 1 / (1 + 4 * gamma - gamma ^ 2) * ((1 + gamma) - 2 * gamma * x) * (y0 - h 0 (first z))
    + 1 / (1 + 4 * gamma - gamma ^ 2) * ((1 - gamma) ^ 2 + (1 - gamma ^ 2) * x) * (y0p - h 1 (first z))
    + 1 / (1 + 4 * gamma - gamma ^ 2) * (-gamma * (gamma - 3) + 2 * gamma * x) * (yf - h 0 (last z))

/-! ## Balloon shapes: D/Chapter_4/NaturalBalloonShape -/

/-- `q` and `z` of NaturalBalloonShapes.py 75–76 and ConstantCircumfrentialStress.py 77–78. -/
def onePoint (h : ℕ → K → K) (v : K) (x : K) : K := h 0 x + v - h 0 (-1)

/-- `th` of NaturalBalloonShapes.py 52, 77 and ConstantCircumfrentialStress.py 54, 79. -/
noncomputable def balloonTh (h : ℕ → ℝ → ℝ) (beta : ℝ) (x : ℝ) : ℝ :=
  h 0 x + (1 - x) / 2 * ((Real.pi / 2 - beta) - h 0 (-1)) + (x + 1) / 2 * (-Real.pi / 2 - h 0 1)

/-- `r` of NaturalBalloonShapes.py 51, 78 and ConstantCircumfrentialStress.py 53, 80 (`Rs` is 2.75). -/
noncomputable def balloonR (h : ℕ → ℝ → ℝ) (Rs beta : ℝ) (x : ℝ) : ℝ :=
  h 0 x + (1 - x) / 2 * (Rs * Real.sin beta - h 0 (-1)) - (x + 1) / 2 * h 0 1

/-- The entries of the dictionary `const` used by `To`, NaturalBalloonShapes.py 58. -/
structure BalloonConst where
  L : ℝ
  g : ℝ
  Msg : ℝ
  atm_density : ℝ

/-- `z0`, NaturalBalloonShapes.py 50. -/
noncomputable def balloonZ0 (Rs beta : ℝ) : ℝ := Rs * (1 - Real.cos beta)

/-- `Vs`, NaturalBalloonShapes.py 26. -/
noncomputable def balloonVs (Rs : ℝ) : ℝ := 4 / 3 * Real.pi * Rs ^ 3

/-- `To1`, NaturalBalloonShapes.py 55–58 (ConstantCircumfrentialStress.py 57–60). -/
noncomputable def balloonTo1 (Rs w ws : ℝ) (c : BalloonConst) (beta : ℝ) : ℝ :=
  let z0 := balloonZ0 Rs beta
  let Aso := 2 * Real.pi * Rs * z0
  let Vso := Real.pi / 3 * z0 ^ 2 * (3 * Rs - z0)
  c.L + c.g * (w + ws) * Aso + c.g * (Vso / balloonVs Rs * c.Msg - Vso * c.atm_density)

/-- `To2`, NaturalBalloonShapes.py 59–63 (ConstantCircumfrentialStress.py 61–65), with `As` of 25. -/
noncomputable def balloonTo2 (Rs w ws : ℝ) (c : BalloonConst) (beta : ℝ) : ℝ :=
  let Hq := 2 * Rs - balloonZ0 Rs beta
  let Aso := 4 * Real.pi * Rs ^ 2 - 2 * Real.pi * Rs * Hq
  let Vso := balloonVs Rs - Real.pi / 3 * Hq ^ 2 * (3 * Rs - Hq)
  c.L + c.g * (w + ws) * Aso + c.g * (Vso / balloonVs Rs * c.Msg - Vso * c.atm_density)

/-- `np.heaviside(x, h0)` at one entry. NaturalBalloonShapes.py 65. -/
noncomputable def heaviside (x h0 : ℝ) : ℝ := if x < 0 then 0 else if 0 < x then 1 else h0

/-- `To`, NaturalBalloonShapes.py 64–65 (ConstantCircumfrentialStress.py 66–67). -/
noncomputable def balloonTo (Rs w ws : ℝ) (c : BalloonConst) (beta : ℝ) : ℝ :=
  heaviside (-(beta - Real.pi)) 0 * balloonTo1 Rs w ws c beta + heaviside (beta - Real.pi) 1 * balloonTo2 Rs w ws c beta

/-! ## Propagation -/

/-- The choice of the number of constraints, B/Chapter_3/example_3_1.py 32–37, Problem_1.py 32–37, Problem_2.py 45–50:
`if basis == 'CP' or 'LeP'`; a non-empty string counts as true. -/
def nCOf (basis : String) : ℕ :=
  if basis == "CP" || "LeP" != "" then 2 else if basis == "FS" then 1 else 0

/-- What one round of the loop leaves behind, B/Chapter_3/example_3_1.py 93–107 and Problem_2.py 106–120: the row `xSol[i,:]`, the row
`ySol[i,:]`, and the function `x ↦ y(x,xi,IC)` with the `IC` of the round. -/
structure Round where
  xs : List ℝ
  ys : List ℝ
  fn : ℝ → ℝ

/-- The variables of the loop: `IC['y0']`, `IC['y0p']`, `xFinal`, and the rows filled so far. example_3_1.py 78, 84–91. -/
structure LoopState where
  y0 : ℝ
  y0p : ℝ
  xFinal : ℝ
  rounds : List Round

/-- One round, example_3_1.py 93–107 (Problem_2.py 106–120). `h` are the products for the coefficients `xi` that `ls.run` (`nlls.run`)
returned, any coefficients. `res` and `time` are left out. -/
noncomputable def propagate (x : List ℝ) (s : LoopState) (h : ℕ → ℝ → ℝ) : LoopState :=
  let f := ivp h x s.y0 s.y0p
  let i := s.rounds.length
  let xs := if i > 0 then x.dropLast.map (s.xFinal + ·) else x.dropLast
  let xFinal := if i > 0 then s.xFinal + last x else s.xFinal
  ⟨f (last x), deriv f (last x), xFinal, s.rounds ++ [⟨xs, x.dropLast.map f, f⟩]⟩

/-- The loop `for i in tqdm.trange(Nstep)`, example_3_1.py 78, 90–107 (Problem_2.py 92, 103–120): `hs` has one entry for each step. -/
noncomputable def propagateAll (x : List ℝ) (y0 y0p : ℝ) (hs : List (ℕ → ℝ → ℝ)) : LoopState :=
  hs.foldl (propagate x) ⟨y0, y0p, last x, []⟩

end Verif.Model.Prog
