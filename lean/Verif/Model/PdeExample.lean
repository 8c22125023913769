import Verif.Model.Pde
import Verif.Model.Pdes
import Verif.Model.Ode
import Mathlib.Analysis.Calculus.IteratedDeriv.Defs

/-!
# Model of the example programs that solve a partial differential equation in two variables with an `mtfc` object

The programs write a constrained expression in two steps, `u1` for the conditions on lines `x = p` and `u` for those on lines `y = p`, apply
`egrad` to it, form the residual at the collocation points and solve for `xi`. The general form of these steps is modelled first,
then the data of each program. B is /repo/examples/TfcBook, D is /repo/examples/Carl_Leake_Dissertation, E is
/repo/examples/Extra_Examples.
-/

namespace Verif.Model.Py

open Verif.Py Verif.Np Verif.Model.LSq Verif.Model.Prog

/-- A summand `weight * (data - Σ a * (derivative of order r at p))` of an expression, e.g. `(1.-x[0])*(x[1]**3-np.dot(H(np.zeros_like(x[0]),
x[1]),xi))` in D/Chapter_3/Example_3_2_tfc.py 43, where `weight` is `1-x`, `data` is `y³` and `terms` is `[(1, 0, 0)]`. A summand without
`data` has the data 0. -/
structure SideCond where
  weight : ℝ → ℝ
  terms : List (ℝ × ℕ × ℝ)
  data : ℝ → ℝ

/-- The expressions `u1` (conditions `xs`) and `u` (conditions `ys`), D/Chapter_3/Example_3_2_tfc.py 42–47. -/
structure TwoStep where
  xs : List SideCond
  ys : List SideCond

/-- A summand `coef * (derivative of u of order d in x[0] and e in x[1])` of a residual, e.g. `2./x[0]**2*u2r2th(xi,*x)` in
D/Chapter_4/BiharmonicEquation/BiharmonicPolarCoordinates.py 69. -/
structure OpTerm where
  coef : ℝ → ℝ → ℝ
  d : ℕ
  e : ℕ

/-- A residual `lin + fac1 * fac2 - source`, e.g. `ut(xi,*x)+alpha*u(xi,*x)*ux(xi,*x)-nu*d2x(xi,*x)` in E/PDE/Burgers1D.py 48. The residuals of
the linear equations have no `fac1`. -/
structure Equation2 where
  lin : List OpTerm
  fac1 : List OpTerm
  fac2 : List OpTerm
  source : ℝ → ℝ → ℝ

/-- One summand of an expression, the first factor after `k` derivatives, the second after `l`: `f r p` are the values of the derivative of order
`r` at `p`. D/Chapter_3/Example_3_2_tfc.py 43–47. -/
noncomputable def sideTerm (c : SideCond) (k l : ℕ) (S T : ℕ → ℝ) (f : ℕ → ℝ → Except Err (ℕ → ℝ)) : Except Err (ℕ → ℝ) := do
  let vs ← c.terms.mapM fun t => do
    let v ← f t.2.1 t.2.2
    return fun j => t.1 * v j
  return fun j => iteratedDeriv k c.weight (S j) * (iteratedDeriv l c.data (T j) - (vs.map fun v => v j).sum)

/-- `u1` after `d` applications of `egrad` in `x[0]` and `e` in `x[1]`, on `n` points: D/Chapter_3/Example_3_2_tfc.py 42–44. Each `egrad` raises
the order of `H(*x)` in that variable by one (the rule `H_jvp` of mtfc.py, the subject of C27); the weights depend on `x[0]` only, the
data and `H(np.zeros_like(x[0]),x[1])` on `x[1]` only. That this is the derivative of the expression is part of C100. -/
noncomputable def exprD1 (u : Mtfc) (xs : List SideCond) (xi : List ℝ) (d e n : ℕ) (X Y : ℕ → ℝ) : Except Err (ℕ → ℝ) := do
  let A ← u.Hjax n (points2 X Y) [d, e] false
  let cs ← xs.mapM fun c => sideTerm c d e X Y fun r p => do
    let B ← u.Hjax n (points2 (fun _ => p) Y) [r, e] false
    return npDot B xi
  return fun j => npDot A xi j + (cs.map fun v => v j).sum

/-- `u` after `d` applications of `egrad` in `x[0]` and `e` in `x[1]`, on `n` points: D/Chapter_3/Example_3_2_tfc.py 45–47. -/
noncomputable def exprD (u : Mtfc) (P : TwoStep) (xi : List ℝ) (d e n : ℕ) (X Y : ℕ → ℝ) : Except Err (ℕ → ℝ) := do
  let a ← exprD1 u P.xs xi d e n X Y
  let cs ← P.ys.mapM fun c => sideTerm c e d Y X fun s p => exprD1 u P.xs xi d s n X fun _ => p
  return fun j => a j + (cs.map fun v => v j).sum

/-- `u(xi,*x)` on `n` points, e.g. D/Chapter_3/Example_3_2_tfc.py 64. -/
noncomputable def exprEval (u : Mtfc) (P : TwoStep) (xi : List ℝ) (n : ℕ) (X Y : ℕ → ℝ) : Except Err (List ℝ) := do
  let v ← exprD u P xi 0 0 n X Y
  return (List.range n).map v

/-- A sum of summands of a residual on `n` points, e.g. `laplace` in D/Chapter_3/Example_3_2_tfc.py 50. -/
noncomputable def opD (u : Mtfc) (P : TwoStep) (xi : List ℝ) (l : List OpTerm) (n : ℕ) (X Y : ℕ → ℝ) : Except Err (ℕ → ℝ) := do
  let vs ← l.mapM fun t => do
    let v ← exprD u P xi t.d t.e n X Y
    return fun j => t.coef (X j) (Y j) * v j
  return fun j => (vs.map fun v => v j).sum

/-- The residual at the points with the coordinates `X` and `Y`: D/Chapter_3/Example_3_2_tfc.py 51, E/PDE/Burgers1D.py 48. -/
noncomputable def eqRes (u : Mtfc) (P : TwoStep) (Q : Equation2) (X Y xi : List ℝ) : Except Err (List ℝ) := do
  let n := X.length
  let xs := fun j => X.getD j 0
  let ys := fun j => Y.getD j 0
  let a ← opD u P xi Q.lin n xs ys
  let b ← opD u P xi Q.fac1 n xs ys
  let c ← opD u P xi Q.fac2 n xs ys
  return (List.range n).map fun j => a j + b j * c j - Q.source (xs j) (ys j)

/-- `L = lambda xi: …` with the points of the object, D/Chapter_4/BiharmonicEquation/BiharmonicCartesianCoordinates.py 60 (one argument),
and `L = lambda xi,*x: …`, D/Chapter_4/WaveEquation/WaveEquation.py 48 (three). -/
noncomputable def eqResidual (u : Mtfc) (P : TwoStep) (Q : Equation2) : Residual Unit
  | [.arr xi] => orEmpty (eqRes u P Q (u.x.getD 0 []) (u.x.getD 1 []) xi)
  | [.arr xi, .arr X, .arr Y] => orEmpty (eqRes u P Q X Y xi)
  | _ => []

/-- `xi = np.zeros(H(*x).shape[1])`, D/Chapter_4/WaveEquation/WaveEquation.py 51; an error of the residual there is returned as such. -/
noncomputable def startXi (u : Mtfc) (P : TwoStep) (Q : Equation2) : Except Err (List ℝ) := do
  let X := u.x.getD 0 []
  let Y := u.x.getD 1 []
  let A ← u.Hjax X.length (points2 (fun j => X.getD j 0) (fun j => Y.getD j 0)) [0, 0] false
  let xi := List.replicate A.cols 0
  let _ ← eqRes u P Q X Y xi
  return xi

/-- The arguments after `xi`: none, or `*x`. D/Chapter_4/WaveEquation/WaveEquation.py 54–56, BiharmonicCartesianCoordinates.py 65–67. -/
def passedX (pass_x : Bool) (u : Mtfc) : List (View Unit) :=
  if pass_x then [.arr (u.x.getD 0 []), .arr (u.x.getD 1 [])] else []

/-- The programs with `LS`: `LS(xi,L,timer=True)` (BiharmonicCartesianCoordinates.py 65–67, BiharmonicPolarCoordinates.py 74–76), or
`LS(xi,L,*x,timer=True,constant_arg_nums=[1,2])` (WaveEquation.py 54–56), with `method='lstsq'` for X-TFC. -/
noncomputable def solveLS2 (lib : LinAlg) (method : Method) (timer pass_x : Bool) (u : Mtfc) (P : TwoStep) (Q : Equation2) :
    Except Err (View Unit) := do
  let xi ← startXi u P Q
  (LS lib method none timer (eqResidual u P Q) (.arr xi) (passedX pass_x u) (if pass_x then [1, 2] else [])).1

/-- The programs that solve without `LS`: `A = jacfwd(L,0)(zXi,*x)`, `B = -L(zXi,*x)` and `np.dot(np.linalg.pinv(A),B)`,
D/Chapter_3/Example_3_2_tfc.py 54–57, or `np.linalg.lstsq(A,B,rcond=None)[0]`, D/Chapter_3/Example_3_5.py 56–59. -/
noncomputable def solveDirect2 (lib : LinAlg) (method : Method) (u : Mtfc) (P : TwoStep) (Q : Equation2) : Except Err (List ℝ) := do
  let xi ← startXi u P Q
  lsFun lib method none (eqResidual u P Q) (.arr xi :: passedX true u)

/-- The programs with `NLLS`: `NLLS(xi,r,method='lstsq',timer=True,timerType="perf_counter")`, E/PDE/Burgers1D.py 52, and
`NLLS(xi,L,timer=True)`, B/Chapter_3/Problem_8.py 41. -/
noncomputable def solveNLLS2 (lib : LinAlg) (method : Method) (tol : ℝ) (maxIter : ℕ) (timer : Bool) (u : Mtfc) (P : TwoStep)
    (Q : Equation2) (fuel : ℕ) : Except Err (Option (View Unit × ℤ)) := do
  let xi ← startXi u P Q
  (NLLS lib method none none none tol maxIter timer (eqResidual u P Q) (.arr xi) [] [] fuel).1

/-! ## The programs -/

/-- The expression of D/Chapter_3/Example_3_2_tfc.py 42–47, Example_3_5.py 44–49. -/
noncomputable def poiExpr : TwoStep where
  xs := [⟨fun x => 1 - x, [(1, 0, 0)], fun y => y ^ 3⟩, ⟨fun x => x, [(1, 0, 1)], fun y => (1 + y ^ 3) * Real.exp (-1)⟩]
  ys := [⟨fun y => 1 - y, [(1, 0, 0)], fun x => x * Real.exp (-x)⟩, ⟨fun y => y, [(1, 0, 1)], fun x => Real.exp (-x) * (x + 1)⟩]

/-- The residual of D/Chapter_3/Example_3_2_tfc.py 50–51, Example_3_5.py 52–53. -/
noncomputable def poiEq : Equation2 where
  lin := [⟨fun _ _ => 1, 2, 0⟩, ⟨fun _ _ => 1, 0, 2⟩]
  fac1 := []
  fac2 := []
  source := fun x y => Real.exp (-x) * (x - 2 + y ^ 3 + 6 * y)

/-- The expression of D/Chapter_4/WaveEquation/WaveEquation.py 40–42. -/
noncomputable def wavExpr : TwoStep where
  xs := [⟨fun x => 1 - x, [(1, 0, 0)], fun _ => 0⟩, ⟨fun x => x, [(1, 0, 1)], fun _ => 0⟩]
  ys := [⟨fun _ => 1, [(1, 0, 0)], fun x => Real.sin (Real.pi * x)⟩, ⟨fun t => t, [(1, 1, 0)], fun _ => 0⟩]

/-- The residual of D/Chapter_4/WaveEquation/WaveEquation.py 45–48. -/
noncomputable def wavEq : Equation2 where
  lin := [⟨fun _ _ => 1, 2, 0⟩, ⟨fun _ _ => -1, 0, 2⟩]
  fac1 := []
  fac2 := []
  source := fun _ _ => 0

/-- The expression of D/Chapter_4/BiharmonicEquation/BiharmonicCartesianCoordinates.py 43–53. -/
noncomputable def bihExpr : TwoStep where
  xs := [⟨fun x => 1 - x, [(1, 0, 0)], fun _ => 0⟩, ⟨fun x => x, [(1, 0, 1)], fun _ => 0⟩,
    ⟨fun x => (-x ^ 3 + 3 * x ^ 2 - 2 * x) / 6, [(1, 2, 0)], fun _ => 0⟩, ⟨fun x => (x ^ 3 - x) / 6, [(1, 2, 1)], fun _ => 0⟩]
  ys := [⟨fun y => 1 - y, [(1, 0, 0)], fun _ => 0⟩, ⟨fun y => y, [(1, 0, 1)], fun _ => 0⟩,
    ⟨fun y => (-y ^ 3 + 3 * y ^ 2 - 2 * y) / 6, [(1, 2, 0)], fun _ => 0⟩, ⟨fun y => (y ^ 3 - y) / 6, [(1, 2, 1)], fun _ => 0⟩]

/-- The residual of D/Chapter_4/BiharmonicEquation/BiharmonicCartesianCoordinates.py 57–60. The order in which `egrad` is applied for `u2x2y` (first
`x[0]`, then `x[1]`) does not matter for smooth functions. -/
noncomputable def bihEq : Equation2 where
  lin := [⟨fun _ _ => 1, 4, 0⟩, ⟨fun _ _ => 1, 0, 4⟩, ⟨fun _ _ => 2, 2, 2⟩]
  fac1 := []
  fac2 := []
  source := fun x y => 4 * Real.pi ^ 2 * Real.sin (Real.pi * x) * Real.sin (Real.pi * y)

/-- The expression of D/Chapter_4/BiharmonicEquation/BiharmonicPolarCoordinates.py 20–21, 44–56. -/
noncomputable def polExpr : TwoStep where
  xs := [⟨fun r => (-r + 4) / 3, [(1, 0, 1)], polReal 1⟩, ⟨fun r => (r - 1) / 3, [(1, 0, 4)], polReal 4⟩,
    ⟨fun r => (-r ^ 3 + 12 * r ^ 2 - 39 * r + 28) / 18, [(1, 2, 1)], dx (dx polReal) 1⟩,
    ⟨fun r => (r ^ 3 - 3 * r ^ 2 - 6 * r + 8) / 18, [(1, 2, 4)], dx (dx polReal) 4⟩]
  ys := [⟨fun th => th / (2 * Real.pi), [(1, 0, 2 * Real.pi), (-1, 0, 0)], fun _ => 0⟩,
    ⟨fun th => (-th ^ 2 + 2 * Real.pi * th) / (4 * Real.pi), [(-1, 1, 2 * Real.pi), (1, 1, 0)], fun _ => 0⟩,
    ⟨fun th => (-th ^ 3 + 3 * Real.pi * th ^ 2 - 2 * Real.pi ^ 2 * th) / (12 * Real.pi), [(-1, 2, 2 * Real.pi), (1, 2, 0)], fun _ => 0⟩,
    ⟨fun th => (-th ^ 4 + 4 * Real.pi * th ^ 3 - 4 * Real.pi ^ 2 * th ^ 2) / (48 * Real.pi), [(-1, 3, 2 * Real.pi), (1, 3, 0)],
      fun _ => 0⟩]

/-- The residual of D/Chapter_4/BiharmonicEquation/BiharmonicPolarCoordinates.py 59–69. -/
noncomputable def polEq : Equation2 where
  lin := [⟨fun _ _ => 1, 4, 0⟩, ⟨fun r _ => 2 / r ^ 2, 2, 2⟩, ⟨fun r _ => 1 / r ^ 4, 0, 4⟩, ⟨fun r _ => 2 / r, 3, 0⟩,
    ⟨fun r _ => -(2 / r ^ 3), 1, 2⟩, ⟨fun r _ => -(1 / r ^ 2), 2, 0⟩, ⟨fun r _ => 4 / r ^ 4, 0, 2⟩, ⟨fun r _ => 1 / r ^ 3, 1, 0⟩]
  fac1 := []
  fac2 := []
  source := fun _ _ => 0

/-- The expression of B/Chapter_3/Problem_8.py 25–30. -/
noncomputable def annExpr : TwoStep where
  xs := [⟨fun r => (r - 4) / (2 - 4), [(1, 0, 2)], fun _ => 0⟩, ⟨fun r => (r - 2) / (4 - 2), [(1, 0, 4)], fun th => 4 * Real.sin (5 * th)⟩]
  ys := [⟨fun th => -th / (2 * Real.pi), [(-1, 0, 2 * Real.pi), (1, 0, 0)], fun _ => 0⟩,
    ⟨fun th => (-th ^ 2 + 2 * Real.pi * th) / (4 * Real.pi), [(-1, 1, 2 * Real.pi), (1, 1, 0)], fun _ => 0⟩]

/-- The residual of B/Chapter_3/Problem_8.py 34–37. -/
noncomputable def annEq : Equation2 where
  lin := [⟨fun _ _ => 1, 2, 0⟩, ⟨fun r _ => 1 / r, 1, 0⟩, ⟨fun r _ => 1 / r ^ 2, 0, 2⟩]
  fac1 := []
  fac2 := []
  source := fun _ _ => 0

/-- The expression of E/PDE/Burgers1D.py 38–42. -/
noncomputable def burExpr (p : BurgersPar) : TwoStep where
  xs := [⟨fun x => (p.xFinal - x) / (p.xFinal - p.xInit), [(1, 0, p.xInit)],
      fun t => p.c / p.alpha - p.c / p.alpha * Real.tanh (p.c * (p.xInit - p.c * t) / (2 * p.nu))⟩,
    ⟨fun x => (x - p.xInit) / (p.xFinal - p.xInit), [(1, 0, p.xFinal)],
      fun t => p.c / p.alpha - p.c / p.alpha * Real.tanh (p.c * (p.xFinal - p.c * t) / (2 * p.nu))⟩]
  ys := [⟨fun _ => 1, [(1, 0, 0)], fun x => p.c / p.alpha - p.c / p.alpha * Real.tanh (p.c * x / (2 * p.nu))⟩]

/-- The residual of E/PDE/Burgers1D.py 45–48. -/
noncomputable def burEq (p : BurgersPar) : Equation2 where
  lin := [⟨fun _ _ => 1, 0, 1⟩, ⟨fun _ _ => -p.nu, 2, 0⟩]
  fac1 := [⟨fun _ _ => p.alpha, 0, 0⟩]
  fac2 := [⟨fun _ _ => 1, 1, 0⟩]
  source := fun _ _ => 0

end Verif.Model.Py
