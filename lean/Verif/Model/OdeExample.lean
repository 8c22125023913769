import Verif.Model.Ode
import Verif.Model.Reference
import Verif.Model.UtfcInit
import Mathlib.Analysis.Calculus.IteratedDeriv.Defs
import Mathlib.Analysis.SpecialFunctions.Trigonometric.Deriv

/-!
# Model of the example programs that solve an ordinary differential equation of second order with a `utfc` object

The programs write the constrained expression `y = np.dot(H(x),xi) + Σ phi(x)*(value - np.dot(H0,xi))`, apply `egrad` to it, form the residual
at the collocation points and solve for `xi`. The general form of these steps is modelled first, then each program, from the
constructor call to the returned coefficients; the errors, residuals and plots the programs make of them are left out. B is
/repo/examples/TfcBook, D is /repo/examples/Carl_Leake_Dissertation, J is /repo/examples/Hunter_Johnston_Dissertation.
-/

namespace Verif.Model.Py

open Verif.Py Verif.Np Verif.Model.LSq Verif.Model.Prog

/-- A summand `phi(x)*(value - np.dot(H0,xi))` of an expression, where `H0` is the row of `H` (`order` 0) or `dH` (`order` 1) at `point`:
B/Chapter_3/section_3_5_1.py 35–44. -/
structure EndCond where
  weight : ℝ → ℝ
  order : ℕ
  point : ℝ
  value : ℝ

/-- `y` after `d` applications of `egrad`, on `n` points: B/Chapter_3/section_3_5_1.py 35–46. Each `egrad` raises the order of `H(x)` by one (the
rule `H_jvp` of utfc.py, the subject of C26) and derives the weight; the rows `H0`, `H0p` are constants. That this is the derivative of
the expression is part of C101. -/
noncomputable def curveD (u : Utfc) (cs : List EndCond) (xi : List ℝ) (d n : ℕ) (X : ℕ → ℝ) : Except Err (ℕ → ℝ) := do
  let A ← u.Hjax n X d false
  let vs ← cs.mapM fun c => do
    let B ← u.Hjax 1 (fun _ => c.point) c.order false
    return fun j => iteratedDeriv d c.weight (X j) * (c.value - npDot B xi 0)
  return fun j => npDot A xi j + (vs.map fun v => v j).sum

/-- `y(x,xi)` on `n` points, B/Chapter_3/section_3_5_1.py 73, 78. -/
noncomputable def curveEval (u : Utfc) (cs : List EndCond) (xi : List ℝ) (n : ℕ) (X : ℕ → ℝ) : Except Err (List ℝ) := do
  let v ← curveD u cs xi 0 n X
  return (List.range n).map v

/-- The residual at the points `x`: `F x y y' y''` is the formula of the program, e.g. B/Chapter_3/section_3_5_1.py 49. -/
noncomputable def curveRes (u : Utfc) (cs : List EndCond) (F : ℝ → ℝ → ℝ → ℝ → ℝ) (x xi : List ℝ) : Except Err (List ℝ) := do
  let X := fun j => x.getD j 0
  let y2 ← curveD u cs xi 2 x.length X
  let y1 ← curveD u cs xi 1 x.length X
  let y0 ← curveD u cs xi 0 x.length X
  return (List.range x.length).map fun j => F (X j) (y0 j) (y1 j) (y2 j)

/-- `L = lambda xi: …` with the points of the object, B/Chapter_3/section_3_5_1.py 49. -/
noncomputable def curveResidual (u : Utfc) (cs : List EndCond) (F : ℝ → ℝ → ℝ → ℝ → ℝ) : Residual Unit
  | [.arr xi] => orEmpty (curveRes u cs F u.x xi)
  | _ => []

/-- `xi = np.zeros(H(x).shape[1])`, B/Chapter_3/section_3_5_1.py 52; an error of the residual there is returned as such. -/
noncomputable def startCurve (u : Utfc) (cs : List EndCond) (F : ℝ → ℝ → ℝ → ℝ → ℝ) : Except Err (List ℝ) := do
  let A ← u.Hjax u.x.length (fun j => u.x.getD j 0) 0 false
  let xi := List.replicate A.cols 0
  let _ ← curveRes u cs F u.x xi
  return xi

/-- `LS(xi,L,timer=True)`, B/Chapter_3/section_3_5_1.py 56. -/
noncomputable def solveLS1 (lib : LinAlg) (method : Method) (timer : Bool) (u : Utfc) (cs : List EndCond) (F : ℝ → ℝ → ℝ → ℝ → ℝ) :
    Except Err (View Unit) := do
  let xi ← startCurve u cs F
  (LS lib method none timer (curveResidual u cs F) (.arr xi) [] []).1

/-- `NLLS(xi,L,timer=True)`, B/Chapter_3/section_3_5_1.py 60, or with `maxIter`, J/Chapter_4/Example_4_4/BVP_tfc.py 68. -/
noncomputable def solveNLLS1 (lib : LinAlg) (method : Method) (tol : ℝ) (maxIter : ℕ) (timer : Bool) (u : Utfc) (cs : List EndCond)
    (F : ℝ → ℝ → ℝ → ℝ → ℝ) (fuel : ℕ) : Except Err (Option (View Unit × ℤ)) := do
  let xi ← startCurve u cs F
  (NLLS lib method none none none tol maxIter timer (curveResidual u cs F) (.arr xi) [] [] fuel).1

/-! ## The programs -/

/-- The expression of B/Chapter_3/section_3_5_1.py 35–44 and J/Chapter_4/Examples_4_1thru3/laneEmden_tfc.py 73–82, with `H0 = H(x[0:1])`,
`H0p = dH(x[0:1])`. -/
def ivpExpr (x : List ℝ) (y0 y0p : ℝ) : List EndCond := [⟨fun _ => 1, 0, first x, y0⟩, ⟨fun x => x, 1, first x, y0p⟩]

/-- The residual of B/Chapter_3/section_3_5_1.py 49, laneEmden_tfc.py 87. -/
def laneF (k : ℕ) (x y y1 y2 : ℝ) : ℝ := x * y2 + 2 * y1 + x * y ^ k

/-- `runLaneEmden`, B/Chapter_3/section_3_5_1.py 16–60, for a natural number `k`: the coefficients `xi`. -/
noncomputable def runLaneEmden (lib : LinAlg) (N m : ℕ) (basis : String) (k : ℕ) (xf : ℝ) (w b : ℕ → ℝ) (fuel : ℕ) :
    Except Err (Option (View Unit)) := do
  let u ← utfcInit N (.int 2) m basis (some 0) (some xf) "C++" w b
  if k = 0 ∨ k = 1 then
    let xi ← solveLS1 lib .pinv true u (ivpExpr u.x 1 0) (laneF k)
    return some xi
  else
    let r ← solveNLLS1 lib .pinv 1e-13 50 true u (ivpExpr u.x 1 0) (laneF k) fuel
    return r.map (·.1)

/-- `laneEmden_tfc`, J/Chapter_4/Examples_4_1thru3/laneEmden_tfc.py 18–94, for a natural number `type`: the coefficients `xi`. `maxIter` is
assigned in three of the four branches (38, 45, 53) and read in 94. -/
noncomputable def laneEmdenTfc (lib : LinAlg) (N m type : ℕ) (x0 xf : ℝ) (basis : String) (iterMax : ℕ) (w b : ℕ → ℝ) (fuel : ℕ) :
    Except Err (Option (View Unit)) := do
  let maxIter := if type = 0 then some 1 else if type = 1 then some 1 else if type = 5 then some iterMax else none
  let u ← utfcInit N (.int 2) m basis (some x0) (some xf) "C++" w b
  let _ ← startCurve u (ivpExpr u.x 1 0) (laneF type)
  match maxIter with
  | none => .error .unboundLocal
  | some maxIter =>
    let r ← solveNLLS1 lib .pinv 1e-13 maxIter true u (ivpExpr u.x 1 0) (laneF type) fuel
    return r.map (·.1)

/-- The expression of B/Chapter_3/section_3_5_2.py 30–43 and J/Chapter_4/Example_4_4/BVP_tfc.py 49–58. -/
noncomputable def bvpExpr (x : List ℝ) (y0 yf : ℝ) : List EndCond :=
  [⟨fun x => (Real.pi - x) / Real.pi, 0, first x, y0⟩, ⟨fun x => x / Real.pi, 0, last x, yf⟩]

/-- The residual of B/Chapter_3/section_3_5_2.py 48, BVP_tfc.py 63. -/
noncomputable def bvpFormula (x y y1 y2 : ℝ) : ℝ := y2 + y * y1 - bvpF x

/-- J/Chapter_4/Example_4_4/BVP_tfc.py 19–68 (`tol` is not used); B/Chapter_3/section_3_5_2.py 16–53 is the call with 100 points, degree 60,
`'CP'` and the default of 50 iterations. -/
noncomputable def runBvp (lib : LinAlg) (N m : ℕ) (basis : String) (iterMax : ℕ) (w b : ℕ → ℝ) (fuel : ℕ) :
    Except Err (Option (View Unit × ℤ)) := do
  let u ← utfcInit N (.int 2) m basis (some 0) (some Real.pi) "C++" w b
  solveNLLS1 lib .pinv 1e-13 iterMax true u (bvpExpr u.x 0 0) bvpFormula fuel

/-- The expression of D/Appendices/Appendix_D.py 31–35. -/
def convExpr : List EndCond := [⟨fun x => 1 - x, 0, 0, 1⟩, ⟨fun x => x, 0, 1, 0⟩]

/-- The residual of D/Appendices/Appendix_D.py 39. -/
def convF (Pe _x _y y1 y2 : ℝ) : ℝ := y2 - Pe * y1

/-- `CalculateSolution`, D/Appendices/Appendix_D.py 20–43 (also B/Chapter_3/section_3_5_4.py 20–43): there `N` is 200, `m` is 190 and the basis is
`'LeP'`. -/
noncomputable def calculateSolution (lib : LinAlg) (N m : ℕ) (basis : String) (Pe : ℝ) (w b : ℕ → ℝ) (fuel : ℕ) :
    Except Err (Option (View Unit × ℤ)) := do
  let u ← utfcInit N (.int 2) m basis (some 0) (some 1) "C++" w b
  solveNLLS1 lib .pinv 1e-13 50 false u convExpr (convF Pe) fuel

/-- The expression of B/Chapter_3/Problem_4.py 19–23. The program evaluates `H` at an array filled with `th0` (`thf`), one row for each
point; all rows are the same, and one is used here. -/
noncomputable def brachExpr (th0 thf r0 rf : ℝ) : List EndCond :=
  [⟨fun th => (th - thf) / (th0 - thf), 0, th0, r0⟩, ⟨fun th => (th - th0) / (thf - th0), 0, thf, rf⟩]

/-- The residual of B/Chapter_3/Problem_4.py 28–29. -/
noncomputable def brachF (th r r1 r2 : ℝ) : ℝ :=
  -r ^ 2 * (r1 * Real.tan th + 2 * r2) + -Real.tan th * r1 ^ 3 + 3 * r * r1 ^ 2 + r ^ 3

/-- B/Chapter_3/Problem_4.py 6–33: there `n` is 100, `m` 60, `th0` 0, `thf` 1.3, `r0` 0 and `rf` 5. -/
noncomputable def runBrachistochrone (lib : LinAlg) (n m : ℕ) (th0 thf r0 rf : ℝ) (w b : ℕ → ℝ) (fuel : ℕ) :
    Except Err (Option (View Unit × ℤ)) := do
  let u ← utfcInit n (.int 2) m "CP" (some th0) (some thf) "C++" w b
  solveNLLS1 lib .pinv 1e-13 50 true u (brachExpr th0 thf r0 rf) brachF fuel

/-- The expression of J/Chapter_4/Example_4_11/IVP2BVP.py 49–60, with `H0 = H(tfc.z[0:1])`, `Hf = H(tfc.z[-1:])`, `H0p = dH(tfc.z[0:1])`. -/
noncomputable def ivp2bvpExpr (z : List ℝ) (gamma y0 y0p yf : ℝ) : List EndCond :=
  [⟨fun a => 1 / (1 + 4 * gamma - gamma ^ 2) * ((1 + gamma) - 2 * gamma * a), 0, first z, y0⟩,
    ⟨fun a => 1 / (1 + 4 * gamma - gamma ^ 2) * ((1 - gamma) ^ 2 + (1 - gamma ^ 2) * a), 1, first z, y0p⟩,
    ⟨fun a => 1 / (1 + 4 * gamma - gamma ^ 2) * (-gamma * (gamma - 3) + 2 * gamma * a), 0, last z, yf⟩]

/-- The residual of J/Chapter_4/Example_4_11/IVP2BVP.py 66–68. -/
noncomputable def ivp2bvpF (x y y1 y2 : ℝ) : ℝ :=
  y2 + (Real.cos (3 * x ^ 2) - 3 * x + 1) * y1 + (6 * Real.sin (4 * x ^ 2) - Real.exp (Real.cos (3 * x))) * y
    - 2 * (1 - Real.sin (3 * x)) * (3 * x - Real.pi) / (4 - x)

/-- `IVP2BVP`, J/Chapter_4/Example_4_11/IVP2BVP.py 22–76 (`iterMax` and `tol` are not used). -/
noncomputable def runIvp2bvp (lib : LinAlg) (N m : ℕ) (gamma : ℝ) (basis : String) (w b : ℕ → ℝ) (fuel : ℕ) :
    Except Err (Option (View Unit × ℤ)) := do
  let u ← utfcInit N (.int 2) m basis (some (-1)) (some 1) "C++" w b
  solveNLLS1 lib .pinv 1e-13 50 true u (ivp2bvpExpr u.z gamma (-2) (-2) 2) ivp2bvpF fuel

end Verif.Model.Py
