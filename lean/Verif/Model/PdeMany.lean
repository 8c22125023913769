import Verif.Model.PdeExample
import Verif.Spec.Multi

/-!
# Model of the example programs with an `mtfc` object in three variables

W is /repo/examples/Carl_Leake_Dissertation/Chapter_4/WaveEquation/WaveEquation2D.py, C is WaveEquationComparison2D.py in the same directory, S is
/repo/examples/Carl_Leake_Dissertation/Chapter_3/Navier_Stokes_TFC_and_XTFC.py. The steps are written for any number of variables, any number of
unknown functions and any number of equations, then the data of the programs are given.
-/

namespace Verif.Model.Py

open Verif.Py Verif.Np Verif.Model Verif.Model.LSq Verif.Spec

variable {dim : ℕ}

/-- A summand `weight * (data - Σ a * (derivative of order r at p))` of a step, e.g. `-x[2]*du2dt(xi,x[0],x[1],np.zeros_like(x[2]))` in W 41, where
`weight` is `t`, `data` is 0 and `terms` is `[(1, 1, 0)]`. The data do not depend on the variable of the step. -/
structure CondN (dim : ℕ) where
  weight : ℝ → ℝ
  terms : List (ℝ × ℕ × ℝ)
  data : (Fin dim → ℝ) → ℝ

/-- A step of an expression, for the conditions on planes `x[var] = p`: `u1`, `u2`, `u` in W 38–41, `f1`, `f2`, `f` in S 49–51. -/
structure StepN (dim : ℕ) where
  var : Fin dim
  conds : List (CondN dim)

/-- The arrays `x[0]`, `x[1]`, …, as the points passed to `H`. W 38, S 49. -/
def coords (pts : ℕ → Fin dim → ℝ) (j k : ℕ) : ℝ := if h : k < dim then pts j ⟨k, h⟩ else 0

/-- The expression after `d k` applications of `egrad` in `x[k]`, on `n` points; the last step comes first in the list. Without steps it is
`np.dot(H(*x),xi)`; each `egrad` raises the order of `H` in that variable by one (the rule `H_jvp` of mtfc.py, the subject of C27). In
a step the weights depend on the variable of the step only, everything else in its summands on the other variables only
(`np.zeros_like(x[0])` does not change with `x[0]`). That this is the derivative of the expression is part of C103. W 38–41, S 49–51. -/
noncomputable def exprN (u : Mtfc) (xi : List ℝ) : List (StepN dim) → (Fin dim → ℕ) → ℕ → (ℕ → Fin dim → ℝ) → Except Err (ℕ → ℝ)
  | [], d, n, pts => do
    let A ← u.Hjax n (coords pts) (List.ofFn d) false
    return npDot A xi
  | s :: S, d, n, pts => do
    let a ← exprN u xi S d n pts
    let cs ← s.conds.mapM fun c => do
      let vs ← c.terms.mapM fun t => do
        let v ← exprN u xi S (Function.update d s.var t.2.1) n fun j => Function.update (pts j) s.var t.2.2
        return fun j => t.1 * v j
      return fun j => iteratedDeriv (d s.var) c.weight (pts j s.var) *
        (mixedPartial (Function.update d s.var 0) c.data (pts j) - (vs.map fun v => v j).sum)
    return fun j => a j + (cs.map fun v => v j).sum

/-- `u(xi,*xTest)`, W 64, `f(xiu,*xTest)`, S 88, on `n` points. -/
noncomputable def evalN (u : Mtfc) (S : List (StepN dim)) (xi : List ℝ) (n : ℕ) (pts : ℕ → Fin dim → ℝ) : Except Err (List ℝ) := do
  let v ← exprN u xi S (fun _ => 0) n pts
  return (List.range n).map v

/-- A factor `coef * (derivative of order ord of unknown number unk)` of a residual, e.g. `-64.*utt(xi,*x)`, W 48. -/
structure TermN (dim : ℕ) where
  coef : ℝ
  unk : ℕ
  ord : Fin dim → ℕ

/-- A residual: a sum of such terms and of products of two of them, and a constant, e.g.
`rho*(ft(xiu,*x)+f(xiu,*x)*fx(xiu,*x)+f(xiv,*x)*fy(xiu,*x))+P-mu*(f2x(xiu,*x)+f2y(xiu,*x))`, S 61. -/
structure EqnN (dim : ℕ) where
  lin : List (TermN dim)
  prods : List (TermN dim × TermN dim)
  const : ℝ

/-- A term on `n` points; `xis` are the coefficients of the unknown functions. W 48, S 60–62. -/
noncomputable def termN (u : Mtfc) (S : List (StepN dim)) (xis : List (List ℝ)) (n : ℕ) (pts : ℕ → Fin dim → ℝ) (t : TermN dim) :
    Except Err (ℕ → ℝ) := do
  let v ← exprN u (xis.getD t.unk []) S t.ord n pts
  return fun j => t.coef * v j

/-- A residual on `n` points. W 48, S 60–62. -/
noncomputable def eqnN (u : Mtfc) (S : List (StepN dim)) (xis : List (List ℝ)) (n : ℕ) (pts : ℕ → Fin dim → ℝ) (E : EqnN dim) :
    Except Err (List ℝ) := do
  let ls ← E.lin.mapM (termN u S xis n pts)
  let ps ← E.prods.mapM fun t => do
    let a ← termN u S xis n pts t.1
    let b ← termN u S xis n pts t.2
    return fun j => a j * b j
  return (List.range n).map fun j => (ls.map fun v => v j).sum + (ps.map fun v => v j).sum + E.const

/-- The points with the coordinates `X[0]`, `X[1]`, …. W 54, S 63. -/
def gridN (dim : ℕ) (X : List (List ℝ)) (j : ℕ) (k : Fin dim) : ℝ := (X.getD k []).getD j 0

/-- All residuals, `np.hstack([L1(…),L2(…),L3(…)])`, S 63; one in W 48. -/
noncomputable def sysN (u : Mtfc) (S : List (StepN dim)) (Q : List (EqnN dim)) (X xis : List (List ℝ)) : Except Err (List ℝ) := do
  let rs ← Q.mapM (eqnN u S xis (X.getD 0 []).length (gridN dim X))
  return rs.flatten

/-- The coefficients of the unknowns: `xi`, W 48, or `xi['xiu']`, `xi['xiv']`, S 63. A missing key would raise an error, here it gives an empty
array; the programs have all keys. -/
def unknownsN (names : List String) : View String → List (List ℝ)
  | .arr xi => [xi]
  | .dict _ kvs => names.map fun k => ((kvs.find? fun p => p.1 = k).map fun p => p.2.data).getD []

/-- The arrays after the unknowns, if there are any. W 48, 54. -/
def arraysN : List (View String) → List (List ℝ)
  | [] => []
  | .arr X :: l => X :: arraysN l
  | .dict _ _ :: l => arraysN l

/-- `L = lambda xi,*x: …`, W 48, and `r = lambda xi: …`, C 49, `L = lambda xi: …`, S 63, with the points of the object. -/
noncomputable def residualN (names : List String) (u : Mtfc) (S : List (StepN dim)) (Q : List (EqnN dim)) : Residual String
  | [] => []
  | [v] => orEmpty (sysN u S Q u.x (unknownsN names v))
  | v :: args => orEmpty (sysN u S Q (arraysN args) (unknownsN names v))

/-- `xi = np.zeros(H(*x).shape[1])`, W 51, C 50, or `M = H(*x).shape[1]` and `TFCDict({'xiu':np.zeros(M),'xiv':np.zeros(M)})`, S 66–69; an error of the
residual there is returned as such. -/
noncomputable def startN (names : List String) (u : Mtfc) (S : List (StepN dim)) (Q : List (EqnN dim)) : Except Err (View String) := do
  let A ← u.Hjax (u.x.getD 0 []).length (coords (gridN dim u.x)) (List.ofFn fun _ : Fin dim => 0) false
  let z := List.replicate A.cols (0 : ℝ)
  let v : View String := if names = [] then .arr z else .dict .plain (names.map fun k => (k, ⟨[A.cols], z⟩))
  let _ ← sysN u S Q u.x (unknownsN names v)
  return v

/-- `LS(xi,L,*x,method='lstsq',timer=True,constant_arg_nums=[1,2,3])`, W 54, or `LS(xi,L,*x,timer=True)`, W 57. -/
noncomputable def solveLSN (lib : LinAlg) (method : Method) (timer constants : Bool) (u : Mtfc) (S : List (StepN dim)) (Q : List (EqnN dim)) :
    Except Err (View String) := do
  let xi ← startN [] u S Q
  (LS lib method none timer (residualN [] u S Q) xi (u.x.map .arr) (if constants then [1, 2, 3] else [])).1

/-- `np.linalg.lstsq(jacfwd(r,0)(xi),-r(xi),rcond=None)[0]` or `np.dot(np.linalg.pinv(jacfwd(r,0)(xi)),-r(xi))`, C 52–57. -/
noncomputable def solveDirectN (lib : LinAlg) (method : Method) (u : Mtfc) (S : List (StepN dim)) (Q : List (EqnN dim)) : Except Err (List ℝ) := do
  let xi ← startN [] u S Q
  lsFun lib method none (residualN [] u S Q) [xi]

/-- `NLLS(xi,L,maxIter=maxIter,method='lstsq',timer=True)`, S 72, or with `method='pinv'`, S 74. -/
noncomputable def solveNLLSN (lib : LinAlg) (method : Method) (tol : ℝ) (maxIter : ℕ) (timer : Bool) (names : List String) (u : Mtfc)
    (S : List (StepN dim)) (Q : List (EqnN dim)) (fuel : ℕ) : Except Err (Option (View String × ℤ)) := do
  let xi ← startN names u S Q
  (NLLS lib method none none none tol maxIter timer (residualN names u S Q) xi [] [] fuel).1

/-! ## The programs -/

/-- The expression of W 38–41, C 39–42. -/
noncomputable def wav2Expr : List (StepN 3) :=
  [⟨2, [⟨fun _ => 1, [(1, 0, 0)], fun P => Real.sin (Real.pi * P 0) * Real.sin (Real.pi * P 1)⟩, ⟨fun t => t, [(1, 1, 0)], fun _ => 0⟩]⟩,
    ⟨1, [⟨fun y => 1 - y, [(1, 0, 0)], fun _ => 0⟩, ⟨fun y => y, [(1, 0, 1)], fun _ => 0⟩]⟩,
    ⟨0, [⟨fun x => 1 - x, [(1, 0, 0)], fun _ => 0⟩, ⟨fun x => x, [(1, 0, 1)], fun _ => 0⟩]⟩]

/-- The residual of W 44–48, C 44–49. -/
noncomputable def wav2Eq : List (EqnN 3) := [⟨[⟨1, 0, ![2, 0, 0]⟩, ⟨1, 0, ![0, 2, 0]⟩, ⟨-64, 0, ![0, 0, 2]⟩], [], 0⟩]

/-- The expression of S 49–51. -/
noncomputable def nsExpr (Hb xend : ℝ) : List (StepN 3) :=
  [⟨2, [⟨fun _ => 1, [(1, 0, 0)], fun _ => 0⟩]⟩,
    ⟨1, [⟨fun y => (Hb - 2 * y) / (2 * Hb), [(1, 0, -Hb / 2)], fun _ => 0⟩, ⟨fun y => (Hb + 2 * y) / (2 * Hb), [(1, 0, Hb / 2)], fun _ => 0⟩]⟩,
    ⟨0, [⟨fun _ => 1, [(1, 0, 0)], fun _ => 0⟩, ⟨fun x => x, [(1, 1, xend)], fun _ => 0⟩]⟩]

/-- The residuals of S 53–63; unknown 0 is `u`, unknown 1 is `v`, and the factors `rho` and `mu` are multiplied out. -/
noncomputable def nsEq (rho mu P : ℝ) : List (EqnN 3) :=
  [⟨[⟨1, 0, ![1, 0, 0]⟩, ⟨1, 1, ![0, 1, 0]⟩], [], 0⟩,
    ⟨[⟨rho, 0, ![0, 0, 1]⟩, ⟨-mu, 0, ![2, 0, 0]⟩, ⟨-mu, 0, ![0, 2, 0]⟩],
      [(⟨rho, 0, ![0, 0, 0]⟩, ⟨1, 0, ![1, 0, 0]⟩), (⟨rho, 1, ![0, 0, 0]⟩, ⟨1, 0, ![0, 1, 0]⟩)], P⟩,
    ⟨[⟨rho, 1, ![0, 0, 1]⟩, ⟨-mu, 1, ![2, 0, 0]⟩, ⟨-mu, 1, ![0, 2, 0]⟩],
      [(⟨rho, 0, ![0, 0, 0]⟩, ⟨1, 1, ![1, 0, 0]⟩), (⟨rho, 1, ![0, 0, 0]⟩, ⟨1, 1, ![0, 1, 0]⟩)], 0⟩]

/-- The names of the unknowns, S 69. -/
def nsNames : List String := ["xiu", "xiv"]

end Verif.Model.Py
