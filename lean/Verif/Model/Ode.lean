import Verif.Model.Bvp

/-!
# Model of the programs in /repo/tests/test_ODE.py: a nonlinear boundary value problem solved with `NLLS`
-/

namespace Verif.Model.Py

open Verif.Py Verif.Np Verif.Model.LSq

/-- `ydd(t,xi)+f(t)*y(t,xi)*yd(t,xi)-f2(t)`, test_ODE.py 50, 100, on the points `t`. `H0` and `Hf` have one row for each entry of `t`
(the program computes them once, for the points of the object, which are the only `t` it uses). `y`, `yd` and `ydd` are evaluated in
the order of the formula. -/
noncomputable def odeRes (u : Utfc) (ti tf yi yf : ℝ) (f f2 : ℝ → ℝ) (t xi : List ℝ) : Except Err (List ℝ) := do
  let n := t.length
  let ts := fun j => t.getD j 0
  let M2 ← ceMats u ti tf 2 n ts
  let M ← ceMats u ti tf 0 n ts
  let M1 ← ceMats u ti tf 1 n ts
  return (List.range n).map fun j =>
    ceAt ti tf yi yf 2 M2 ts xi j + f (ts j) * ceAt ti tf yi yf 0 M ts xi j * ceAt ti tf yi yf 1 M1 ts xi j - f2 (ts j)

/-- The array computed by `r`, test_ODE.py 50, 100, or the empty array if it raises: a simplification. The least-squares solvers of the model take residuals that raise no error, and
`solveOde` evaluates the residual once before, so that an error is not lost. -/
def orEmpty : Except Err (List ℝ) → List ℝ
  | .ok l => l
  | .error _ => []

/-- `r = lambda xi: …` with the points of the object, test_ODE.py 50 (one argument), and `r = lambda xi,t: …`, test_ODE.py 100 (two). -/
noncomputable def odeResidual (u : Utfc) (ti tf yi yf : ℝ) (f f2 : ℝ → ℝ) : Residual Unit
  | [.arr xi] => orEmpty (odeRes u ti tf yi yf f f2 u.x xi)
  | [.arr xi, .arr t] => orEmpty (odeRes u ti tf yi yf f f2 t xi)
  | _ => []

/-- The program from the object on: `xi = np.zeros(H(t).shape[1])` and `NLLS(xi,r)`, test_ODE.py 26–53 (`pass_t` false), or
`NLLS(xi,r,t,constant_arg_nums=[1])`, test_ODE.py 76–103 (`pass_t` true). An error of the residual at the start is returned as such. -/
noncomputable def solveOde (lib : LinAlg) (method : Method) (tol : ℝ) (maxIter : ℕ) (timer pass_t : Bool) (u : Utfc) (ti tf yi yf : ℝ)
    (f f2 : ℝ → ℝ) (fuel : ℕ) : Except Err (Option (View Unit × ℤ)) := do
  let M ← ceMats u ti tf 0 u.x.length (fun j => u.x.getD j 0)
  let xi := List.replicate M.H.cols 0
  let _ ← odeRes u ti tf yi yf f f2 u.x xi
  if pass_t then
    (NLLS lib method none none none tol maxIter timer (odeResidual u ti tf yi yf f f2) (.arr xi) [.arr u.x] [1] fuel).1
  else
    (NLLS lib method none none none tol maxIter timer (odeResidual u ti tf yi yf f f2) (.arr xi) [] [] fuel).1

end Verif.Model.Py
