import Verif.Model.Pde
import Verif.Model.Ode
import Mathlib.Analysis.Calculus.IteratedDeriv.Defs

/-!
# Model of the programs in /repo/tests/test_PDE.py: a nonlinear partial differential equation solved with `NLLS`
-/

namespace Verif.Model.Py

open Verif.Py Verif.Np Verif.Model.LSq

/-- The factor `1.-x[0]`, test_PDE.py 34, 80, after `d` derivatives in `x[0]`. -/
def sideW0 (d : ℕ) (x : ℝ) : ℝ :=
  match d with
  | 0 => 1 - x
  | 1 => -1
  | _ => 0

/-- The factor `x[0]`, test_PDE.py 34, 80, after `d` derivatives in `x[0]`. -/
def sideW1 (d : ℕ) (x : ℝ) : ℝ :=
  match d with
  | 0 => x
  | 1 => 1
  | _ => 0

/-- `z1`, test_PDE.py 34, 80, after `d` applications of `egrad` in `x[0]` and `e` in `x[1]`, on `n` points: each raises the order of
`H(*x)` in that variable by one (the rule `H_jvp` of mtfc.py, the subject of C27); `H(*(Zero,x[1]))` and `H(*(One,x[1]))` do not depend on
`x[0]`. -/
noncomputable def z1D (u : Mtfc) (xi : List ℝ) (d e n : ℕ) (X Y : ℕ → ℝ) : Except Err (ℕ → ℝ) := do
  let A ← u.Hjax n (points2 X Y) [d, e] false
  let A0 ← u.Hjax n (points2 (fun _ => 0) Y) [0, e] false
  let A1 ← u.Hjax n (points2 (fun _ => 1) Y) [0, e] false
  return fun j => npDot A xi j - sideW0 d (X j) * npDot A0 xi j - sideW1 d (X j) * npDot A1 xi j

/-- `z`, test_PDE.py 35, 81, after `d` applications of `egrad` in `x[0]` and `e` in `x[1]` (38–40, 84–86): `z1(xi,x[0],Zero)` and
`k(x[0])-egrad(z1,2)(xi,x[0],One)` do not depend on `x[1]`. -/
noncomputable def zD (u : Mtfc) (k : ℝ → ℝ) (xi : List ℝ) (d e n : ℕ) (X Y : ℕ → ℝ) : Except Err (ℕ → ℝ) :=
  match e with
  | 0 => do
    let a ← z1D u xi d 0 n X Y
    let a0 ← z1D u xi d 0 n X (fun _ => 0)
    let a1 ← z1D u xi d 1 n X (fun _ => 1)
    return fun j => a j - a0 j + Y j * (iteratedDeriv d k (X j) - a1 j)
  | 1 => do
    let a ← z1D u xi d 1 n X Y
    let a1 ← z1D u xi d 1 n X (fun _ => 1)
    return fun j => a j + (iteratedDeriv d k (X j) - a1 j)
  | e + 2 => z1D u xi d (e + 2) n X Y

/-- `zxx(xi,*x)+zyy(xi,*x)+z(xi,*x)*zy(xi,*x)-s(x)`, test_PDE.py 42, 88, on the points with the coordinates `X` and `Y`. `Zero` and `One`
have as many entries as `x[0]` (the points of the object are the only ones the program uses). -/
noncomputable def pdeRes (u : Mtfc) (k : ℝ → ℝ) (s : ℝ → ℝ → ℝ) (X Y xi : List ℝ) : Except Err (List ℝ) := do
  let n := X.length
  let xs := fun j => X.getD j 0
  let ys := fun j => Y.getD j 0
  let zxx ← zD u k xi 2 0 n xs ys
  let zyy ← zD u k xi 0 2 n xs ys
  let z ← zD u k xi 0 0 n xs ys
  let zy ← zD u k xi 0 1 n xs ys
  return (List.range n).map fun j => zxx j + zyy j + z j * zy j - s (xs j) (ys j)

/-- `r = lambda xi: …` with the points of the object, test_PDE.py 42 (one argument), and `r = lambda xi,*x: …`, test_PDE.py 88 (three). -/
noncomputable def pdeResidual (u : Mtfc) (k : ℝ → ℝ) (s : ℝ → ℝ → ℝ) : Residual Unit
  | [.arr xi] => orEmpty (pdeRes u k s (u.x.getD 0 []) (u.x.getD 1 []) xi)
  | [.arr xi, .arr X, .arr Y] => orEmpty (pdeRes u k s X Y xi)
  | _ => []

/-- The program from the object on: `xi = np.zeros(H(*x).shape[1])` and `NLLS(xi,r)`, test_PDE.py 24–45 (`pass_x` false), or
`NLLS(xi,r,*x,constant_arg_nums=[1,2])`, test_PDE.py 70–91 (`pass_x` true). An error of the residual at the start is returned as such. -/
noncomputable def solvePde (lib : LinAlg) (method : Method) (tol : ℝ) (maxIter : ℕ) (timer pass_x : Bool) (u : Mtfc) (k : ℝ → ℝ)
    (s : ℝ → ℝ → ℝ) (fuel : ℕ) : Except Err (Option (View Unit × ℤ)) := do
  let X := u.x.getD 0 []
  let Y := u.x.getD 1 []
  let A ← u.Hjax X.length (points2 (fun j => X.getD j 0) (fun j => Y.getD j 0)) [0, 0] false
  let xi := List.replicate A.cols 0
  let _ ← pdeRes u k s X Y xi
  if pass_x then
    (NLLS lib method none none none tol maxIter timer (pdeResidual u k s) (.arr xi) [.arr X, .arr Y] [1, 2] fuel).1
  else
    (NLLS lib method none none none tol maxIter timer (pdeResidual u k s) (.arr xi) [] [] fuel).1

end Verif.Model.Py
