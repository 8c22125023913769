import Verif.Model.Mtfc
import Verif.Model.Bvp

/-!
# Model of the constrained expression of a program that solves a partial differential equation: /repo/tests/test_PDE.py 12–40

`mtfc` object in two dimensions; the values 0 on `x = 0`, `x = 1`, `y = 0`, and the derivative `k(x)` (`2 sin(π x)` in the test)
in `y` on `y = 1`.
-/

namespace Verif.Model.Py

open Verif.Py Verif.Np

/-- The arrays `x[0]` and `x[1]` as the points passed to `H`. -/
def points2 (X Y : ℕ → ℝ) : ℕ → ℕ → ℝ := fun j k => if k = 0 then X j else Y j

/-- `z1(xi, x, y)` (`e = 0`) or `egrad(z1, 2)(xi, x, y)` (`e = 1`), on `n` points, test_PDE.py 34:
`np.dot(H(*x),xi)-(1.-x[0])*np.dot(H(*(Zero,x[1])),xi)-x[0]*np.dot(H(*(One,x[1])),xi)`. Each `egrad` in the second variable
raises the order of `H` in it by one (the rule `H_jvp` of mtfc.py, the subject of C27). -/
noncomputable def z1 (u : Mtfc) (xi : List ℝ) (e n : ℕ) (X Y : ℕ → ℝ) : Except Err (ℕ → ℝ) := do
  let A ← u.Hjax n (points2 X Y) [0, e] false
  let A0 ← u.Hjax n (points2 (fun _ => 0) Y) [0, e] false
  let A1 ← u.Hjax n (points2 (fun _ => 1) Y) [0, e] false
  return fun j => npDot A xi j - (1 - X j) * npDot A0 xi j - X j * npDot A1 xi j

/-- `z(xi, x, y)`, test_PDE.py 35: `z1(xi,*x)-z1(xi,x[0],Zero)+x[1]*(k(x[0])-egrad(z1,2)(xi,x[0],One))`. -/
noncomputable def zEval (u : Mtfc) (k : ℝ → ℝ) (xi : List ℝ) (n : ℕ) (X Y : ℕ → ℝ) : Except Err (List ℝ) := do
  let a ← z1 u xi 0 n X Y
  let a0 ← z1 u xi 0 n X (fun _ => 0)
  let a1 ← z1 u xi 1 n X (fun _ => 1)
  return (List.range n).map fun j => a j - a0 j + Y j * (k (X j) - a1 j)

/-- `zy = egrad(z, 2)`, test_PDE.py 40: only `z1(xi,*x)` and the factor `x[1]` depend on `x[1]`. -/
noncomputable def zyEval (u : Mtfc) (k : ℝ → ℝ) (xi : List ℝ) (n : ℕ) (X Y : ℕ → ℝ) : Except Err (List ℝ) := do
  let a ← z1 u xi 1 n X Y
  let a1 ← z1 u xi 1 n X (fun _ => 1)
  return (List.range n).map fun j => a j + (k (X j) - a1 j)

end Verif.Model.Py
