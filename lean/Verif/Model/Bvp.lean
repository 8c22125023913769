import Verif.Model.UtfcJax
import Verif.Model.LeastSquares
import Mathlib.Algebra.BigOperators.Group.Finset.Basic

/-!
# Model of a program that uses the package: a boundary value problem, /repo/tests/test_ODE.py 23–53 and
/repo/docs/notebooks/ODE.ipynb

The program builds a `utfc` object, writes the unknown function as a constrained expression with the values `yi` and `yf` at the
ends, and hands the residual of the differential equation to the least-squares solver.
-/

namespace Verif.Model.Py

open Verif.Py Verif.Np Verif.Model.LSq

variable {K : Type} [Zero K] [One K] [Add K] [Sub K] [Mul K] [Div K] [Neg K]

/-- Entry `j` of `np.dot(A, xi)`. The vector `xi` of the program has as many entries as `A` has columns (test_ODE.py 51), so the
error for other lengths is not modelled. -/
noncomputable def npDot (A : Mat ℝ) (xi : List ℝ) (j : ℕ) : ℝ := ∑ i ∈ Finset.range A.cols, A.at_ j i * xi.getD i 0

/-- `beta0 = lambda t: (t-tf)/(ti-tf)` and what `egrad` makes of it after `d` differentiations, test_ODE.py 42. -/
def beta0 (ti tf : K) (d : ℕ) (t : K) : K :=
  match d with
  | 0 => (t - tf) / (ti - tf)
  | 1 => 1 / (ti - tf)
  | _ => 0

/-- `beta1 = lambda t: (ti-t)/(ti-tf)` and its derivatives, test_ODE.py 43. -/
def beta1 (ti tf : K) (d : ℕ) (t : K) : K :=
  match d with
  | 0 => (ti - t) / (ti - tf)
  | 1 => -1 / (ti - tf)
  | _ => 0

/-- The matrices used by `y`, `yd = egrad(y)`, `ydd = egrad(yd)`: `H` at the points (differentiated `d` times: by the rule
`H_jvp`, the subject of C26, each `egrad` raises `d` by one), and `H` at the two ends, one row for each point. -/
structure CeMats where
  H : Mat ℝ
  H0 : Mat ℝ
  Hf : Mat ℝ

/-- `H(t)` (with `d` derivatives), `H0 = H(Zero)`, `Hf = H(End)`, test_ODE.py 34–39, where `Zero` and `End` are arrays of the
length of `t` filled with `ti` (0 in the test) and `tf`. -/
noncomputable def ceMats (u : Utfc) (ti tf : ℝ) (d n : ℕ) (ts : ℕ → ℝ) : Except Err CeMats := do
  let H ← u.Hjax n ts d false
  let H0 ← u.Hjax n (fun _ => ti) 0 false
  let Hf ← u.Hjax n (fun _ => tf) 0 false
  return ⟨H, H0, Hf⟩

/-- One entry of `y`, from the entries `g`, `g0`, `gf` of the three products, test_ODE.py 44. -/
def ceExpr (ti tf yi yf : K) (d : ℕ) (t g g0 gf : K) : K := g + beta0 ti tf d t * (yi - g0) + beta1 ti tf d t * (yf - gf)

/-- Entry `j` of `y(t,xi) = np.dot(H(t),xi)+beta0(t)*(yi-np.dot(H0,xi))+beta1(t)*(yf-np.dot(Hf,xi))`, or of its `d`-th derivative in
`t`, test_ODE.py 44–47. -/
noncomputable def ceAt (ti tf yi yf : ℝ) (d : ℕ) (M : CeMats) (ts : ℕ → ℝ) (xi : List ℝ) (j : ℕ) : ℝ :=
  ceExpr ti tf yi yf d (ts j) (npDot M.H xi j) (npDot M.H0 xi j) (npDot M.Hf xi j)

/-- `y(ts, xi)` and its derivatives on an array of `n` points (test_ODE.py 44; as in docs/notebooks/ODE.ipynb, `H0` and `Hf` are
computed for the points of the call). -/
noncomputable def yEval (u : Utfc) (ti tf yi yf : ℝ) (d n : ℕ) (ts : ℕ → ℝ) (xi : List ℝ) : Except Err (List ℝ) := do
  let M ← ceMats u ti tf d n ts
  return (List.range n).map (ceAt ti tf yi yf d M ts xi)

/-- The residual `ydd(t,xi) + a(t)*yd(t,xi) + b(t)*y(t,xi) - f(t)` on the `n` points: test_ODE.py 50 with a linear equation. -/
noncomputable def bvpResidual (ti tf yi yf : ℝ) (a b f : ℝ → ℝ) (n : ℕ) (ts : ℕ → ℝ) (M M1 M2 : CeMats) : Residual Unit
  | [.arr xi] => (List.range n).map fun j =>
      ceAt ti tf yi yf 2 M2 ts xi j + a (ts j) * ceAt ti tf yi yf 1 M1 ts xi j + b (ts j) * ceAt ti tf yi yf 0 M ts xi j - f (ts j)
  | _ => []

/-- The program: the matrices at the object's own points, `xi = np.zeros(H(t).shape[1])`, and the call of `LS`, test_ODE.py
28–53 with `LS` in place of `NLLS` since the equation is linear (docs/notebooks/LS.ipynb). The matrices are computed before the call,
the program computes them inside the residual: the values are the same. -/
noncomputable def solveBvp (lib : LinAlg) (method : Method) (u : Utfc) (ti tf yi yf : ℝ) (a b f : ℝ → ℝ) :
    Except Err (View Unit) := do
  let n := u.x.length
  let ts := fun j => u.x.getD j 0
  let M ← ceMats u ti tf 0 n ts
  let M1 ← ceMats u ti tf 1 n ts
  let M2 ← ceMats u ti tf 2 n ts
  (LS lib method none false (bvpResidual ti tf yi yf a b f n ts M M1 M2) (.arr (List.replicate M.H.cols 0)) [] []).1

end Verif.Model.Py
