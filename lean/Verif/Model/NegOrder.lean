import Verif.Py
import Mathlib.Analysis.SpecialFunctions.Trigonometric.Deriv

/-!
# Model of the basis functions for orders of the derivative that may be negative

The other models take the order `d` from ℕ, as the type `uint` in the python sources says. Neither backend checks this: C++ declares `const int d`, and a
negative number gets as far as `Hint`. Here `d` is an integer. An entry of the matrix is modelled, not the loops that fill it (they are in
Model/BasisPy and Model/ElmCC for `d` in ℕ); arithmetic is exact.
-/

namespace Verif.Model.NegOrder

open Verif.Py

/-- `np.ceil(k / 2.0)`, BF_Py.py 554; `ceil(j / 2.)`, BF.cc 532. -/
def freq (k : ℕ) : ℝ := (((k + 1) / 2 : ℕ) : ℝ)

/-- Column `k` of `FS._Hint` at the point `z`, BF_Py.py 549–589. The operator `%` of python has the sign of the divisor; `g` is a `float64`, so `g**d` with
negative `d` is its reciprocal. -/
noncomputable def fsPy (d : ℤ) (k : ℕ) (z : ℝ) : ℝ :=
  let g := freq k
  if d = 0 then
    if k = 0 then 1 else if k % 2 = 0 then Real.cos (g * z) else Real.sin (g * z)
  else if k = 0 then 0
  else if d % 4 = 0 then
    if k % 2 = 0 then g ^ d * Real.cos (g * z) else g ^ d * Real.sin (g * z)
  else if d % 4 = 1 then
    if k % 2 = 0 then -(g ^ d) * Real.sin (g * z) else g ^ d * Real.cos (g * z)
  else if d % 4 = 2 then
    if k % 2 = 0 then -(g ^ d) * Real.cos (g * z) else -(g ^ d) * Real.sin (g * z)
  else
    if k % 2 = 0 then g ^ d * Real.sin (g * z) else -(g ^ d) * Real.cos (g * z)

/-- Column `j` of `FS::Hint` at the point `x`, BF.cc 524–590. The operator `%` of C++ has the sign of the dividend. -/
noncomputable def fsCC (d : ℤ) (j : ℕ) (x : ℝ) : ℝ :=
  let g := freq j
  if d = 0 then
    if j = 0 then 1 else if j % 2 = 0 then Real.cos (g * x) else Real.sin (g * x)
  else if j = 0 then 0
  else if d.tmod 4 = 0 then
    if j % 2 = 0 then g ^ d * Real.cos (g * x) else g ^ d * Real.sin (g * x)
  else if d.tmod 4 = 1 then
    if j % 2 = 0 then -g ^ d * Real.sin (g * x) else g ^ d * Real.cos (g * x)
  else if d.tmod 4 = 2 then
    if j % 2 = 0 then -g ^ d * Real.cos (g * x) else -g ^ d * Real.sin (g * x)
  else
    if j % 2 = 0 then g ^ d * Real.sin (g * x) else -g ^ d * Real.cos (g * x)

/-- An entry of `ELMSin::Hint`, BF.cc 850–880. -/
noncomputable def elmSinCC (d : ℤ) (w b x : ℝ) : ℝ :=
  if d.tmod 4 = 0 then w ^ d * Real.sin (w * x + b)
  else if d.tmod 4 = 1 then w ^ d * Real.cos (w * x + b)
  else if d.tmod 4 = 2 then -w ^ d * Real.sin (w * x + b)
  else -w ^ d * Real.cos (w * x + b)

/-- An entry of `BasisFunc.H`, BF_Py.py 79–83, or `BasisFunc::H`, BF.cc 57–98: the entry `hint` at the mapped point, times `c` to the power `d`. -/
noncomputable def entryH (hint : ℤ → ℝ → ℝ) (x0 c z0 : ℝ) (d : ℤ) (x : ℝ) : ℝ := hint d ((x - x0) * c + z0) * c ^ d

/-- `Recurse(dark, d, dCurr)` of the polynomials and of `ELMSin`, `ELMSwish` …, BF_Py.py 189–207, 815–826, and `RecurseDeriv`, BF.cc 212–236: `step` is one
derivative, `limit` the number of nested calls that python's recursion limit or the stack allows. A call too many is a `RecursionError` in python and
ends the process in C++; both are `crash` here. -/
def recurse {α : Type} (step : ℕ → α → α) (d : ℤ) : ℕ → ℕ → α → Except Err α
  | 0, _, _ => .error .crash
  | limit + 1, dCurr, dark => if (dCurr : ℤ) = d then .ok dark else recurse step d limit (dCurr + 1) (step dCurr dark)

end Verif.Model.NegOrder
