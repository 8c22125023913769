import Mathlib.Data.Real.Basic
import Mathlib.Algebra.BigOperators.Fin
import Mathlib.Data.Matrix.Mul
import Mathlib.LinearAlgebra.Matrix.Notation

/-! # The constrained minimisation of TfcBook/Chapter_4/Example_4_2.py

A dictionary with the keys `x`, `y`, `z` and one number under each is a vector with three entries (TFCDict and its arithmetic with flat vectors: C29, C30).
Numbers are real instead of double. -/

namespace Verif.Model.Opt

/-- `X0`, B/Chapter_4/Example_4_2.py 12–14. -/
noncomputable def start : Fin 3 → ℝ := ![2 / 3, 1 / 3, 1 / 3]

/-- `f`, B/Chapter_4/Example_4_2.py 17. -/
noncomputable def f (X : Fin 3 → ℝ) : ℝ :=
  X 0 * X 1 * (X 0 * X 1 + 6 * X 1 - 8 * X 0 - 48) + X 2 ^ 2 - 8 * X 2 + 9 * X 1 ^ 2 - 72 * X 1 + 16 * X 0 ^ 2 + 96 * X 0 + 160

/-- `A`, B/Chapter_4/Example_4_2.py 22. -/
noncomputable def A : Matrix (Fin 2) (Fin 3) ℝ := !![1, 2, -1; 1, 0, 1]

/-- `b`, B/Chapter_4/Example_4_2.py 23 (a column). -/
noncomputable def b : Fin 2 → ℝ := ![1, 1]

/-- `J`, B/Chapter_4/Example_4_2.py 18: `jacfwd(f)` as the three partial derivatives, written out; `grad_is_derivative` (Props/Optimise) shows
that these are the derivatives of `f`. -/
noncomputable def J (X : Fin 3 → ℝ) : Fin 3 → ℝ :=
  ![2 * X 0 * X 1 ^ 2 + 6 * X 1 ^ 2 - 16 * X 0 * X 1 - 48 * X 1 + 32 * X 0 + 96,
    2 * X 0 ^ 2 * X 1 + 12 * X 0 * X 1 - 8 * X 0 ^ 2 - 48 * X 0 + 18 * X 1 - 72,
    2 * X 2 - 8]

/-- `H`, B/Chapter_4/Example_4_2.py 19: `jacrev(J)`, written out in the same way (`hess_is_derivative`). -/
noncomputable def H (X : Fin 3 → ℝ) : Matrix (Fin 3) (Fin 3) ℝ :=
  !![2 * X 1 ^ 2 - 16 * X 1 + 32, 4 * X 0 * X 1 + 12 * X 1 - 16 * X 0 - 48, 0;
     4 * X 0 * X 1 + 12 * X 1 - 16 * X 0 - 48, 2 * X 0 ^ 2 + 12 * X 0 + 18, 0;
     0, 0, 2]

/-- The loop variable `val`, B/Chapter_4/Example_4_2.py 28: `s` has one entry because `N` has one column; `X0` and `N` do not change. -/
structure Val where
  s : ℝ
  X : Fin 3 → ℝ

/-- `body`, B/Chapter_4/Example_4_2.py 30–33; the inverse of a 1 by 1 matrix is the inverse of its entry. -/
noncomputable def body (X0 N : Fin 3 → ℝ) (val : Val) : Val :=
  let s := val.s + (∑ i, N i * ∑ j, H val.X i j * N j)⁻¹ * ∑ i, N i * J val.X i
  { s := s, X := fun i => X0 i - N i * s }

/-- `fori_loop(0, n, body, val)`, B/Chapter_4/Example_4_2.py 28, 35 (there `n = 8`). -/
noncomputable def run (X0 N : Fin 3 → ℝ) (n : ℕ) : Val := (body X0 N)^[n] { s := 0, X := X0 }

end Verif.Model.Opt
