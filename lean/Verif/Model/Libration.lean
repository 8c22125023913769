import Verif.Py
import Mathlib.Analysis.Complex.Basic
import Mathlib.Analysis.SpecialFunctions.Pow.Real

/-!
# Model of the functions for the libration points

T is /repo/examples/Hunter_Johnston_Dissertation/Chapter_4/Example_4_8/util.py (the file in Example_4_9 is the same). `np.roots` and `fsolve` are
arguments.
-/

namespace Verif.Model.Py

open Verif.Py

/-- `poly1`, T 14. -/
def gammaPoly1 (mu : ℝ) : List ℝ := [1, -1 * (3 - mu), 3 - 2 * mu, -mu, 2 * mu, -mu]

/-- `poly2`, T 15. -/
def gammaPoly2 (mu : ℝ) : List ℝ := [1, 3 - mu, 3 - 2 * mu, -mu, -2 * mu, -mu]

/-- `poly3`, T 16, with `mu2` of T 12. -/
def gammaPoly3 (mu : ℝ) : List ℝ := [1, 2 + mu, 1 + 2 * mu, -(1 - mu), -2 * (1 - mu), -(1 - mu)]

/-- One entry of `GAMMAS` after the loop, T 22–29: the real part of the last of the first five roots that is real, 0 if there is none. -/
noncomputable def lastReal (rt : List ℂ) : Except Err ℝ :=
  (List.range 5).foldlM (fun g i =>
    match rt[i]? with
    | none => .error .indexError
    | some r => .ok (if r.im = 0 then r.re else g)) 0

/-- `gammaL`, T 8–30, with the index `Lpt-1` of T 30 read as Python reads it. -/
noncomputable def gammaL (roots : List ℝ → List ℂ) (mu : ℝ) (Lpt : ℤ) : Except Err ℝ := do
  let g1 ← lastReal (roots (gammaPoly1 mu))
  let g2 ← lastReal (roots (gammaPoly2 mu))
  let g3 ← lastReal (roots (gammaPoly3 mu))
  if Lpt - 1 = 0 ∨ Lpt - 1 = -3 then return g1
  else if Lpt - 1 = 1 ∨ Lpt - 1 = -2 then return g2
  else if Lpt - 1 = 2 ∨ Lpt - 1 = -1 then return g3
  else throw .indexError

/-- `getL1L2`, T 311–314. -/
noncomputable def getL1L2 (mu : ℝ) : ℝ × ℝ := (1 - (mu / 3) ^ ((1 : ℝ) / 3), 1 + (mu / 3) ^ ((1 : ℝ) / 3))

/-- The first `fun` of `Lagrange`, T 341. -/
def lagFun1 (mu x : ℝ) : ℝ := x * (x + mu) ^ 2 * (x - 1 + mu) ^ 2 - (1 - mu) * (x - 1 + mu) ^ 2 + mu * (x + mu) ^ 2

/-- The second `fun`, T 344. -/
def lagFun2 (mu x : ℝ) : ℝ := -x * (x + mu) ^ 2 * (x - 1 + mu) ^ 2 + (1 - mu) * (x - 1 + mu) ^ 2 + mu * (x + mu) ^ 2

/-- The third `fun`, T 347. -/
def lagFun3 (mu x : ℝ) : ℝ := x * (x + mu) ^ 2 * (x - 1 + mu) ^ 2 + (1 - mu) * (x - 1 + mu) ^ 2 + mu * (x + mu) ^ 2

/-- `Lagrange`, T 331–353: the columns of `L`. -/
noncomputable def lagrange (solve : (ℝ → ℝ) → ℝ → ℝ) (mu : ℝ) : List (ℝ × ℝ) := [
  (solve (lagFun1 mu) 0, 0), (solve (lagFun2 mu) 0, 0), (solve (lagFun3 mu) (-1), 0), (0.5 - mu, Real.sqrt 3 / 2), (0.5 - mu, -Real.sqrt 3 / 2)]

end Verif.Model.Py
