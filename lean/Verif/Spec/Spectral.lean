import Verif.Model.Spectral
import Verif.Spec.OdeExample

/-! # Least squares with the conditions as further rows -/

namespace Verif.Spec

open Verif.Np Verif.Model.Py

/-- The sum of the squares over all rows. -/
noncomputable def sumRows (rows : List SpecRows) (f : (ℝ → ℝ → ℝ → ℝ → ℝ) → ℝ → ℝ) : ℝ := (rows.map fun r => sumSq1 r.pts (f r.F)).sum

/-- All rows are at most `tol` in size. -/
def RowsWithin (rows : List SpecRows) (tol : ℝ) (y : ℝ → ℝ) : Prop := ∀ r ∈ rows, ∀ t ∈ r.pts, |missF r.F y t| ≤ tol

/-- `xi` gives a function with the least sum of squares over all rows, among all the object can give. -/
structure BestRows (u : Utfc) (rows : List SpecRows) (xi : List ℝ) (y : ℝ → ℝ) : Prop where
  yields : Yields u [] xi y
  best : ∀ xi' w, Yields u [] xi' w → sumRows rows (fun F => missF F y) ≤ sumRows rows fun F => missF F w

/-- The functions `ys 0, …, ys it` of the iterates of a run that returned `xi`, from zero. Each minimises the sum of the squares of all rows linearised at
the one before. The run ended because all rows are at most `tol`, or after `maxIter` steps, or because no coefficient changed by more than `tol` in the
last step. -/
structure NewtonRows (u : Utfc) (rows : List SpecRows) (tol : ℝ) (maxIter : ℕ) (xi : List ℝ) (it : ℕ) (ys : ℕ → ℝ → ℝ) : Prop where
  bound : it ≤ maxIter
  start : ys 0 = fun _ => 0
  yields : ∀ j ≤ it, ∃ xi', Yields u [] xi' (ys j)
  last : Yields u [] xi (ys it)
  step : ∀ j < it, ∀ xi' w, Yields u [] xi' w →
    sumRows rows (fun F => linF F (ys j) (ys (j + 1))) ≤ sumRows rows fun F => linF F (ys j) w
  stop : RowsWithin rows tol (ys it) ∨ it = maxIter ∨ ∃ j xi', it = j + 1 ∧ Yields u [] xi' (ys j) ∧ ∀ i, |xi.getD i 0 - xi'.getD i 0| ≤ tol

end Verif.Spec
