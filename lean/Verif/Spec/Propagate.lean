import Verif.Model.Propagate
import Verif.Spec.OdeExample

/-! # Step by step solutions: what the rows of a run mean -/

namespace Verif.Spec

open Verif.Model.Py Verif.Model.Prog
open scoped ContDiff

/-- `ys 0`, …, `ys (n-1)` are the functions of the steps of length `L`, each in the time since the start of its step: the first has the given start
values, each other goes on from the end of the one before, and the rows saved are their points in the time of the whole run, their
values and the size of their defects. -/
structure Marched (u : Utfc) (F : ℝ → ℝ → ℝ → ℝ → ℝ) (L y0 y0p : ℝ) (n : ℕ) (ys : ℕ → ℝ → ℝ) (s : MarchState) : Prop where
  smooth : ∀ i < n, ContDiff ℝ ∞ (ys i)
  start : 0 < n → ys 0 0 = y0 ∧ deriv (ys 0) 0 = y0p
  join : ∀ i, i + 1 < n → ys (i + 1) 0 = ys i L ∧ deriv (ys (i + 1)) 0 = deriv (ys i) L
  rows : s.rows = (List.range n).map fun i : ℕ =>
    ⟨u.x.dropLast.map (i * L + ·), u.x.dropLast.map (ys i), u.x.dropLast.map fun t => |missF F (ys i) t|⟩

end Verif.Spec
