import Verif.Np
import Mathlib.Algebra.BigOperators.Group.Finset.Basic
import Mathlib.Data.Real.Basic

/-! # Products with a basis matrix -/

namespace Verif.Spec

open Verif.Py Verif.Np

/-- Entry `j` of `A @ ξ`. -/
def rowTimes (A : Mat ℝ) (ξ : ℕ → ℝ) (j : ℕ) : ℝ := ∑ i ∈ Finset.range A.cols, A.at_ j i * ξ i

/-- The call returned a matrix with linearly independent columns: only `ξ = 0` gives `A @ ξ = 0`. -/
def IndependentColumns (r : Except Err (Mat ℝ)) : Prop :=
  ∃ A, r = .ok A ∧ ∀ ξ : ℕ → ℝ, (∀ j < A.rows, rowTimes A ξ j = 0) → ∀ i < A.cols, ξ i = 0

end Verif.Spec
