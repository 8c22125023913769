import Verif.Model.ElmSet
import Verif.Np

/-! # What mapping a function over a batch should give -/

namespace Verif.Spec

open Verif.Py Verif.Np Verif.Model

/-- The result of the mapped call is the stack, along a new first axis, of the results of the `B` separate calls. -/
def Stacks (r : Except Err (PyBF.Arr × Option ℕ)) (B : ℕ) (each : ℕ → Except Err PyBF.Arr) : Prop :=
  ∃ R : PyBF.Arr, r = .ok (R, some 0) ∧
    ∀ b < B, ∃ A, each b = .ok A ∧ R.shape = B :: A.shape ∧ ∀ i < A.shape.prod, R.vals (b * A.shape.prod + i) = A.vals i

/-- Slice `b` of an array along its first axis. -/
def slice0 (X : PyBF.Arr) (b : ℕ) : PyBF.Arr := ⟨X.shape.tail, fun i => X.vals (b * X.shape.tail.prod + i)⟩

/-- The single row of a matrix as an array with one axis. -/
def onlyRow (A : Mat ℝ) : PyBF.Arr := ⟨[A.cols], fun i => A.at_ 0 i⟩

end Verif.Spec
