import Verif.Model.Mtfc

/-! # Vocabulary for the arguments of `mtfc` -/

namespace Verif.Spec

open Verif.Model.Py

/-- What an entry of the per-dimension list `nC` asks for: the integer `v` the functions `0, …, v-1`, a list or array the
listed ones. -/
def Asks : NCEntry → ℕ → Prop
  | .int v, j => (j : ℤ) < v
  | .arr l, j => (j : ℤ) ∈ l

/-- The number of functions an entry names. -/
def count : NCEntry → ℤ
  | .int v => v
  | .arr l => l.length

/-- The tangent of a coordinate as numbers. -/
def _root_.Verif.Model.Py.Tangent.val : Tangent → ℕ → ℝ
  | .zero, _ => 0
  | .arr t, j => t j

end Verif.Spec
