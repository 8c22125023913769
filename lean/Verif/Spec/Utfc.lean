import Verif.Spec.Basis
import Verif.Spec.Result
import Verif.Model.UtfcInit

/-! # Vocabulary for the methods of `utfc` -/

namespace Verif.Spec

open Verif.Model.Py

/-- The class has code for order `d` producing an array of the right shape: the compiled swish class stops at order 8, the
Python ReLU class at order 1 (both limits are proved to be real in `Verif.Props.UniCC` and `Verif.Props.UniPy`). -/
def Evaluable : Backend → UniClass → ℕ → Prop
  | .cpp, cls, d => ∀ w b, cls = .elm .swish w b → d ≤ 8
  | .python, cls, d => ∀ w b, cls = .elm .relu w b → d ≤ 1

/-- The class has a formula for the `d`-th derivative: the compiled sigmoid, tanh and swish classes stop at order 8. -/
def Exact : Backend → UniClass → ℕ → Prop
  | .cpp, cls, d => ∀ a w b, cls = .elm a w b → a ∈ [Activation.sigmoid, .tanh, .swish] → d ≤ 8
  | .python, _, _ => True

/-- `x` is not the kink of the `k`-th ReLU neuron (no condition for the other classes). -/
def OffKink (cls : UniClass) (x0 xf : ℝ) (k : ℕ) (x : ℝ) : Prop :=
  ∀ w b, cls = .elm .relu w b → w k * cls.arg x0 xf x + b k ≠ 0

end Verif.Spec
