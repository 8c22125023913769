import Mathlib.Analysis.SpecialFunctions.Trigonometric.Basic
import Mathlib.Analysis.SpecialFunctions.Exp

/-! # Specification of the non-polynomial bases -/

namespace Verif.Spec

/-- The trigonometric system: 1, sin z, cos z, sin 2z, cos 2z, … -/
noncomputable def fourier (k : ℕ) (z : ℝ) : ℝ :=
  if k = 0 then 1
  else if k % 2 = 1 then Real.sin (((k + 1) / 2 : ℕ) * z)
  else Real.cos ((k / 2 : ℕ) * z)

/-- The logistic function. -/
noncomputable def sigmoid (t : ℝ) : ℝ := 1 / (1 + Real.exp (-t))

/-- The swish function. -/
noncomputable def swish (t : ℝ) : ℝ := t * sigmoid t

/-- The rectifier. -/
noncomputable def relu (t : ℝ) : ℝ := max 0 t

/-- The five activation functions offered by the ELM classes. -/
inductive Activation
  | relu | sigmoid | tanh | sin | swish
  deriving DecidableEq, Repr

/-- The real function an activation stands for. -/
noncomputable def act : Activation → ℝ → ℝ
  | .relu => relu
  | .sigmoid => sigmoid
  | .tanh => Real.tanh
  | .sin => Real.sin
  | .swish => swish

end Verif.Spec
