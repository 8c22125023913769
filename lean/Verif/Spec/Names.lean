import Verif.Spec.Poly
import Mathlib.Analysis.SpecialFunctions.Trigonometric.Basic
import Mathlib.Analysis.SpecialFunctions.Exp

/-!
# The meaning of the names accepted by the keyword `basis`

Written down from the documentation (utfc.py 54–55, mtfc.py 64–65): the functions on the basis domain and the domain itself.
-/

namespace Verif.Spec

open Polynomial

/-- Chebyshev, Legendre and Fourier bases: the `k`-th function and the two ends of its domain. -/
noncomputable def namedFamily (s : String) : Option ((ℕ → ℝ → ℝ) × ℝ × ℝ) :=
  if s = "CP" then some (fun k z => (Chebyshev.T ℝ k).eval z, -1, 1)
  else if s = "LeP" then some (fun k z => (legendre ℝ k).eval z, -1, 1)
  else if s = "FS" then some (fun k z =>
    if k = 0 then 1 else if k % 2 = 1 then Real.sin (((k + 1) / 2 : ℕ) * z) else Real.cos ((k / 2 : ℕ) * z),
    -Real.pi, Real.pi)
  else none

/-- The extreme learning machines: the activation function. -/
noncomputable def namedActivation (s : String) : Option (ℝ → ℝ) :=
  if s = "ELMReLU" then some fun t => max 0 t
  else if s = "ELMSigmoid" then some fun t => 1 / (1 + Real.exp (-t))
  else if s = "ELMTanh" then some Real.tanh
  else if s = "ELMSin" then some Real.sin
  else if s = "ELMSwish" then some fun t => t * (1 / (1 + Real.exp (-t)))
  else none

/-- The univariate basis a name stands for; an ELM has random weights `w` and biases `b` and the domain `[0, 1]`. -/
noncomputable def namedBasis (w b : ℕ → ℝ) (s : String) : Option ((ℕ → ℝ → ℝ) × ℝ × ℝ) :=
  match namedFamily s, namedActivation s with
  | some r, _ => some r
  | none, some σ => some (fun k z => σ (w k * z + b k), 0, 1)
  | none, none => none

end Verif.Spec
