import Verif.Spec.Poly
import Mathlib.Analysis.Complex.Basic

/-!
# Sizes that bound rounding errors

A polynomial `Σ a i * z ^ i` cannot be evaluated, in general, with an error below the rounding errors of its terms, whose sizes are `|a i| * |z| ^ i`. For the
families other than Laguerre, whose polynomials are even or odd with coefficients of alternating sign, the sum of these sizes is the absolute value of the polynomial at
the imaginary number `|z| * i`.
-/

namespace Verif.Spec

open Polynomial

/-- The absolute value at `r * i` of the `d`-th derivative of the `k`-th polynomial. -/
noncomputable def sizeAt (f : PolyFamily) (d : ℕ) (r : ℝ) (k : ℕ) : ℝ := ‖(derivative^[d] (classical ℂ f k)).eval ((r : ℂ) * Complex.I)‖

/-- The recurrences of the Laguerre polynomials and of their derivatives with all signs positive. -/
noncomputable def laguerreSize : ℕ → ℝ → ℕ → ℝ
  | 0, _, 0 => 1
  | 0, r, 1 => 1 + r
  | 0, r, k + 2 => ((2 * ((k + 1 : ℕ) : ℝ) + 1 + r) * laguerreSize 0 r (k + 1) + ((k + 1 : ℕ) : ℝ) * laguerreSize 0 r k) / (((k + 1 : ℕ) : ℝ) + 1)
  | _ + 1, _, 0 => 0
  | 1, _, 1 => 1
  | _ + 2, _, 1 => 0
  | d + 1, r, k + 2 => ((2 * ((k + 1 : ℕ) : ℝ) + 1 + r) * laguerreSize (d + 1) r (k + 1) + ((d : ℝ) + 1) * laguerreSize d r (k + 1) +
      ((k + 1 : ℕ) : ℝ) * laguerreSize (d + 1) r k) / (((k + 1 : ℕ) : ℝ) + 1)
termination_by d _ k => (d, k)

end Verif.Spec
