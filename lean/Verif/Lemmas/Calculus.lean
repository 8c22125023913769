import Mathlib.Analysis.Calculus.IteratedDeriv.Defs
import Mathlib.Analysis.Calculus.Deriv.Mul
import Mathlib.Analysis.Calculus.Deriv.Comp
import Mathlib.Analysis.Calculus.Deriv.Add
import Mathlib.Analysis.Calculus.Deriv.Pow
import Mathlib.Analysis.Calculus.Deriv.Polynomial
import Mathlib.Analysis.SpecialFunctions.ExpDeriv
import Mathlib.Analysis.SpecialFunctions.Trigonometric.Deriv
import Mathlib.Tactic.LinearCombination
import Mathlib.Tactic.NormNum
import Mathlib.Tactic.FieldSimp
import Mathlib.Tactic.IntervalCases

/-! # Iterated derivatives of a function composed with an affine map -/

namespace Verif

/-- If `G (i+1)` is the derivative of `G i` for `i < D`, the `d`-th derivative of `x ↦ G 0 (a x + b)` is
`a^d G d (a x + b)`. -/
theorem iteratedDeriv_chain (G : ℕ → ℝ → ℝ) (D : ℕ)
    (h : ∀ i < D, ∀ t, HasDerivAt (G i) (G (i + 1) t) t) (a b : ℝ) {d : ℕ} (hd : d ≤ D) :
    iteratedDeriv d (fun x => G 0 (a * x + b)) = fun x => a ^ d * G d (a * x + b) := by
  induction d with
  | zero => ext x; simp
  | succ d ih =>
    rw [iteratedDeriv_succ, ih (by omega)]
    ext x
    have h1 : HasDerivAt (fun x => a * x + b) a x := by
      simpa using ((hasDerivAt_id x).const_mul a).add_const b
    have h2 := ((h d (by omega) (a * x + b)).comp x h1).const_mul (a ^ d)
    rw [show (fun x => a ^ d * G d (a * x + b)) = fun x => a ^ d * (G d ∘ fun x => a * x + b) x from rfl]
    rw [h2.deriv]
    ring

open Polynomial in
/-- Iterated derivative of a polynomial function. -/
theorem iteratedDeriv_polynomial (p : ℝ[X]) (a b : ℝ) (d : ℕ) :
    iteratedDeriv d (fun x => p.eval (a * x + b)) =
      fun x => a ^ d * (derivative^[d] p).eval (a * x + b) := by
  refine iteratedDeriv_chain (fun i t => (derivative^[i] p).eval t) d (fun i _ t => ?_) a b le_rfl
  rw [Function.iterate_succ_apply']
  exact (derivative^[i] p).hasDerivAt t

end Verif
