import Verif.Lemmas.Poly
import Verif.Lemmas.Calculus

/-! # Rodrigues' formula for the physicists' Hermite polynomials -/

namespace Verif

open Polynomial Verif.Spec

theorem physHermite_iter (n : ℕ) :
    iteratedDeriv n (fun x : ℝ => Real.exp (-x ^ 2)) =
      fun x => (-1) ^ n * (physHermite ℝ n).eval x * Real.exp (-x ^ 2) := by
  induction n with
  | zero => ext x; simp [physHermite]
  | succ n ih =>
    rw [iteratedDeriv_succ, ih]
    ext x
    have h1 : HasDerivAt (fun x : ℝ => Real.exp (-x ^ 2)) (Real.exp (-x ^ 2) * (-(2 * x))) x := by
      have := ((hasDerivAt_pow 2 x).fun_neg).exp
      simpa using this
    have h2 := (((physHermite ℝ n).hasDerivAt x).const_mul ((-1) ^ n)).fun_mul h1
    rw [h2.deriv]
    simp [physHermite, pow_succ]
    ring

/-- `H_n(x) = (-1)^n e^{x²} dⁿ/dxⁿ e^{-x²}`. -/
theorem physHermite_rodrigues (n : ℕ) (x : ℝ) :
    (physHermite ℝ n).eval x =
      (-1) ^ n * Real.exp (x ^ 2) * iteratedDeriv n (fun x : ℝ => Real.exp (-x ^ 2)) x := by
  rw [physHermite_iter]
  have h1 : Real.exp (x ^ 2) * Real.exp (-x ^ 2) = 1 := by rw [← Real.exp_add]; simp
  have h2 : ((-1 : ℝ) ^ n) * (-1) ^ n = 1 := by rw [← mul_pow]; simp
  linear_combination (-(physHermite ℝ n).eval x * (-1) ^ n * (-1) ^ n) * h1 - (physHermite ℝ n).eval x * h2

end Verif
