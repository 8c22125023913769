import Mathlib.Algebra.Polynomial.Derivative
import Mathlib.Data.Real.Basic

/-! # Linear boundary value problems of second order -/

namespace Verif.Spec

open Polynomial

/-- `p'' + a p' + b p - f` at `t`. -/
noncomputable def odeDefect (a b f : ℝ → ℝ) (p : ℝ[X]) (t : ℝ) : ℝ :=
  (derivative (derivative p)).eval t + a t * (derivative p).eval t + b t * p.eval t - f t

/-- The sum of the squares of the defects at the points. -/
noncomputable def defectSq (a b f : ℝ → ℝ) (p : ℝ[X]) (pts : List ℝ) : ℝ := (pts.map fun t => odeDefect a b f p t ^ 2).sum

/-- The polynomials of degree at most `deg` that meet the boundary conditions. -/
structure MeetsEnds (deg : ℕ) (ti tf yi yf : ℝ) (p : ℝ[X]) : Prop where
  degree : p.degree < (deg + 1 : ℕ)
  left : p.eval ti = yi
  right : p.eval tf = yf

end Verif.Spec
