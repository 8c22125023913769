import Verif.Model.PdeExample
import Mathlib.Algebra.Polynomial.Derivative
import Mathlib.Algebra.Polynomial.Eval.Defs
import Mathlib.Analysis.Calculus.ContDiff.Defs

/-! # Boundary value problems in two variables: the functions an expression can become, and the defect of an equation -/

namespace Verif.Spec

open Polynomial Verif.Np Verif.Model.Py Verif.Model.Prog
open scoped ContDiff

/-- The first step of an expression, for the free function `g`: each condition of `xs` is corrected along its lines. -/
noncomputable def full1 (xs : List SideCond) (g : ℝ → ℝ → ℝ) (x y : ℝ) : ℝ :=
  g x y + (xs.map fun c => c.weight x * (c.data y - (c.terms.map fun t => t.1 * dx^[t.2.1] g t.2.2 y).sum)).sum

/-- The whole expression for the free function `g`. -/
noncomputable def full (P : TwoStep) (g : ℝ → ℝ → ℝ) (x y : ℝ) : ℝ :=
  full1 P.xs g x y + (P.ys.map fun c => c.weight y * (c.data x - (c.terms.map fun t => t.1 * dy^[t.2.1] (full1 P.xs g) x t.2.2).sum)).sum

/-- A linear differential operator applied to `z`. -/
noncomputable def opVal (l : List OpTerm) (z : ℝ → ℝ → ℝ) (x y : ℝ) : ℝ := (l.map fun t => t.coef x y * dx^[t.d] (dy^[t.e] z) x y).sum

/-- By how much `z` misses the equation at a point. -/
noncomputable def missOf (Q : Equation2) (z : ℝ → ℝ → ℝ) (x y : ℝ) : ℝ :=
  opVal Q.lin z x y + opVal Q.fac1 z x y * opVal Q.fac2 z x y - Q.source x y

/-- The equation linearised at `z`, for `w`. -/
noncomputable def linOf (Q : Equation2) (z w : ℝ → ℝ → ℝ) (x y : ℝ) : ℝ :=
  opVal Q.lin w x y + (opVal Q.fac1 z x y * opVal Q.fac2 w x y + opVal Q.fac1 w x y * opVal Q.fac2 z x y -
    opVal Q.fac1 z x y * opVal Q.fac2 z x y) - Q.source x y

/-- The sum of the squares at the points. -/
noncomputable def sumSq2 (pts : List (ℝ × ℝ)) (f : ℝ → ℝ → ℝ) : ℝ := (pts.map fun t => f t.1 t.2 ^ 2).sum

/-- The products of `H` with the coefficients `xi` are the values of `g`. -/
def Free (u : Mtfc) (xi : List ℝ) (g : ℝ → ℝ → ℝ) : Prop :=
  ∀ N X Y, ∃ A, u.Hjax N (points2 X Y) [0, 0] false = .ok A ∧ ∀ j < N, npDot A xi j = g (X j) (Y j)

/-- The weights and data of the conditions are smooth. -/
def SmoothSides (cs : List SideCond) : Prop := ∀ c ∈ cs, ContDiff ℝ ∞ c.weight ∧ ContDiff ℝ ∞ c.data

/-- The orders of derivation in `x` and `y` that the expression and the equation use. -/
structure Orders (P : TwoStep) (Q : Equation2) (kx ky : ℕ) : Prop where
  xs : ∀ c ∈ P.xs, ∀ t ∈ c.terms, t.2.1 ≤ kx
  ys : ∀ c ∈ P.ys, ∀ t ∈ c.terms, t.2.1 ≤ ky
  terms : ∀ t ∈ Q.lin ++ Q.fac1 ++ Q.fac2, t.d ≤ kx ∧ t.e ≤ ky

/-- The weights reproduce the polynomials of degree at most `a` from what the conditions see of them. -/
def Reproduces (cs : List SideCond) (a : ℕ) : Prop :=
  ∀ p : ℝ[X], p.natDegree ≤ a → ∀ x, p.eval x =
    (cs.map fun c => c.weight x * (c.terms.map fun t => t.1 * (derivative^[t.2.1] p).eval t.2.2).sum).sum

end Verif.Spec
