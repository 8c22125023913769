import Verif.Model.OdeExample
import Verif.Spec.Expr
import Mathlib.Algebra.Polynomial.Derivative
import Mathlib.Algebra.Polynomial.Eval.Defs

/-! # Ordinary differential equations of second order: the functions an expression can become, and the defect of an equation -/

namespace Verif.Spec

open Polynomial Verif.Np Verif.Model.Py
open scoped ContDiff

/-- The expression for the free function `g`: each condition is corrected with its weight. -/
noncomputable def curve (cs : List EndCond) (g : ℝ → ℝ) (x : ℝ) : ℝ :=
  g x + (cs.map fun c => c.weight x * (c.value - iteratedDeriv c.order g c.point)).sum

/-- By how much `y` misses the equation `F(x, y, y', y'') = 0` at a point. -/
noncomputable def missF (F : ℝ → ℝ → ℝ → ℝ → ℝ) (y : ℝ → ℝ) (x : ℝ) : ℝ := F x (y x) (deriv y x) (deriv (deriv y) x)

/-- The equation linearised at `y`, for `w`: the defect of `y`, and how it changes on the way from `y` to `w`. -/
noncomputable def linF (F : ℝ → ℝ → ℝ → ℝ → ℝ) (y w : ℝ → ℝ) (x : ℝ) : ℝ :=
  missF F y x + deriv (fun s : ℝ => missF F (fun t => y t + s * (w t - y t)) x) 0

/-- The sum of the squares at the points. -/
noncomputable def sumSq1 (pts : List ℝ) (f : ℝ → ℝ) : ℝ := (pts.map fun t => f t ^ 2).sum

/-- The object and the coefficients `xi` give the function `y`: it is the expression for a smooth free function whose derivatives up to
order 8 are the products of `xi` with `H`, `dH`, …, at all points. -/
def Yields (u : Utfc) (cs : List EndCond) (xi : List ℝ) (y : ℝ → ℝ) : Prop :=
  ∃ g, ContDiff ℝ ∞ g ∧ Evaluates u xi (fun d => iteratedDeriv d g) ∧ y = curve cs g

/-- The weights of the conditions are smooth, and the conditions ask for derivatives that exist. -/
def SmoothEnds (cs : List EndCond) : Prop := ∀ c ∈ cs, ContDiff ℝ ∞ c.weight ∧ c.order ≤ 8

/-- The weights reproduce the polynomials of degree less than `a` from what the conditions see of them. -/
def ReproducesEnds (cs : List EndCond) (a : ℕ) : Prop :=
  ∀ p : ℝ[X], p.degree < a → ∀ x, p.eval x = (cs.map fun c => c.weight x * (derivative^[c.order] p).eval c.point).sum

/-- The weights belong to different conditions: each is seen by its own condition only, with the value 1. -/
def DualEnds (cs : List EndCond) : Prop :=
  ∀ (i j : ℕ) (hi : i < cs.length) (hj : j < cs.length),
    iteratedDeriv cs[i].order cs[j].weight cs[i].point = if i = j then 1 else 0

/-- `y` meets the conditions. -/
def MeetsAll (cs : List EndCond) (y : ℝ → ℝ) : Prop := ∀ c ∈ cs, iteratedDeriv c.order y c.point = c.value

/-- The equation is linear in `y`, `y'`, `y''`. -/
def LinearF (F : ℝ → ℝ → ℝ → ℝ → ℝ) : Prop := ∃ a b c e : ℝ → ℝ, ∀ x y y1 y2, F x y y1 y2 = a x * y + b x * y1 + c x * y2 + e x

/-- The equation is differentiable in `y`, `y'`, `y''`. -/
def DiffF (F : ℝ → ℝ → ℝ → ℝ → ℝ) : Prop := ∀ x, Differentiable ℝ fun p : ℝ × ℝ × ℝ => F x p.1 p.2.1 p.2.2

/-- `xi` gives a function with the least sum of squared defects at the collocation points, among all the object can give. -/
structure Best1 (u : Utfc) (cs : List EndCond) (F : ℝ → ℝ → ℝ → ℝ → ℝ) (xi : List ℝ) (y : ℝ → ℝ) : Prop where
  yields : Yields u cs xi y
  best : ∀ xi' w, Yields u cs xi' w → sumSq1 u.x (missF F y) ≤ sumSq1 u.x (missF F w)

/-- The functions `ys 0, …, ys it` of the iterates of a run that returned `xi`. Each minimises the sum of the squares of the equation linearised at
the one before, among all functions the object can give. The run ended because the defects at the collocation points are at most `tol`, or after
`maxIter` steps, or because no coefficient changed by more than `tol` in the last step. -/
structure Newton1 (u : Utfc) (cs : List EndCond) (F : ℝ → ℝ → ℝ → ℝ → ℝ) (tol : ℝ) (maxIter : ℕ) (xi : List ℝ) (it : ℕ)
    (ys : ℕ → ℝ → ℝ) : Prop where
  bound : it ≤ maxIter
  start : ys 0 = curve cs fun _ => 0
  yields : ∀ j ≤ it, ∃ xi', Yields u cs xi' (ys j)
  last : Yields u cs xi (ys it)
  step : ∀ j < it, ∀ xi' w, Yields u cs xi' w → sumSq1 u.x (linF F (ys j) (ys (j + 1))) ≤ sumSq1 u.x (linF F (ys j) w)
  stop : (∀ t ∈ u.x, |missF F (ys it) t| ≤ tol) ∨ it = maxIter ∨
    ∃ j xi', it = j + 1 ∧ Yields u cs xi' (ys j) ∧ ∀ i, |xi.getD i 0 - xi'.getD i 0| ≤ tol

end Verif.Spec
