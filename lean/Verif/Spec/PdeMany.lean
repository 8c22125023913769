import Verif.Model.PdeMany
import Mathlib.Analysis.Calculus.ContDiff.Defs

/-! # Boundary value problems in several variables: the functions an expression can become, and the defects of a system of equations -/

namespace Verif.Spec

open Verif.Np Verif.Model.Py
open scoped ContDiff

variable {dim : ℕ}

/-- The expression for the free function `g`; the last step comes first. -/
noncomputable def buildN : List (StepN dim) → ((Fin dim → ℝ) → ℝ) → (Fin dim → ℝ) → ℝ
  | [], g, P => g P
  | s :: S, g, P => buildN S g P + (s.conds.map fun c => c.weight (P s.var) *
      (c.data P - (c.terms.map fun t => t.1 * (partialDeriv s.var)^[t.2.1] (buildN S g) (Function.update P s.var t.2.2)).sum)).sum

/-- A term, for the unknown functions `z 0`, `z 1`, …. -/
noncomputable def termVal (t : TermN dim) (z : ℕ → (Fin dim → ℝ) → ℝ) (P : Fin dim → ℝ) : ℝ := t.coef * mixedPartial t.ord (z t.unk) P

/-- By how much the functions miss an equation at a point. -/
noncomputable def missN (E : EqnN dim) (z : ℕ → (Fin dim → ℝ) → ℝ) (P : Fin dim → ℝ) : ℝ :=
  (E.lin.map fun t => termVal t z P).sum + (E.prods.map fun t => termVal t.1 z P * termVal t.2 z P).sum + E.const

/-- The equation linearised at `z`, for `w`. -/
noncomputable def linN (E : EqnN dim) (z w : ℕ → (Fin dim → ℝ) → ℝ) (P : Fin dim → ℝ) : ℝ :=
  (E.lin.map fun t => termVal t w P).sum + (E.prods.map fun t => termVal t.1 z P * termVal t.2 w P + termVal t.1 w P * termVal t.2 z P -
    termVal t.1 z P * termVal t.2 z P).sum + E.const

/-- The sum of the squares over all equations and points. -/
noncomputable def sumSqN (Q : List (EqnN dim)) (pts : List (Fin dim → ℝ)) (f : EqnN dim → (Fin dim → ℝ) → ℝ) : ℝ :=
  (Q.map fun E => (pts.map fun P => f E P ^ 2).sum).sum

/-- The products of `H` with the coefficients `xi` are the values of `g`. -/
def FreeN (u : Mtfc) (xi : List ℝ) (g : (Fin dim → ℝ) → ℝ) : Prop :=
  ∀ (n : ℕ) (pts : ℕ → Fin dim → ℝ), ∃ A, u.Hjax n (coords pts) (List.ofFn fun _ : Fin dim => 0) false = .ok A ∧
    ∀ j < n, npDot A xi j = g (pts j)

/-- The weights and data of the steps are smooth, and the data do not depend on the variable of the step. -/
def SmoothSteps (S : List (StepN dim)) : Prop :=
  ∀ s ∈ S, ∀ c ∈ s.conds, ContDiff ℝ ∞ c.weight ∧ ContDiff ℝ ∞ c.data ∧ ∀ P x, c.data (Function.update P s.var x) = c.data P

/-- The orders of derivation of `H` that the expression needs for its derivative `d` are at most 8 in total. -/
def OrdersN : List (StepN dim) → (Fin dim → ℕ) → Prop
  | [], d => ∑ k, d k ≤ 8
  | s :: S, d => OrdersN S d ∧ ∀ c ∈ s.conds, ∀ t ∈ c.terms, OrdersN S (Function.update d s.var t.2.1)

/-- The equation is about the unknown functions `0`, …, `K - 1`. -/
def UsesN (K : ℕ) (E : EqnN dim) : Prop := (∀ t ∈ E.lin, t.unk < K) ∧ ∀ t ∈ E.prods, t.1.unk < K ∧ t.2.unk < K

/-- The collocation points of an object. -/
def pointsN (dim : ℕ) (u : Mtfc) : List (Fin dim → ℝ) := (List.range (u.x.getD 0 []).length).map (gridN dim u.x)

end Verif.Spec
