import Verif.Spec.ThreeBody
import Mathlib.Analysis.Complex.Basic

/-!
# Roots of polynomials
-/

namespace Verif.Spec

/-- The value at `z` of the polynomial whose coefficients, highest first, are `l`. -/
noncomputable def polyAt (l : List ℝ) (z : ℂ) : ℂ := l.foldl (fun (acc : ℂ) (a : ℝ) => acc * z + (a : ℂ)) 0

/-- `roots` returns the complex roots of polynomials with the leading coefficient 1, each as often as its multiplicity. -/
def RootsCorrect (roots : List ℝ → List ℂ) : Prop :=
  ∀ l : List ℝ, (roots (1 :: l)).length = l.length ∧ ∀ z : ℂ, polyAt (1 :: l) z = ((roots (1 :: l)).map fun r => z - r).prod

/-- `solve` returns a zero of the function, whatever the start, if there is one. -/
def ZeroFinder (solve : (ℝ → ℝ) → ℝ → ℝ) : Prop := ∀ (f : ℝ → ℝ) (x : ℝ), (∃ r, f r = 0) → f (solve f x) = 0

end Verif.Spec
