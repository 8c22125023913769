import Verif.Model.Bvp
import Verif.Model.Mtfc
import Verif.Model.UtfcInit
import Verif.Spec.Columns
import Verif.Spec.Multi
import Mathlib.Analysis.Calculus.ContDiff.Defs

/-!
# The free function of a constrained expression

The programs in /repo/examples write the unknown function as `np.dot(H(x),xi)` plus terms that enforce the constraints. Here: what it
means that these products are the values and the derivatives of one function.
-/

namespace Verif.Spec

open Verif.Py Verif.Np Verif.Model Verif.Model.Py

/-- A `utfc` object the programs can use: a proper interval, removed functions that exist, and an activation with derivatives
everywhere. -/
structure Ready (u : Utfc) : Prop where
  interval : u.x0 ≠ u.xf
  removal : ValidRemoval (u.deg + 1) u.nC
  smooth : ∀ w b, u.cls ≠ .elm .relu w b

/-- `h d t` is the entry for the point `t` of `np.dot(H(t),xi)` (`d = 0`), `np.dot(dH(t),xi)` (`d = 1`), …, in every call, alone or
together with other points. Order 8 is the last one the compiled activations have. -/
def Evaluates (u : Utfc) (xi : List ℝ) (h : ℕ → ℝ → ℝ) : Prop :=
  ∀ d ≤ 8, ∀ (n : ℕ) (ts : ℕ → ℝ), ∃ A, u.Hjax n ts d false = .ok A ∧ A.rows = n ∧ ∀ j < n, npDot A xi j = h d (ts j)

/-- `u` is the result of `utfc(N, nC, deg, basis = basis, x0 = x0, xf = xf, backend = backend)`, whatever the other arguments. -/
def Built (N : ℕ) (basis : String) (x0 xf : ℝ) (u : Utfc) : Prop :=
  ∃ (nC : NCArg) (deg : ℕ) (backend : String) (w b : ℕ → ℝ), utfcInit N nC deg basis (some x0) (some xf) backend w b = .ok u

/-- The same for an `mtfc` object in `dim` variables: the products are the values and the partial derivatives of `g`. -/
def MEvaluates (dim : ℕ) (u : Mtfc) (xi : List ℝ) (g : (Fin dim → ℝ) → ℝ) : Prop :=
  ∀ ds : List ℕ, ds.length = dim → ds.sum ≤ 8 → ∀ (n : ℕ) (xs : ℕ → ℕ → ℝ),
    ∃ A, u.Hjax n xs ds false = .ok A ∧ A.rows = n ∧
      ∀ j < n, npDot A xi j = mixedPartial (fun k : Fin dim => ds.getD k 0) g (fun k => xs j k)

end Verif.Spec
