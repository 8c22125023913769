import Verif.Py
import Mathlib.Analysis.SpecialFunctions.Trigonometric.Basic
import Mathlib.Analysis.Complex.Basic
import Mathlib.Analysis.Calculus.Deriv.Basic

/-!
# Model of the programs with a complex variable

B/Appendices/example_B_2.py (the same as D/Appendices/Appendix_I/Example_I_5.py) and tests/test_complex_ODE.py, and the element types of
the tangents that `egrad` and `egradRobust` build (TFCUtils.py 75–203).
-/

namespace Verif.Model.Cplx

open Verif.Py Complex

/-- First switching function, example_B_2.py 16. -/
noncomputable def phi1 (x : ℂ) : ℂ := ((-44 + 8 * I) * x ^ 2 + (52 + 36 * I) * x + (132 - 24 * I)) / 125

/-- Second switching function, example_B_2.py 17. -/
noncomputable def phi2 (x : ℂ) : ℂ := (69 + 67 * I) / 125 * x ^ 2 - (129 + 397 * I) / 250 * x + (-82 + 49 * I) / 125

/-- Third switching function, example_B_2.py 18. -/
noncomputable def phi3 (x : ℂ) : ℂ := ((44 - 8 * I) * x ^ 2 - (52 + 36 * I) * x + (-7 + 24 * I)) / 125

/-- `uslow`, example_B_2.py 15–18; `egrad(g)` is the complex derivative. -/
noncomputable def cxU (g : ℂ → ℂ) (x : ℂ) : ℂ :=
  g x + phi1 x * (1 + Real.pi * I - g (0.5 * I)) + phi2 x * (g 1 - g I) + phi3 x * (2 * I - g (2 + I) - deriv g 1)

/-- `g`, example_B_2.py 13. -/
noncomputable def cxG (x : ℂ) : ℂ := 0.25 * x + Complex.cos (x / 4) * (0.3 * I)

/-- `u`, tests/test_complex_ODE.py 40. -/
noncomputable def odeU (g : ℂ → ℂ) (x : ℂ) : ℂ := g x + 5 - g (1 + I)

/-- `realSoln`, tests/test_complex_ODE.py 14. -/
noncomputable def odeSoln (x : ℂ) : ℂ := 5 * Complex.exp x / Complex.exp (1 + I)

/-- The element types met here: numpy's names. TFCUtils.py 107–112. -/
inductive DType where
  | float32
  | float64
  | complex64
  | complex128
  | int64
  | bool
  | float0
deriving DecidableEq, Repr

/-- The element type that `jax.jvp` demands of the tangent of an argument (library code, called at TFCUtils.py 113 and 200): the type itself,
for integers and booleans `float0`. -/
def DType.tangent : DType → DType
  | .int64 => .float0
  | .bool => .float0
  | t => t

/-- The check of `jax.jvp` on its arguments before it runs `g` (library code, called at TFCUtils.py 113 and 200): as many tangents as
arguments, each of the demanded element type. The shapes agree by construction and are left out. -/
def jvpCheck (args tans : List DType) : Except Err Unit :=
  if tans = args.map DType.tangent then .ok () else .error .typeError

/-- The element types of `tans` in `egrad`, TFCUtils.py 107–112: `onp.ones(args[i].shape)` and `onp.zeros(args[i].shape)` have type
`float64` whatever the argument. -/
def egradTans (args : List DType) : List DType := args.map fun _ => .float64

/-- The element types of `tans` in `egradRobust`, TFCUtils.py 197–199 with 139 and 161: `dtype=val.dtype`. -/
def egradRobustTans (args : List DType) : List DType := args.map fun t => t

/-- `egrad(g, j)(*args)` up to the start of `g`, TFCUtils.py 106–114. -/
def egradStart (args : List DType) : Except Err Unit := jvpCheck args (egradTans args)

/-- `egradRobust(g, j)(*args)` up to the start of `g`, TFCUtils.py 196–201. -/
def egradRobustStart (args : List DType) : Except Err Unit := jvpCheck args (egradRobustTans args)

end Verif.Model.Cplx
