import Verif.Model.Step
import Mathlib.Analysis.SpecialFunctions.Trigonometric.Basic

/-!
# Model of `egrad` on traced functions that call `step`: /repo/tests/test_step.py 5–47

A traced function works on any kind of numbers that JAX hands it: reals, or pairs of value and tangent, nested as deep as `egrad` is. It
is applied to every entry of an array on its own.
-/

namespace Verif.Model.Step

/-- Numbers with the operations of the functions in tests/test_step.py 20–42. -/
structure Arith (α : Type) where
  const : ℝ → α
  add : α → α → α
  mul : α → α → α
  sin : α → α
  cos : α → α
  neg : α → α
  lt : α → α → Bool

/-- The numbers `step` sees. TFCUtils.py 1746. -/
def Arith.numbers {α : Type} (N : Arith α) : Numbers α := ⟨N.const 0, N.const 1, N.lt⟩

/-- `x**n` for a natural number written in the program. Used at tests/test_step.py 41. JAX multiplies repeatedly; here `x**0 = 1`. -/
def Arith.pow {α : Type} (N : Arith α) (x : α) : ℕ → α
  | 0 => N.const 1
  | n + 1 => N.mul (N.pow x n) x

/-- Pairs of value and tangent, with JAX's rules for the operations. The `jvp` of TFCUtils.py 113. -/
def Arith.dual {α : Type} (N : Arith α) : Arith (α × α) where
  const c := (N.const c, N.const 0)
  add x y := (N.add x.1 y.1, N.add x.2 y.2)
  mul x y := (N.mul x.1 y.1, N.add (N.mul x.2 y.1) (N.mul x.1 y.2))
  sin x := (N.sin x.1, N.mul x.2 (N.cos x.1))
  cos x := (N.cos x.1, N.neg (N.mul x.2 (N.sin x.1)))
  neg x := (N.neg x.1, N.neg x.2)
  lt x y := N.lt x.1 y.1

/-- A function of one number that can be traced. tests/test_step.py 20, 33, 41. -/
abbrev Traced := ∀ α : Type, Arith α → α → α

/-- `egrad(f, 0)` at one entry, TFCUtils.py 75–116: the tangent is one. -/
def egrad (f : Traced) : Traced := fun α N x => (f (α × α) N.dual (x, N.const 1)).2

/-- `step(x)` at one entry. TFCUtils.py 1731–1746. -/
def step1 {α : Type} (N : Arith α) (x : α) : α := heaviside N.numbers x N.numbers.zero

/-- The real numbers. The arrays of tests/test_step.py 6, 12, 19, 27. -/
noncomputable def realArith : Arith ℝ where
  const c := c
  add := (· + ·)
  mul := (· * ·)
  sin := Real.sin
  cos := Real.cos
  neg x := -x
  lt x y := decide (x < y)

/-- `lambda A: step(A)`, tests/test_step.py 20. -/
def fStep : Traced := fun _ N A => step1 N A

/-- `lambda A: A*step(A)+A`, tests/test_step.py 33. -/
def fRamp : Traced := fun _ N A => N.add (N.mul A (step1 N A)) A

/-- `lambda A: A**3*step(A)+np.sin(A)*step(A)`, tests/test_step.py 41. -/
def fCubic : Traced := fun _ N A => N.add (N.mul (N.pow A 3) (step1 N A)) (N.mul (N.sin A) (step1 N A))

/-- A traced function on the entries of an array of floats. tests/test_step.py 22, 35, 43. -/
noncomputable def onArray (f : Traced) (A : List ℝ) : List ℝ := A.map (f ℝ realArith)

end Verif.Model.Step
