import Mathlib.Data.List.Basic

/-!
# Model of `step`: /repo/src/tfc/utils/TFCUtils.py 1731–1746

`np` is `jax.numpy` (TFCUtils.py 14). `jnp.heaviside(x1, x2)` is, in JAX's source,
`where(lt(x1, 0), 0, where(gt(x1, 0), 1, x2))`. Forward-mode differentiation replaces numbers by pairs of value and tangent, possibly
several times for higher derivatives: comparisons look at values only, constants have tangent zero, `where` selects a pair.
-/

namespace Verif.Model.Step

/-- Numbers as seen by a traced function: the constants zero and one, and comparison.
The argument of `step`, TFCUtils.py 1731–1746. -/
structure Numbers (α : Type) where
  zero : α
  one : α
  lt : α → α → Bool

/-- Pairs of value and tangent (`jax.jvp`). Applied to TFCUtils.py 1746. -/
def Numbers.dual {α : Type} (N : Numbers α) : Numbers (α × α) where
  zero := (N.zero, N.zero)
  one := (N.one, N.zero)
  lt x y := N.lt x.1 y.1

/-- `np.where(c, x, y)` at one entry. Inside `np.heaviside`, TFCUtils.py 1746. -/
def select {α : Type} (c : Bool) (x y : α) : α := if c then x else y

/-- `jnp.heaviside(x1, x2)` at one entry. -/
def heaviside {α : Type} (N : Numbers α) (x1 x2 : α) : α :=
  select (N.lt x1 N.zero) N.zero (select (N.lt N.zero x1) N.one x2)

/-- `step(x)`, TFCUtils.py 1731–1746, for the list of the entries of the array. -/
def step {α : Type} (N : Numbers α) (x : List α) : List α := x.map fun a => heaviside N a N.zero

end Verif.Model.Step
