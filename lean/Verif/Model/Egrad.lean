import Mathlib.Analysis.Calculus.Deriv.Basic

/-!
# Model of `egrad`: /repo/src/tfc/utils/TFCUtils.py lines 75–116

A function of several array arguments is a function of `args : ℕ → ι → ℝ` (argument number, entry). Trusted: JAX's
`jvp(g, args, tans)` returns the value of `g` and its directional derivative at `args` in the direction `tans`.
-/

namespace Verif.Model.Jax

variable {ι κ : Type}

/-- Contract of `jax.jvp`: value and directional derivative (here the derivative at `s = 0` of `g (args + s * tans)`,
entry by entry). -/
noncomputable def jvp (g : (ℕ → ι → ℝ) → κ → ℝ) (args tans : ℕ → ι → ℝ) : (κ → ℝ) × (κ → ℝ) :=
  (g args, fun o => deriv (fun s : ℝ => g (fun a i => args a i + s * tans a i) o) 0)

/-- `egrad(g, j)`, TFCUtils.py 75–116: `tans` is the array of ones for argument `j` and zeros for the others; the second
component of `jvp` is returned. -/
noncomputable def egrad (g : (ℕ → ι → ℝ) → κ → ℝ) (j : ℕ) (args : ℕ → ι → ℝ) : κ → ℝ :=
  let tans : ℕ → ι → ℝ := fun i _ => if i = j then 1 else 0
  (jvp g args tans).2

end Verif.Model.Jax
