import Verif.Spec.Poly
import Verif.Spec.Domain
import Verif.Spec.Trig

/-! # The univariate basis functions as functions of the user's variable -/

namespace Verif.Spec

/-- The ten univariate classes; an ELM basis also has weights and biases. -/
inductive UniClass
  | poly (f : PolyFamily)
  | fs
  | elm (a : Activation) (w b : ℕ → ℝ)

/-- The `k`-th basis function on the basis domain. -/
noncomputable def UniClass.fn : UniClass → ℕ → ℝ → ℝ
  | .poly f, k, z => (classical ℝ f k).eval z
  | .fs, k, z => fourier k z
  | .elm a w b, k, z => act a (w k * z + b k)

/-- The domain map of each class: Chebyshev/Legendre `[-1,1]`, Fourier `[-π,π]`, ELM `[0,1]`, none otherwise. -/
noncomputable def UniClass.arg : UniClass → ℝ → ℝ → ℝ → ℝ
  | .poly f, x0, xf, x => f.arg x0 xf x
  | .fs, x0, xf, x => toBasis x0 xf (-Real.pi) Real.pi x
  | .elm _ _ _, x0, xf, x => toBasis x0 xf 0 1 x

/-- The `k`-th basis function in the user's variable `x ∈ [x0, xf]`. -/
noncomputable def UniClass.basis (cls : UniClass) (x0 xf : ℝ) (k : ℕ) (x : ℝ) : ℝ :=
  cls.fn k (cls.arg x0 xf x)

end Verif.Spec
