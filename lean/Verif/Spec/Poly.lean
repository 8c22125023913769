import Mathlib.RingTheory.Polynomial.Chebyshev
import Mathlib.RingTheory.Polynomial.Hermite.Basic
import Mathlib.Algebra.Polynomial.Derivative

/-!
# Specification: the classical orthogonal polynomials, by their textbook closed definitions

None of these is defined by the recurrence the code uses.
-/

namespace Verif.Spec

open Polynomial

/-- The five polynomial families offered by the package. -/
inductive PolyFamily
  | cp      -- Chebyshev polynomials of the first kind
  | lep     -- Legendre polynomials
  | lap     -- Laguerre polynomials
  | hopPro  -- probabilists' Hermite polynomials
  | hopPhy  -- physicists' Hermite polynomials
  deriving DecidableEq, Repr

/-- Legendre polynomial by Rodrigues' formula: `P_n = 1/(2^n n!) dⁿ/dxⁿ (x² - 1)ⁿ`. -/
noncomputable def legendre (K : Type) [Field K] (n : ℕ) : K[X] :=
  C (1 / (2 ^ n * (n.factorial : K))) * derivative^[n] ((X ^ 2 - 1) ^ n)

/-- Laguerre polynomial by its closed form: `L_n = Σ_{k≤n} binom(n,k) (-1)^k / k! x^k`. -/
noncomputable def laguerre (K : Type) [Field K] (n : ℕ) : K[X] :=
  ∑ k ∈ Finset.range (n + 1), C ((n.choose k : K) * (-1) ^ k / (k.factorial : K)) * X ^ k

/-- Physicists' Hermite polynomial by the raising operator `H_{n+1} = 2 x H_n - H_n'`
(`Verif.physHermite_rodrigues` shows it is `(-1)^n e^{x²} dⁿ/dxⁿ e^{-x²}`). -/
noncomputable def physHermite (K : Type) [Field K] : ℕ → K[X]
  | 0 => 1
  | n + 1 => 2 * X * physHermite K n - derivative (physHermite K n)

/-- The `k`-th classical polynomial of a family. -/
noncomputable def classical (K : Type) [Field K] : PolyFamily → ℕ → K[X]
  | .cp, k => Chebyshev.T K k
  | .lep, k => legendre K k
  | .lap, k => laguerre K k
  | .hopPro, k => (hermite k).map (Int.castRingHom K)
  | .hopPhy, k => physHermite K k

end Verif.Spec
