import Verif.Spec.Libration
import Mathlib.Analysis.Calculus.ContDiff.Basic

/-!
# Approximations of a given order
-/

namespace Verif.Spec

/-- The curves `F a` satisfy the equations of motion up to terms of the fourth order in `a`. -/
def ThirdOrder (μ : ℝ) (F : ℝ → Fin 3 → ℝ → ℝ) : Prop :=
  (∀ a i, ContDiff ℝ 2 (F a i)) ∧ ∃ K δ : ℝ, 0 < δ ∧ ∀ a, |a| ≤ δ → ∀ i t,
    |deriv (deriv (F a i)) t - acceleration μ (fun k => F a k t) (fun k => deriv (F a k) t) i| ≤ K * |a| ^ 4

/-- The same with two amplitudes, and with a force `E A Z * z` added across the plane. -/
def ThirdOrderForced (μ : ℝ) (E : ℝ → ℝ → ℝ) (F : ℝ → ℝ → Fin 3 → ℝ → ℝ) : Prop :=
  (∀ A Z i, ContDiff ℝ 2 (F A Z i)) ∧ ∃ K δ : ℝ, 0 < δ ∧ ∀ A Z, |A| ≤ δ → |Z| ≤ δ → ∀ i t,
    |deriv (deriv (F A Z i)) t - (acceleration μ (fun k => F A Z k t) (fun k => deriv (F A Z k) t) i + if i = 2 then E A Z * F A Z 2 t else 0)| ≤ K * max |A| |Z| ^ 4

end Verif.Spec
