import Verif.Model.Step
import Mathlib.Analysis.Calculus.Deriv.Basic
import Mathlib.Topology.Order.OrderClosed
import Mathlib.Topology.MetricSpace.Pseudo.Defs
import Mathlib.Tactic.NormNum

/-!
# C52: the step function

Python: /repo/src/tfc/utils/TFCUtils.py 1731–1746.
-/

namespace Verif.Props

open Verif.Model.Step

/-- The real numbers. -/
noncomputable def realNumbers : Numbers ℝ := ⟨0, 1, fun x y => decide (x < y)⟩

/-- **C52**: every entry is 1 where the argument is positive and 0 elsewhere. -/
theorem C52_value (x : List ℝ) : step realNumbers x = x.map fun a => if 0 < a then 1 else 0 := by
  refine List.map_congr_left fun a _ => ?_
  simp only [heaviside, select, realNumbers, decide_eq_true_eq]
  rcases lt_trichotomy a 0 with h | h | h
  · rw [if_pos h, if_neg (not_lt.2 h.le)]
  · subst h
    simp
  · rw [if_neg (not_lt.2 h.le), if_pos h]

/-- **C52**: under differentiation the value is the same and the tangent is zero, for every tangent of the argument. This holds for all numbers `N`, thus also for repeated differentiation (`N` itself of the form `N'.dual`). -/
theorem C52_derivative {α : Type} (N : Numbers α) (x : List (α × α)) :
    step N.dual x = (step N (x.map Prod.fst)).map fun a => (a, N.zero) := by
  simp only [step, List.map_map]
  refine List.map_congr_left fun a _ => ?_
  have h1 : N.dual.lt a N.dual.zero = N.lt a.1 N.zero := rfl
  have h2 : N.dual.lt N.dual.zero a = N.lt N.zero a.1 := rfl
  simp only [heaviside, Function.comp, h1, h2]
  generalize N.lt a.1 N.zero = p
  generalize N.lt N.zero a.1 = q
  cases p <;> cases q <;> rfl

/-- What differentiation reports is the derivative wherever the step function has one: everywhere but at zero. -/
theorem C52_true_derivative (a : ℝ) : (a ≠ 0 → HasDerivAt (fun t => (step realNumbers [t]).headD 0) 0 a) ∧
    (a = 0 → ¬ DifferentiableAt ℝ (fun t => (step realNumbers [t]).headD 0) a) := by
  have hfun : (fun t => (step realNumbers [t]).headD 0) = fun t : ℝ => if 0 < t then (1 : ℝ) else 0 := by
    funext t
    rw [C52_value]
    rfl
  rw [hfun]
  refine ⟨fun h => ?_, ?_⟩
  · rcases lt_or_gt_of_ne h with h | h
    · refine (hasDerivAt_const a (0 : ℝ)).congr_of_eventuallyEq ?_
      filter_upwards [Iio_mem_nhds h] with t ht
      exact if_neg (not_lt.2 (le_of_lt ht))
    · refine (hasDerivAt_const a (1 : ℝ)).congr_of_eventuallyEq ?_
      filter_upwards [Ioi_mem_nhds h] with t ht
      exact if_pos ht
  · rintro rfl hd
    have hc := hd.continuousAt
    rw [Metric.continuousAt_iff] at hc
    obtain ⟨δ, hδ, h⟩ := hc 1 one_pos
    have := h (x := δ / 2) (by rw [Real.dist_eq, sub_zero, abs_of_pos (by linarith)]; linarith)
    simp [hδ] at this

/-- The theorems at work: three entries, and a second derivative. -/
example : step realNumbers [-3, 0, 2] = [0, 0, 1] := by
  rw [C52_value]
  norm_num

example (t u v : ℝ) : step realNumbers.dual.dual [((2, t), (u, v))] = [((1, 0), (0, 0))] := by
  rw [C52_derivative, List.map_singleton, C52_derivative, List.map_singleton, C52_value]
  simp [realNumbers, Numbers.dual]

end Verif.Props
