import Verif.Model.Programs
import Mathlib.Analysis.SpecialFunctions.Pow.Real
import Mathlib.Algebra.Order.Floor.Ring

/-!
# Model of the example programs with inequality constraints and with discrete sets of values

As in Model/Programs, `h d t` is `np.dot(H(t, d=d), xi)`; all operations of these programs work entry by entry, so the model gives one
entry. B is /repo/examples/TfcBook, D is /repo/examples/Carl_Leake_Dissertation, J is
/repo/examples/Hunter_Johnston_Dissertation.
-/

namespace Verif.Model.Prog

/-- `u` as a function of `g(x,xi)`, `ub(x)`, `lb(x)`: D/Appendices/Appendix_C.py 27 and 68 (the same file as B/Chapter_1/example_1_16.py);
`y` of J/Chapter_2/Example_2_9/Figure_2_1.py 35–37 and Figure_2_2.py 53–55. -/
noncomputable def clamp (lb ub g : ℝ) : ℝ := g + (ub - g) * step (g - ub) + (lb - g) * step (lb - g)

/-- `ub`, D/Appendices/Appendix_C.py 16. -/
noncomputable def ubC (x : ℝ) : ℝ := x / 30 * Real.sin (2 * x) + 0.2

/-- `lb`, D/Appendices/Appendix_C.py 17. -/
noncomputable def lbC (x : ℝ) : ℝ := x ^ 2 / Real.exp x * Real.cos x - 0.3

/-- `fu` of J/Chapter_2/Example_2_9/Figure_2_1.py 23 and Figure_2_2.py 28. -/
noncomputable def fu (h : ℕ → ℝ → ℝ) (x : ℝ) : ℝ := h 0 x + 5

/-- `fl` of J/Chapter_2/Example_2_9/Figure_2_1.py 24 and Figure_2_2.py 29. -/
noncomputable def fl (h : ℕ → ℝ → ℝ) (x : ℝ) : ℝ := h 0 x - 5

/-- `np.int64(x)` at one entry: truncation towards zero. B/Chapter_1/example_1_19.py 27, example_1_20.py 26. -/
noncomputable def int64 (x : ℝ) : ℤ := if 0 ≤ x then ⌊x⌋ else ⌈x⌉

/-- `uslow` of B/Chapter_1/example_1_18.py 24–25 (D/Appendices/Appendix_B/Example_B_1.py). -/
noncomputable def twoValues (h : ℕ → ℝ → ℝ) (n x : ℝ) : ℝ := h 0 x + (-1 : ℝ) ^ step n * Real.sqrt 3 - h 0 0

/-- `K[np.int64(n%3)]` with `K = np.array([1.,2.,3.])`, B/Chapter_1/example_1_19.py 25–27 (Example_B_2.py): `n%3` is
`n - 3*floor(n/3)`. An index outside the array gives 0 here; JAX would take another entry. -/
noncomputable def tableValue (n : ℝ) : ℝ :=
  let k := int64 (n - 3 * ⌊n / 3⌋)
  if 0 ≤ k then ([1, 2, 3] : List ℝ).getD k.toNat 0 else 0

/-- `uslow` of B/Chapter_1/example_1_19.py 26–27 (Example_B_2.py). -/
noncomputable def threeValues (h : ℕ → ℝ → ℝ) (n x : ℝ) : ℝ := h 0 x + tableValue n - h 0 0

/-- `uslow` of B/Chapter_1/example_1_20.py 25–26 (Example_B_3.py). -/
noncomputable def multiples (h : ℕ → ℝ → ℝ) (n x : ℝ) : ℝ := h 0 x + (int64 n : ℝ) * Real.pi - h 0 1

/-- `xslow` of D/Appendices/Appendix_B/Example_B_5.py 35–37, with `aEll = 1`, `aHyp = 0.1` (11–17). -/
noncomputable def conicX (h : ℕ → ℝ → ℝ) (phi th v psi t : ℝ) : ℝ :=
  h 0 t + (3 - t) / 3 * (1 * Real.sin phi * Real.cos th - h 0 0) + t / 3 * (3 + 0.1 * Real.sinh v * Real.cos psi - h 0 3)

/-- `yslow` of D/Appendices/Appendix_B/Example_B_5.py 38–40, with `bEll = 0.75`, `bHyp = 0.1`. -/
noncomputable def conicY (h : ℕ → ℝ → ℝ) (phi th v psi t : ℝ) : ℝ :=
  h 0 t + (3 - t) / 3 * (0.75 * Real.sin phi * Real.sin th - h 0 0) + t / 3 * (0.1 * Real.sinh v * Real.sin psi - h 0 3)

/-- `zslow` of D/Appendices/Appendix_B/Example_B_5.py 41–43, with `cEll = 2`, `cHyp = 0.3`. -/
noncomputable def conicZ (h : ℕ → ℝ → ℝ) (phi v n t : ℝ) : ℝ :=
  h 0 t + (3 - t) / 3 * (2 * Real.cos phi - h 0 0) + t / 3 * ((-1 : ℝ) ^ step n * 0.3 * Real.cosh v - h 0 3)

/-! ## A path around a box: B/Chapter_1/Problem_6.py -/

/-- `xhat` and `yhat`, Problem_6.py 43–50: from `a` (`initial`) to `b` (`final`). -/
noncomputable def boxHat (h : ℕ → ℝ → ℝ) (pts : List ℝ) (a b t : ℝ) : ℝ :=
  h 0 t + (last pts - t) / (last pts - first pts) * (a - h 0 (first pts)) +
    (t - first pts) / (last pts - first pts) * (b - h 0 (last pts))

/-- `Phi1`, Problem_6.py 53; a bound is the pair `(bound[0], bound[1])`. -/
noncomputable def Phi1 (ghat : ℝ) (bound : ℝ × ℝ) : ℝ := step (bound.2 - ghat)

/-- `Phi2`, Problem_6.py 54. -/
noncomputable def Phi2 (ghat : ℝ) (bound : ℝ × ℝ) : ℝ := step (ghat - bound.1)

/-- `Phi3`, Problem_6.py 55. -/
noncomputable def Phi3 (ghat : ℝ) (bound : ℝ × ℝ) : ℝ := step ((bound.2 + bound.1) / 2 - ghat)

/-- `x` as a function of `xhat` and `yhat`, Problem_6.py 58–62. -/
noncomputable def boxX (xbound ybound : ℝ × ℝ) (xhat yhat : ℝ) : ℝ :=
  xhat + (xbound.1 - xhat) * (Phi1 yhat ybound * Phi2 yhat ybound * Phi3 xhat xbound * Phi2 xhat xbound)
    + (xbound.2 - xhat) * (Phi1 yhat ybound * Phi2 yhat ybound * Phi3 (-xhat) (-xbound.1, -xbound.2) * Phi1 xhat xbound)

/-- `y` as a function of `xhat` and `yhat`, Problem_6.py 64–68. -/
noncomputable def boxY (xbound ybound : ℝ × ℝ) (xhat yhat : ℝ) : ℝ :=
  yhat + (ybound.1 - yhat) * (Phi1 xhat xbound * Phi2 xhat xbound * Phi3 yhat ybound * Phi2 yhat ybound)
    + (ybound.2 - yhat) * (Phi1 xhat xbound * Phi2 xhat xbound * Phi3 (-yhat) (-ybound.1, -ybound.2) * Phi1 yhat ybound)

end Verif.Model.Prog
