import Verif.Model.Sets
import Verif.Py
import Mathlib.Analysis.SpecialFunctions.Trigonometric.Inverse
import Mathlib.Algebra.Order.Round

/-!
# Model of B/Chapter_1/example_1_23.py: paths of unit quaternions

One column of the arrays; a one-dimensional array is one column (lines 18–24, 42–43, 47–53, 60–61).
-/

namespace Verif.Model.Prog

open Verif.Py

/-- A column `q[:,k]` of an array with four rows. example_1_23.py 26–41. -/
structure Quat where
  q0 : ℝ
  q1 : ℝ
  q2 : ℝ
  q3 : ℝ

/-- `np.linalg.norm(q[:,k])`, example_1_23.py 27. -/
noncomputable def Quat.norm (q : Quat) : ℝ := Real.sqrt (q.q0 ^ 2 + q.q1 ^ 2 + q.q2 ^ 2 + q.q3 ^ 2)

/-- `np.round(x, 15)`, example_1_23.py 28. numpy rounds halves to even, `round` rounds them up. -/
noncomputable def round15 (x : ℝ) : ℝ := round (x * 10 ^ 15) / 10 ^ 15

/-- `uvw[1,k]`, example_1_23.py 31–34. -/
noncomputable def q2v (q : Quat) : ℝ :=
  if q.q1 = 0 ∧ q.q2 = 0 ∧ q.q3 = 0 then 0 else Real.arccos (q.q1 / Real.sqrt (q.q1 ^ 2 + q.q2 ^ 2 + q.q3 ^ 2))

/-- `uvw[2,k]`, example_1_23.py 35–41. -/
noncomputable def q2w (q : Quat) : ℝ :=
  if q.q2 = 0 ∧ q.q3 = 0 then 0
  else if q.q3 ≥ 0 then Real.arccos (q.q2 / Real.sqrt (q.q2 ^ 2 + q.q3 ^ 2))
  else 2 * Real.pi - Real.arccos (q.q2 / Real.sqrt (q.q2 ^ 2 + q.q3 ^ 2))

/-- `q2u`, example_1_23.py 17–44; `TFCPrint.Error` ends the program. -/
noncomputable def q2u (q : Quat) : Except Err (ℝ × ℝ × ℝ) :=
  if round15 q.norm ≠ 1 then .error .exit else .ok (Real.arccos q.q0, q2v q, q2w q)

/-- `u2q`, example_1_23.py 46–62. -/
noncomputable def u2q (u v w : ℝ) : Quat :=
  ⟨Real.cos u, Real.sin u * Real.cos v, Real.sin u * Real.sin v * Real.cos w, Real.sin u * Real.sin v * Real.sin w⟩

/-- `qi`, example_1_23.py 13. -/
noncomputable def quatI : Quat := ⟨Real.cos (Real.pi / 3), 0, Real.sin (Real.pi / 3), 0⟩

/-- `qf`, example_1_23.py 14. -/
noncomputable def quatF : Quat := ⟨1, 0, 0, 0⟩

/-- `uhat` and `vhat`, example_1_23.py 81–86, from `a` to `b`. -/
noncomputable def quatHat (g : ℝ → ℝ) (a b t : ℝ) : ℝ := g t + (2 - t) / 2 * (a - g 0) + t / 2 * (b - g 2)

/-- `u` and `v`, example_1_23.py 87–92. -/
noncomputable def quatClamp (g : ℝ → ℝ) (a b t : ℝ) : ℝ :=
  quatHat g a b t + (Real.pi - quatHat g a b t) * step (quatHat g a b t - Real.pi) - quatHat g a b t * step (-quatHat g a b t)

/-- `np.mod(x, y)` at one entry, example_1_23.py 93–95. -/
noncomputable def npMod (x y : ℝ) : ℝ := x - y * ⌊x / y⌋

/-- `w`, example_1_23.py 93–95. -/
noncomputable def quatW (g : ℝ → ℝ) (a b t : ℝ) : ℝ :=
  npMod (g t) (2 * Real.pi) + (2 - t) / 2 * (a - npMod (g 0) (2 * Real.pi)) + t / 2 * (b - npMod (g 2) (2 * Real.pi))

/-- The column of `q` at the time `t`, example_1_23.py 65–73, 116–117, for the quaternions `qi`, `qf` at the ends. -/
noncomputable def quatPath (qi qf : Quat) (gu gv gw : ℝ → ℝ) (t : ℝ) : Except Err Quat := do
  let i ← q2u qi
  let f ← q2u qf
  return u2q (quatClamp gu i.1 f.1 t) (quatClamp gv i.2.1 f.2.1 t) (quatW gw i.2.2 f.2.2 t)

end Verif.Model.Prog
