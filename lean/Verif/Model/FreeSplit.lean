import Verif.Model.OdeSystem
import Verif.Model.Segments

/-!
# Model of the example programs where the point of the split is an unknown of the solver

J is /repo/examples/Hunter_Johnston_Dissertation, D is /repo/examples/Carl_Leake_Dissertation. A is D/Appendices/Appendix_D.py (the same file as
B/Chapter_3/section_3_5_4.py), N is J/Chapter_4/Example_4_6/convectionDiffusionNLS.py. The comparison with the exact solution at the test points
(A 110–118, N 112–123) is not part of the model.
-/

namespace Verif.Model.Py

open Verif Verif.Py Verif.Np Verif.Model.LSq Verif.Model.Prog Verif.Model.Dict

/-- The expressions and the residual of A 85–99, 104–106 and N 64–96: `p0` and `pf` are the points of the conditions, `key` is the name of the unknown
the point of the split is computed from, and `xpOf` computes it. The numbers are `y`, `yd` and that unknown. -/
noncomputable def freeSplitSys (u : Utfc) (p0 pf : ℝ) (key : String) (xpOf : ℝ → ℝ) (Pe : ℝ) : PSys 2 3 where
  names := !["y", "yd", key]
  funs := ![
    ⟨u, "xi1", 1, 0, [
      ⟨fun a => (1 - 2 * a + a ^ 2) / 4, 0, p0, fun _ => 1⟩,
      ⟨fun a => (3 + 2 * a - a ^ 2) / 4, 0, pf, fun s => s 0⟩,
      ⟨fun a => (-1 + a ^ 2) / 2, 1, pf, fun s => s 1 / segC1 (xpOf (s 2))⟩]⟩,
    ⟨u, "xi2", 1, 0, [
      ⟨fun a => (3 - 2 * a - a ^ 2) / 4, 0, p0, fun s => s 0⟩,
      ⟨fun a => (1 - a ^ 2) / 2, 1, p0, fun s => s 1 / segC2 (xpOf (s 2))⟩,
      ⟨fun a => (1 + 2 * a + a ^ 2) / 4, 0, pf, fun _ => 0⟩]⟩]
  eqs := [
    ⟨u.z, 2, ![(0, 2), (0, 1)], here, 1, fun _ J s _ => J 0 * segC1 (xpOf (s 2)) ^ 2 - Pe * (J 1 * segC1 (xpOf (s 2)))⟩,
    ⟨u.z, 2, ![(1, 2), (1, 1)], here, 1, fun _ J s _ => J 0 * segC2 (xpOf (s 2)) ^ 2 - Pe * (J 1 * segC2 (xpOf (s 2)))⟩]

/-- A 64, 102: the constraint object and the unknowns; there `N` is 200 and `m` 190. -/
noncomputable def appDInit (N m : ℕ) (w b : ℕ → ℝ) : Except Err (Utfc × View String) := do
  let u ← utfcInit N (.int 3) m "LeP" (some (-1)) (some 1) "C++" w b
  let xi1 ← zerosOf u u.z 1
  let xi2 ← zerosOf u u.z 1
  return (u, .dict .plain [entry1 "xi1" xi1, entry1 "xi2" xi2, entry1 "xpHat" [0.99], entry1 "y" [0], entry1 "yd" [0]])

/-- `CalculateSolutionSplit(Pe)`, A 51–108: `NLLS(xi,L)` with the default method, tolerance and number of steps, TFCUtils.py 1086–1102. -/
noncomputable def appDRun (lib : LinAlg) (N m : ℕ) (Pe : ℝ) (w b : ℕ → ℝ) (fuel : ℕ) : Except Err (Option (View String × ℤ)) := do
  let (u, xi) ← appDInit N m w b
  solveSys lib .pinv 1e-13 50 false (freeSplitSys u (-1) 1 "xpHat" (splitXp Pe) Pe) xi fuel

/-- N 41, 100–106: the constraint object and the unknowns; there `N` is 200 and `m` 190. -/
noncomputable def nlsInit (N m : ℕ) (w b : ℕ → ℝ) : Except Err (Utfc × View String) := do
  let u ← utfcInit N (.int 3) m "CP" (some (-1)) (some 1) "C++" w b
  let xi1 ← zerosOf u u.z 1
  let xi2 ← zerosOf u u.z 1
  return (u, .dict .plain [entry1 "xi1" xi1, entry1 "xi2" xi2, entry1 "y" [0], entry1 "yd" [0], entry1 "b" [1 * Real.sqrt (2 / 0.5)]])

/-- N 27–109: `NLLS(xi,L,timer=True)` with the default method, tolerance and number of steps; there `Pe` is 10⁶. -/
noncomputable def nlsRun (lib : LinAlg) (N m : ℕ) (Pe : ℝ) (w b : ℕ → ℝ) (fuel : ℕ) : Except Err (Option (View String × ℤ)) := do
  let (u, xi) ← nlsInit N m w b
  solveSys lib .pinv 1e-13 50 true (freeSplitSys u (first u.z) (last u.z) "b" nlsXp Pe) xi fuel

end Verif.Model.Py
