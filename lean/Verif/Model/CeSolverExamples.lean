import Verif.Model.CeSolver
import Mathlib.Topology.ContinuousMap.Algebra
import Mathlib.Analysis.SpecialFunctions.Trigonometric.Basic
import Mathlib.MeasureTheory.Integral.DominatedConvergence

/-!
# Programs with several `CeSolver` objects

/repo/tests/test_ce_solver.py 30–57 and two cells of /repo/docs/notebooks/CeSolver.ipynb, lines 343–395 and 423–438 of the file.
An expression in `x` and `y` is a continuous function of two real numbers; the undefined functions of the programs are arbitrary ones.
Printing is left out.
-/

namespace Verif.Model.CeSolver

open Verif.Py Verif.Np

/-- The expressions in `x` and `y`. tests/test_ce_solver.py 5–9, `docs/notebooks/CeSolver.ipynb` 343–352. -/
abbrev Ex := C(ℝ × ℝ, ℝ)

/-- The symbol `x`. tests/test_ce_solver.py 5. -/
noncomputable def symX : Ex := ⟨fun p => p.1, by fun_prop⟩

/-- The symbol `y`. tests/test_ce_solver.py 6. -/
noncomputable def symY : Ex := ⟨fun p => p.2, by fun_prop⟩

/-- `sp.re(c)` for a real number. Used at tests/test_ce_solver.py 36. -/
noncomputable def num (c : ℝ) : Ex := ⟨fun _ => c, by fun_prop⟩

/-- `f.subs(x, a)`. Used at tests/test_ce_solver.py 35. -/
noncomputable def subsX (a : ℝ) (f : Ex) : Ex := ⟨fun p => f (a, p.2), by fun_prop⟩

/-- `f.subs(y, a)`. Used at tests/test_ce_solver.py 43. -/
noncomputable def subsY (a : ℝ) (f : Ex) : Ex := ⟨fun p => f (p.1, a), by fun_prop⟩

/-- `sp.integrate(f, (y, a, b))`. Used at `docs/notebooks/CeSolver.ipynb` 355. -/
noncomputable def integrateY (a b : ℝ) (f : Ex) : Ex :=
  ⟨fun p => ∫ y in a..b, f (p.1, y), intervalIntegral.continuous_parametric_intervalIntegral_of_continuous'
    (f := fun (p : ℝ × ℝ) y => f (p.1, y)) (by fun_prop) a b⟩

/-- `test_multivariate`, tests/test_ce_solver.py 30–57: the four asserted values and `ce_full`. -/
noncomputable def testMultivariate {F : Type} [DecidableEq F] (inv : Mat Ex → Except Err (Mat Ex)) (simplify : Ex → F) (g u1 : Ex) :
    Except Err (List Bool × Ex) := do
  let Cx := [subsX 0, subsX 1]
  let Kx := [num 0, ⟨fun p => Real.cos p.2, by fun_prop⟩]
  let sx := [num 1, symX]
  let csx := init Cx Kx sx g
  let r := readCe inv csx
  let cex ← r.1
  let a1 := checkCe inv simplify r.2
  let b1 ← a1.1
  let Cy := [fun u => subsY 0 u - subsY (2 * Real.pi) u]
  let Ky := [num 0]
  let sy := [symY]
  let csy := init Cy Ky sy u1
  let a2 := checkCe inv simplify csy
  let b2 ← a2.1
  let f := readCe inv (setG a2.2 cex)
  let ceFull ← f.1
  let b3 ← (checkCe inv simplify (setCe a1.2 ceFull)).1
  let b4 ← (checkCe inv simplify f.2).1
  return ([b1, b2, b3, b4], ceFull)

/-- The last two cells of code of `docs/notebooks/CeSolver.ipynb`, lines 343–388 and 423–438: what the four calls of `checkCe` return, `cs_u_full`
and `cs_v_full`. The free functions of `cs_uy`, `cs_vy` and the `u` in `Kvy` are other unknown functions. -/
noncomputable def exampleTwoNine {F : Type} [DecidableEq F] (inv : Mat Ex → Except Err (Mat Ex)) (simplify : Ex → F) (gu gv u v1 : Ex) :
    Except Err (List Bool × Ex × Ex) := do
  let csUx := init [subsX 0, fun u => integrateY (-1) 2 (subsX 1 u)] [⟨fun p => Real.cos (Real.pi * p.2), by fun_prop⟩, num (Real.exp 1)]
    [num 1, symX] gu
  let ux := readCe inv csUx
  let csUxCe ← ux.1
  let suy : Ex := ⟨fun p => (1 - 2 * p.2) / 2, by fun_prop⟩
  let csUy := setPhi (init [fun u => subsY 1 u - subsY 2 u] [num (-2)] [suy] gu) ⟨1, 1, fun _ _ => suy⟩
  let uy := readCe inv csUy
  let _ ← uy.1
  let csVx := init [subsX 0] [⟨fun p => 5 - Real.cos (Real.pi * p.2), by fun_prop⟩] [num 1] gv
  let vx := readCe inv csVx
  let csVxCe ← vx.1
  let csVy := init [subsY 0] [num 5 - subsY 0 u] [num 1] v1
  let vy := readCe inv csVy
  let _ ← vy.1
  let uf := readCe inv (setG uy.2 csUxCe)
  let csUFull ← uf.1
  let vf := readCe inv (setG (setKappa vy.2 [num 5 - subsY 0 csUFull]) csVxCe)
  let csVFull ← vf.1
  let b1 ← (checkCe inv simplify (setCe ux.2 csUFull)).1
  let b2 ← (checkCe inv simplify (setCe uf.2 csUFull)).1
  let b3 ← (checkCe inv simplify (setCe vx.2 csVFull)).1
  let b4 ← (checkCe inv simplify (setCe vf.2 csVFull)).1
  return ([b1, b2, b3, b4], csUFull, csVFull)

end Verif.Model.CeSolver
