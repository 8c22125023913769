import Verif.Model.OdeSystem
import Verif.Model.Segments

/-!
# Model of the example programs that search for one number in an outer loop

J is /repo/examples/Hunter_Johnston_Dissertation. G is J/Chapter_4/Example_4_6/convectionDiffusionGen.py, F is
J/Chapter_4/Example_4_6/convectionDiffusion_fsolve.py, T is J/Chapter_4/Example_4_7/UnknownTime_Gen.py, V is
J/Chapter_4/Example_4_7/UnknownTime_fsolve.py. The search itself (scipy's `differential_evolution` and `fsolve`) is not modelled: the model is the
function it is given. The values of the constants are arguments.
-/

namespace Verif.Model.Py

open Verif Verif.Py Verif.Np Verif.Model.LSq Verif.Model.Prog Verif.Model.Dict

/-- The expressions and the residual of T 52–67, V 52–67, for a given `c`. -/
noncomputable def unkFixedSys (xtfc utfc : Utfc) (x0 xf alfa beta c : ℝ) : PSys 2 0 where
  names := ![]
  funs := ![
    ⟨xtfc, "xi_x", 1, 0, [
      ⟨fun a => (last xtfc.z - a) / (last xtfc.z - first xtfc.z), 0, first xtfc.z, fun _ => x0⟩,
      ⟨fun a => (a - first xtfc.z) / (last xtfc.z - first xtfc.z), 0, last xtfc.z, fun _ => xf⟩]⟩,
    ⟨utfc, "xi_u", 1, 0, []⟩]
  eqs := [
    ⟨xtfc.z, 3, ![(0, 1), (0, 0), (1, 0)], here, 1, fun _ J _ _ => -c * J 0 - alfa * J 1 - beta * J 2⟩,
    ⟨xtfc.z, 3, ![(1, 1), (0, 0), (1, 0)], here, 1, fun _ J _ _ => -c * J 0 - beta * J 1 + alfa * J 2⟩]

/-- The same expressions with `H`, T 64, V 64, at all points. -/
noncomputable def unkHamSys (xtfc utfc : Utfc) (x0 xf alfa beta : ℝ) : PSys 2 0 where
  names := ![]
  funs := (unkFixedSys xtfc utfc x0 xf alfa beta 0).funs
  eqs := [⟨xtfc.z, 2, ![(0, 0), (1, 0)], here, 1, fun _ J _ _ => 0.5 * J 0 ^ 2 - 0.5 * J 1 ^ 2 - alfa / beta * J 0 * J 1⟩]

/-- A number as an argument of a residual: the `c` in T 67, 76, 83. -/
noncomputable def argNum (args : List (View String)) : ℝ :=
  match args with
  | .arr (c :: _) :: _ => c
  | _ => 0

/-- The objects and unknowns of T 38–76. -/
structure UnkObjects where
  xtfc : Utfc
  utfc : Utfc
  xi : View String
  nlls : NllsObj String

/-- T 38–76, V 38–76; there `N` is 35, `m` 30, `x0` 0, `xf` 1, `alfa` and `beta` 1, and `tol` the machine epsilon. -/
noncomputable def unkInnerInit (lib : LinAlg) (N m : ℕ) (x0 xf alfa beta tol : ℝ) (w b w' b' : ℕ → ℝ) : Except Err UnkObjects := do
  let xtfc ← utfcInit N (.int 2) m "CP" (some (-1)) (some 1) "C++" w b
  let utfc ← utfcInit N (.int 0) m "CP" (some (-1)) (some 1) "C++" w' b'
  let xi_x ← zerosOf xtfc xtfc.z 1
  let xi_u ← zerosOf utfc xtfc.z 1
  let xi : View String := .dict .plain [entry1 "xi_x" xi_x, entry1 "xi_u" xi_u]
  let nlls ← (NllsObj.init lib .pinv none none none tol 2 true
    (psysResidual fun args => unkFixedSys xtfc utfc x0 xf alfa beta (argNum args)) xi [.arr [1]] []).1
  return ⟨xtfc, utfc, xi, nlls⟩

/-- `InnerLoop(tf,z,xi)`, T 78–86, V 78–86: the loss, or `none` if the run has not ended after `fuel` evaluations of its condition. The entries of `xi`
are set to zero again before every run (T 79, 80), so every run starts from the unknowns of T 73; the dictionary bound in T 83 is local. -/
noncomputable def unkInnerLoop (o : UnkObjects) (x0 xf alfa beta tf : ℝ) (fuel : ℕ) : Except Err (Option ℝ × UnkObjects) := do
  let c := 2 / tf
  let (r, nlls) := o.nlls.run o.xi [.arr [c]] fuel
  match ← r with
  | none => return (none, { o with nlls := nlls })
  | some (xi, _) =>
    let h ← psysRes (unkHamSys o.xtfc o.utfc x0 xf alfa beta) xi
    let loss ← maxAbs h
    return (some loss, { o with nlls := nlls })

/-- The expressions and the residual of G 54–94, F 55–95, for a given `xp`; `xI = 0`, `xf = 1`, `yi = 1`, `yf = 0`. -/
noncomputable def splitSys (u : Utfc) (Pe xp : ℝ) : PSys 2 2 where
  names := !["y", "yd"]
  funs := ![
    ⟨u, "xi1", 1, 0, [
      ⟨fun a => (1 - 2 * a + a ^ 2) / 4, 0, first u.z, fun _ => 1⟩,
      ⟨fun a => (3 + 2 * a - a ^ 2) / 4, 0, last u.z, fun s => s 0⟩,
      ⟨fun a => (-1 + a ^ 2) / 2, 1, last u.z, fun s => s 1 / segC1 xp⟩]⟩,
    ⟨u, "xi2", 1, 0, [
      ⟨fun a => (3 - 2 * a - a ^ 2) / 4, 0, first u.z, fun s => s 0⟩,
      ⟨fun a => (1 - a ^ 2) / 2, 1, first u.z, fun s => s 1 / segC2 xp⟩,
      ⟨fun a => (1 + 2 * a + a ^ 2) / 4, 0, last u.z, fun _ => 0⟩]⟩]
  eqs := [
    ⟨u.z, 2, ![(0, 2), (0, 1)], here, 1, fun _ J _ _ => J 0 * segC1 xp ^ 2 - Pe * (J 1 * segC1 xp)⟩,
    ⟨u.z, 2, ![(1, 2), (1, 1)], here, 1, fun _ J _ _ => J 0 * segC2 xp ^ 2 - Pe * (J 1 * segC2 xp)⟩]

/-- The objects of G 44, 106–112, F 45, 107–113: the constraint object and the unknowns, all zero. -/
noncomputable def splitInit (N m : ℕ) (w b : ℕ → ℝ) : Except Err (Utfc × View String) := do
  let u ← utfcInit N (.int 3) m "CP" (some (-1)) (some 1) "C++" w b
  let xi1 ← zerosOf u u.z 1
  let xi2 ← zerosOf u u.z 1
  return (u, .dict .plain [entry1 "xi1" xi1, entry1 "xi2" xi2, entry1 "y" [0], entry1 "yd" [0]])

/-- One call of `nlls(val)` with `val['xp'] = xp`, G 115–130, 164, 165, F 116–131, 171, 172. The functions `cond` and `body` written out there are those
of `NLLS` with the method `pinv` and 30 steps, TFCUtils.py 1186–1195, 1217–1226, so the model uses `solveSys`. The dictionary `val` keeps its first
unknowns: `val` in G 142–154 is local. -/
noncomputable def splitRun (lib : LinAlg) (u : Utfc) (xi : View String) (Pe tol xp : ℝ) (fuel : ℕ) : Except Err (Option (View String × ℤ)) :=
  solveSys lib .pinv tol 30 false (splitSys u Pe xp) xi fuel

/-- `fMin(xp)`, G 135–158, F 136–163 after the first two lines: the largest residual after the run. -/
noncomputable def splitLoss (lib : LinAlg) (u : Utfc) (xi : View String) (Pe tol xp : ℝ) (fuel : ℕ) : Except Err (Option ℝ) := do
  match ← splitRun lib u xi Pe tol xp fuel with
  | none => return none
  | some (v, _) =>
    let l ← psysRes (splitSys u Pe xp) v
    let m ← maxAbs l
    return some m

/-- F 139, 140 and 168, 169; there `xpBound` is 0.999. -/
noncomputable def splitClip (xpBound xp : ℝ) : ℝ := if xp > xpBound then xpBound else xp

end Verif.Model.Py
