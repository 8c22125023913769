import Verif.Model.OdeSystem

/-!
# Model of the programs for the landing with least energy

The unknowns are a `TFCDictRobust` with the coefficients of the position (`'xis'`, one column for each component), of the costate (`'xic'`, likewise)
and, in the first two programs, the number `b` that stands for the time. The data are in the dictionary `IC`, an argument of the residual. S is
/repo/examples/Hunter_Johnston_Dissertation/Chapter_6/Example_6_1/singleLoop/singleTFC_EOL.py, O is
/repo/examples/Hunter_Johnston_Dissertation/Chapter_6/Example_6_1/outerLoop/outTFC_EOL.py, Q is /repo/examples/TfcBook/Chapter_3/Problem_6.py, the same as S
without `Gam` (modelled as `Gam = 0`). The times measured, the plots, the cost by Simpson's rule and `fsolve` (O 140) are left out.
-/

namespace Verif.Model.Py

open Verif.Py Verif.Np Verif.Model.LSq Verif.Model.Prog Verif.Model.Dict

/-- `phi1`, S 59–60, O 60–61, Q 52–53. -/
noncomputable def landPhi1 (z0 zf a : ℝ) : ℝ :=
  1 / (zf - z0) ^ 3 * (-zf ^ 2 * (3 * z0 - zf) + 6 * z0 * zf * a - 3 * (z0 + zf) * a ^ 2 + 2 * a ^ 3)

/-- `phi2`, S 61–62, O 62–63, Q 54–55. -/
noncomputable def landPhi2 (z0 zf a : ℝ) : ℝ :=
  1 / (zf - z0) ^ 3 * (-z0 ^ 2 * (z0 - 3 * zf) - 6 * z0 * zf * a + 3 * (z0 + zf) * a ^ 2 - 2 * a ^ 3)

/-- `phi3`, S 63–64, O 64–65, Q 56–57. -/
noncomputable def landPhi3 (z0 zf a : ℝ) : ℝ := 1 / (zf - z0) ^ 2 * (-z0 * zf ^ 2 + zf * (2 * z0 + zf) * a - (z0 + 2 * zf) * a ^ 2 + a ^ 3)

/-- `phi4`, S 65–66, O 66–67, Q 58–59. -/
noncomputable def landPhi4 (z0 zf a : ℝ) : ℝ := 1 / (zf - z0) ^ 2 * (-z0 ^ 2 * zf + z0 * (z0 + 2 * zf) * a - (2 * z0 + zf) * a ^ 2 + a ^ 3)

/-- Component `i` of the position among the six unknown functions. S 70. -/
def posIx (i : Fin 3) : Fin 6 := ⟨i, by omega⟩

/-- Component `i` of the costate. S 80. -/
def lamIx (i : Fin 3) : Fin 6 := ⟨3 + i, by omega⟩

/-- `r` and `lam`, S 70–80, O 71–81, Q 63–73: component by component; `V0 i` is the slope at the beginning, which may contain the unknown number. -/
noncomputable def landFuns {m : ℕ} (stfc ctfc : Utfc) (R0 : Fin 3 → ℝ) (V0 : Fin 3 → (Fin m → ℝ) → ℝ) (q : Fin 6) : PFun m :=
  if h : q.val < 3 then
    ⟨stfc, "xis", 3, q, [
      ⟨landPhi1 (first stfc.z) (last stfc.z), 0, first stfc.z, fun _ => R0 ⟨q, h⟩⟩,
      ⟨landPhi2 (first stfc.z) (last stfc.z), 0, last stfc.z, fun _ => 0⟩,
      ⟨landPhi3 (first stfc.z) (last stfc.z), 1, first stfc.z, V0 ⟨q, h⟩⟩,
      ⟨landPhi4 (first stfc.z) (last stfc.z), 1, last stfc.z, fun _ => 0⟩]⟩
  else ⟨ctfc, "xic", 3, q - 3, []⟩

/-- What enters the equation of motion: `a` for the position, `lam` itself for the costate. S 84, O 85, Q 77. -/
def landTerms (q : Fin 6) : Fin 6 × ℕ := if q.val < 3 then (q, 2) else (q, 0)

/-- `Htf` for a given costate at the end, S 85, O 86, Q 78. -/
noncomputable def landHtf (ag : Fin 3 → ℝ) (Gam : ℝ) (l : Fin 3 → ℝ) : ℝ := (∑ i, l i * (-1 / 2 * l i + ag i)) + Gam

/-- `L` of S 84–86, Q 77–79. -/
noncomputable def landSys (stfc ctfc : Utfc) (R0 V0 ag : Fin 3 → ℝ) (Gam : ℝ) : PSys 6 1 where
  names := !["b"]
  funs := landFuns stfc ctfc R0 fun i s => V0 i / s 0 ^ 2
  eqs := [
    ⟨stfc.z, 6, landTerms, here, 3, fun _ J s i => s 0 ^ 4 * J (posIx i) - ag i + J (lamIx i)⟩,
    ⟨[last stfc.z], 3, fun i => (lamIx i, 0), here, 1, fun _ J _ _ => landHtf ag Gam J⟩]

/-- `L` of O 85, 87. -/
noncomputable def landInnerSys (stfc ctfc : Utfc) (R0 V0 ag : Fin 3 → ℝ) (c : ℝ) : PSys 6 0 where
  names := ![]
  funs := landFuns stfc ctfc R0 fun i _ => V0 i / c
  eqs := [⟨stfc.z, 6, landTerms, here, 3, fun _ J _ i => c ^ 2 * J (posIx i) - ag i + J (lamIx i)⟩]

/-- `IC['key']` as a vector, where `IC` is the first argument after the unknowns. S 71–85. -/
noncomputable def icVec (args : List (View String)) (k : String) (i : Fin 3) : ℝ := (orEmpty (lookUp (args.headD (.arr [])) k)).getD i 0

/-- `IC['key']` as a number, S 85, O 74. -/
noncomputable def icNum (args : List (View String)) (k : String) : ℝ := (orEmpty (lookUp (args.headD (.arr [])) k)).getD 0 0

/-- An entry of `IC` with three components, S 114–116. -/
noncomputable def icEntry (k : String) (v : Fin 3 → ℝ) : String × Arr ℝ := entry1 k (List.ofFn v)

/-- `IC` of S 114–117. A python dictionary is modelled like a `TFCDict`: only its values are used. -/
noncomputable def landIC (R0 V0 ag : Fin 3 → ℝ) (Gam : ℝ) : View String :=
  .dict .plain [icEntry "R0" R0, icEntry "V0" V0, icEntry "ag" ag, entry1 "Gam" [Gam]]

/-- `IC` of O 118–121, 128. -/
noncomputable def landInnerIC (R0 V0 ag : Fin 3 → ℝ) (Gam c : ℝ) : View String :=
  .dict .plain [icEntry "R0" R0, icEntry "V0" V0, icEntry "ag" ag, entry1 "Gam" [Gam], entry1 "c" [c]]

/-- The system for the values in `IC`, S 84–86. -/
noncomputable def landSysIC (stfc ctfc : Utfc) (args : List (View String)) : PSys 6 1 :=
  landSys stfc ctfc (icVec args "R0") (icVec args "V0") (icVec args "ag") (icNum args "Gam")

/-- The system for the values in `IC`, O 85–87. -/
noncomputable def landInnerSysIC (stfc ctfc : Utfc) (args : List (View String)) : PSys 6 0 :=
  landInnerSys stfc ctfc (icVec args "R0") (icVec args "V0") (icVec args "ag") (icNum args "c")

/-- An array with three columns, S 89–90. -/
def entry3 (k : String) (l : List ℝ) : String × Arr ℝ := (k, ⟨[l.length / 3, 3], l⟩)

/-- `np.max(np.abs(v))`, S 111, 112, O 115, 116, Q 99, 100. -/
noncomputable def maxAbs3 (v : Fin 3 → ℝ) : ℝ := max (max |v 0| |v 1|) |v 2|

/-- S 34–119 up to the scaling, with the scaled data; there `N` is 100, `ms` 30, `b` `sqrt(2)` or `sqrt(10)`, `tol` the machine epsilon and
`maxIter` 50. -/
noncomputable def runLandingScaled (lib : LinAlg) (N ms : ℕ) (tol : ℝ) (maxIter : ℕ) (b : ℝ) (R0 V0 ag : Fin 3 → ℝ) (Gam : ℝ)
    (wt bt wt' bt' : ℕ → ℝ) (fuel : ℕ) : Except Err (Option (View String × ℤ)) := do
  let stfc ← utfcInit N (.int 4) ms "CP" (some (-1)) (some 1) "C++" wt bt
  let ctfc ← utfcInit N (.int 0) 1 "CP" (some (-1)) (some 1) "C++" wt' bt'
  let xis ← zerosOf stfc stfc.z 3
  let xic ← zerosOf ctfc stfc.z 3
  let xi : View String := .dict .robust [entry3 "xis" xis, entry3 "xic" xic, entry1 "b" [b * 1]]
  let nlls ← (NllsObj.init lib .pinv none none none tol maxIter true (psysResidual (landSysIC stfc ctfc)) xi [landIC (fun _ => 0) (fun _ => 0) (fun _ => 0) 0] []).1
  (nlls.run xi [landIC R0 V0 ag Gam] fuel).1

/-- S 34–119, Q 27–106, with the scaling of S 111–117, Q 99–104; there `ag` is `[0,0,-5.314961]` (S), `[0,0,-1.62]` (Q). -/
noncomputable def runLanding (lib : LinAlg) (N ms : ℕ) (tol : ℝ) (maxIter : ℕ) (b : ℝ) (R0 V0 ag : Fin 3 → ℝ) (Gam : ℝ)
    (wt bt wt' bt' : ℕ → ℝ) (fuel : ℕ) : Except Err (Option (View String × ℤ)) :=
  let pscale := maxAbs3 R0
  let tscale := pscale / maxAbs3 V0
  runLandingScaled lib N ms tol maxIter b (fun i => R0 i / pscale) (fun i => V0 i * tscale / pscale) (fun i => ag i * tscale ^ 2 / pscale)
    (Gam * tscale ^ 4 / pscale ^ 2) wt bt wt' bt' fuel

/-- The objects and unknowns of O 39–100. -/
structure LandObjects where
  stfc : Utfc
  ctfc : Utfc
  xi : View String
  nlls : NllsObj String

/-- O 39–109; there `N` is 100 and `ms` 30. `NllsClass` has its default tolerance `1e-13`. -/
noncomputable def landInnerInit (lib : LinAlg) (N ms : ℕ) (wt bt wt' bt' : ℕ → ℝ) : Except Err LandObjects := do
  let stfc ← utfcInit N (.int 4) ms "CP" (some (-1)) (some 1) "C++" wt bt
  let ctfc ← utfcInit N (.int 0) 1 "CP" (some (-1)) (some 1) "C++" wt' bt'
  let xis ← zerosOf stfc stfc.z 3
  let xic ← zerosOf ctfc stfc.z 3
  let xi : View String := .dict .robust [entry3 "xis" xis, entry3 "xic" xic]
  let nlls ← (NllsObj.init lib .pinv none none none 1e-13 2 true (psysResidual (landInnerSysIC stfc ctfc)) xi
    [landInnerIC (fun _ => 0) (fun _ => 0) (fun _ => 0) 0 2] []).1
  return ⟨stfc, ctfc, xi, nlls⟩

/-- `Htf(xi,IC)` at the end of the costate, O 86. -/
noncomputable def landHtfOf (ctfc : Utfc) (zf : ℝ) (args : List (View String)) (v : View String) : Except Err ℝ := do
  let xic ← lookUp v "xic"
  let l ← (List.finRange 3).mapM fun i : Fin 3 => curveD ctfc [] (column 3 i xic) 0 1 fun _ => zf
  return landHtf (icVec args "ag") (icNum args "Gam") fun i => (l.getD i fun _ => 0) 0

/-- `Innerloop(tf,xi,IC)`, O 125–134; `none` if the run has not ended after `fuel` evaluations of its condition. The start `xi` is the same in every call:
the name bound in 131 is local. -/
noncomputable def landInnerloop (o : LandObjects) (R0 V0 ag : Fin 3 → ℝ) (Gam tf : ℝ) (fuel : ℕ) : Except Err (Option ℝ × LandObjects) := do
  let IC := landInnerIC R0 V0 ag Gam (2 / tf)
  let (r, nlls) := o.nlls.run o.xi [IC] fuel
  match ← r with
  | none => return (none, { o with nlls := nlls })
  | some (xi, _) =>
    let l ← psysRes (landInnerSysIC o.stfc o.ctfc [IC]) xi
    let loss1 ← maxAbs l
    let h ← landHtfOf o.ctfc (last o.stfc.z) [IC] xi
    return (some (max loss1 |h|), { o with nlls := nlls })

/-- `t`, S 122, Q 109; `c` is `xi['b']**2`. -/
noncomputable def landTime (z0 c tscale z : ℝ) : ℝ := (z - z0) / c * tscale

/-- `V`, S 126, O 151, Q 112, from the position `r`. -/
noncomputable def landV (pscale tscale : ℝ) (r : ℝ → ℝ) (z : ℝ) : ℝ := deriv r z * pscale / tscale

/-- `LamV`, S 128, O 153, Q 114. -/
noncomputable def landLamV (pscale tscale : ℝ) (l : ℝ → ℝ) (z : ℝ) : ℝ := l z * pscale / tscale ^ 2

/-- `LamR`, S 129, O 154, Q 115. -/
noncomputable def landLamR (c pscale tscale : ℝ) (l : ℝ → ℝ) (z : ℝ) : ℝ := -c * deriv l z * pscale / tscale ^ 3

/-- `Ham[i]`, S 131–138, O 156–163, Q 117–124; `ag` is `IC['ag']`. -/
noncomputable def landHam (ag lamR lamV V : Fin 3 → ℝ) : ℝ :=
  let Ac := fun i => -lamV i
  0.5 * (∑ i, Ac i * Ac i) + (∑ i, lamR i * V i) + ∑ i, lamV i * (ag i + Ac i)

end Verif.Model.Py
