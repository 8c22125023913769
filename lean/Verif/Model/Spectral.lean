import Verif.Model.Landing

/-!
# Model of the example programs with the spectral method

Here no conditions are built into the expression: `y = np.dot(H(x),xi)`, and the conditions are further rows of the residual. Bs is
/repo/examples/Hunter_Johnston_Dissertation/Chapter_4/Example_4_4/BVP_spectral.py, Es is
/repo/examples/Hunter_Johnston_Dissertation/Chapter_4/Examples_4_1thru3/laneEmden_spectral.py, Ss is
/repo/examples/Hunter_Johnston_Dissertation/Chapter_6/Example_6_1/singleLoop/singleSpec_EOL.py, Os is
/repo/examples/Hunter_Johnston_Dissertation/Chapter_6/Example_6_1/outerLoop/outSpec_EOL.py, Ls is
/repo/examples/Hunter_Johnston_Dissertation/Chapter_6/Example_6_2/Spec_EOL.py, Lt is
/repo/examples/Hunter_Johnston_Dissertation/Chapter_6/Example_6_2/TFC_EOL.py. The errors, residuals, measured times and plots are left out, and `fsolve`
(Os 132).
-/

namespace Verif.Model.Py

open Verif.Py Verif.Np Verif.Model.LSq Verif.Model.Prog Verif.Model.Dict

/-! ## One unknown function -/

/-- Rows of the residual: the formula `F x y y' y''` at the points. E.g. `L0`, `Lde`, `Lf`, Bs 59–61; `y(x,xi)[0]` is the value at the first point. -/
structure SpecRows where
  pts : List ℝ
  F : ℝ → ℝ → ℝ → ℝ → ℝ

/-- `L = lambda xi: np.hstack((…))`, Bs 63, Es 82. -/
noncomputable def specRes (u : Utfc) (rows : List SpecRows) (xi : List ℝ) : Except Err (List ℝ) := do
  let rs ← rows.mapM fun r => curveRes u [] r.F r.pts xi
  return rs.flatten

/-- `L` as the argument of the solver, Bs 68, Es 88. -/
noncomputable def specResidual (u : Utfc) (rows : List SpecRows) : Residual Unit
  | [.arr xi] => orEmpty (specRes u rows xi)
  | _ => []

/-- `xi = onp.zeros(H(x).shape[1])`, Bs 66, Es 86; an error of the residual there is returned as such. -/
noncomputable def startSpec (u : Utfc) (rows : List SpecRows) : Except Err (List ℝ) := do
  let A ← u.Hjax u.x.length (fun j => u.x.getD j 0) 0 false
  let xi := List.replicate A.cols 0
  let _ ← specRes u rows xi
  return xi

/-- `NLLS(xi,L,timer=True,maxIter=iterMax)`, Bs 68, Es 88. -/
noncomputable def solveSpec (lib : LinAlg) (method : Method) (tol : ℝ) (maxIter : ℕ) (timer : Bool) (u : Utfc) (rows : List SpecRows) (fuel : ℕ) :
    Except Err (Option (View Unit × ℤ)) := do
  let xi ← startSpec u rows
  (NLLS lib method none none none tol maxIter timer (specResidual u rows) (.arr xi) [] [] fuel).1

/-- `L0`, `Lde`, `Lf`, Bs 59–63. -/
noncomputable def bvpRows (x : List ℝ) (y0 yf : ℝ) : List SpecRows :=
  [⟨[first x], fun _ y _ _ => y - y0⟩, ⟨x, bvpFormula⟩, ⟨[last x], fun _ y _ _ => y - yf⟩]

/-- `BVP_spectral`, Bs 19–68 (`tol` is not used). -/
noncomputable def runBvpSpec (lib : LinAlg) (N m : ℕ) (basis : String) (iterMax : ℕ) (w b : ℕ → ℝ) (fuel : ℕ) :
    Except Err (Option (View Unit × ℤ)) := do
  let u ← utfcInit N (.int 0) m basis (some 0) (some Real.pi) "C++" w b
  solveSpec lib .pinv 1e-13 iterMax true u (bvpRows u.x 0 0) fuel

/-- `L0`, `Ld0`, `Lde`, Es 78–82. -/
def laneRows (x : List ℝ) (y0 y0p : ℝ) (k : ℕ) : List SpecRows :=
  [⟨[first x], fun _ y _ _ => y - y0⟩, ⟨[first x], fun _ _ y1 _ => y1 - y0p⟩, ⟨x, laneF k⟩]

/-- `laneEmden_spectral`, Es 18–88, for a natural number `type`: the coefficients `xi`. `maxIter` is assigned in three of the four branches (38, 45,
53) and read in 88. -/
noncomputable def laneEmdenSpec (lib : LinAlg) (N m type : ℕ) (x0 xf : ℝ) (basis : String) (iterMax : ℕ) (w b : ℕ → ℝ) (fuel : ℕ) :
    Except Err (Option (View Unit)) := do
  let maxIter := if type = 0 then some 1 else if type = 1 then some 1 else if type = 5 then some iterMax else none
  let u ← utfcInit N (.int 0) m basis (some x0) (some xf) "C++" w b
  let _ ← startSpec u (laneRows u.x 1 0 type)
  match maxIter with
  | none => .error .unboundLocal
  | some maxIter =>
    let r ← solveSpec lib .pinv 1e-13 maxIter true u (laneRows u.x 1 0 type) fuel
    return r.map (·.1)

/-! ## The landing with least energy -/

/-- `r` and `lam`, Ss 51–55, Os 52–56, Ls 44–48: component by component. -/
noncomputable def specFuns {m : ℕ} (stfc ctfc : Utfc) (q : Fin 6) : PFun m :=
  if q.val < 3 then ⟨stfc, "xis", 3, q, []⟩ else ⟨ctfc, "xic", 3, q - 3, []⟩

/-- What enters `Htf` beside the costate: its derivative and the velocity. Ss 70–71, Os 71–72, Ls 63–64. -/
def specTerms (q : Fin 9) : Fin 6 × ℕ :=
  if h : q.val < 3 then (lamIx ⟨q, h⟩, 0) else if h : q.val < 6 then (lamIx ⟨q - 3, by omega⟩, 1) else (posIx ⟨q - 6, by omega⟩, 1)

/-- `Htf` for given costate `l`, derivative of the costate `lr` and velocity `v` at the end, Ss 70–71, Os 71–72, Ls 63–64; `c` is `xi['b']**2`. -/
noncomputable def specHtf (ag : Fin 3 → ℝ) (Gam c : ℝ) (l lr v : Fin 3 → ℝ) : ℝ :=
  (∑ i, l i * (-1 / 2 * l i + ag i)) + (∑ i, -c * lr i * (c * v i)) + Gam

/-- The rows of `Ls[1:-1,:]`, `L0`, `Ld0`, `Lf`, `Ldf` in the order of Ss 73–77, Os 74–78, Ls 66–70; `c` is `xi['b']**2` (`IC['c']` in Os) and may contain
the unknown number. -/
noncomputable def specEqs {m : ℕ} (z : List ℝ) (R0 V0 ag : Fin 3 → ℝ) (c : (Fin m → ℝ) → ℝ) : List (PEqn 6 m) := [
  ⟨z.tail.dropLast, 6, landTerms, here, 3, fun _ J s i => c s ^ 2 * J (posIx i) - ag i + J (lamIx i)⟩,
  ⟨[first z], 3, fun i => (posIx i, 0), here, 3, fun _ J _ i => J i - R0 i⟩,
  ⟨[first z], 3, fun i => (posIx i, 1), here, 3, fun _ J s i => c s * J i - V0 i⟩,
  ⟨[last z], 3, fun i => (posIx i, 0), here, 3, fun _ J _ i => J i⟩,
  ⟨[last z], 3, fun i => (posIx i, 1), here, 3, fun _ J s i => c s * J i⟩]

/-- `L` of Ss 59–78, Ls 52–71 (there without `Gam`, modelled as `Gam = 0`). `xi['b']**4` is written as the square of `xi['b']**2`. -/
noncomputable def specSys (stfc ctfc : Utfc) (R0 V0 ag : Fin 3 → ℝ) (Gam : ℝ) : PSys 6 1 where
  names := !["b"]
  funs := specFuns stfc ctfc
  eqs := specEqs stfc.z R0 V0 ag (fun s => s 0 ^ 2) ++
    [⟨[last stfc.z], 9, specTerms, here, 1, fun _ J s _ =>
      specHtf ag Gam (s 0 ^ 2) (fun i => J ⟨i, by omega⟩) (fun i => J ⟨3 + i, by omega⟩) fun i => J ⟨6 + i, by omega⟩⟩]

/-- `L` of Os 60–78. -/
noncomputable def specInnerSys (stfc ctfc : Utfc) (R0 V0 ag : Fin 3 → ℝ) (c : ℝ) : PSys 6 0 where
  names := ![]
  funs := specFuns stfc ctfc
  eqs := specEqs stfc.z R0 V0 ag fun _ => c

/-- The system for the values in `IC`, Ss 59–78. -/
noncomputable def specSysIC (stfc ctfc : Utfc) (args : List (View String)) : PSys 6 1 :=
  specSys stfc ctfc (icVec args "R0") (icVec args "V0") (icVec args "ag") (icNum args "Gam")

/-- The system for the values in `IC`, Os 60–78. -/
noncomputable def specInnerSysIC (stfc ctfc : Utfc) (args : List (View String)) : PSys 6 0 :=
  specInnerSys stfc ctfc (icVec args "R0") (icVec args "V0") (icVec args "ag") (icNum args "c")

/-- Ss 38–112, Ls 31–109 with the scaled data; there `N` is 100, `ms` 30, `tol` the machine epsilon and `maxIter` 50. The run starts from zero and
`b` (Ss 82–93), or, in Ls 100–102, from the given costate `xic` (two rows of three numbers) and another `b`: `b0` is the one of the construction. -/
noncomputable def runSpecScaled (lib : LinAlg) (N ms : ℕ) (tol : ℝ) (maxIter : ℕ) (b0 b : ℝ) (xic0 : Option (List ℝ)) (R0 V0 ag : Fin 3 → ℝ)
    (Gam : ℝ) (wt bt wt' bt' : ℕ → ℝ) (fuel : ℕ) : Except Err (Option (View String × ℤ)) := do
  let stfc ← utfcInit N (.int 0) ms "CP" (some (-1)) (some 1) "C++" wt bt
  let ctfc ← utfcInit N (.int 0) 1 "CP" (some (-1)) (some 1) "C++" wt' bt'
  let xis ← zerosOf stfc stfc.z 3
  let xic ← zerosOf ctfc stfc.z 3
  let nlls ← (NllsObj.init lib .pinv none none none tol maxIter true (psysResidual (specSysIC stfc ctfc))
    (.dict .robust [entry3 "xis" xis, entry3 "xic" xic, entry1 "b" [b0 * 1]]) [landIC (fun _ => 0) (fun _ => 0) (fun _ => 0) 0] []).1
  (nlls.run (.dict .robust [entry3 "xis" xis, entry3 "xic" (xic0.getD xic), entry1 "b" [b * 1]]) [landIC R0 V0 ag Gam] fuel).1

/-- Lt 31–116 with the scaled data: the program of C105 started from another costate `xic` and another `b`, Lt 108–110. -/
noncomputable def runLunarScaled (lib : LinAlg) (N ms : ℕ) (tol : ℝ) (maxIter : ℕ) (b0 b : ℝ) (xic0 : List ℝ) (R0 V0 ag : Fin 3 → ℝ)
    (Gam : ℝ) (wt bt wt' bt' : ℕ → ℝ) (fuel : ℕ) : Except Err (Option (View String × ℤ)) := do
  let stfc ← utfcInit N (.int 4) ms "CP" (some (-1)) (some 1) "C++" wt bt
  let ctfc ← utfcInit N (.int 0) 1 "CP" (some (-1)) (some 1) "C++" wt' bt'
  let xis ← zerosOf stfc stfc.z 3
  let xic ← zerosOf ctfc stfc.z 3
  let nlls ← (NllsObj.init lib .pinv none none none tol maxIter true (psysResidual (landSysIC stfc ctfc))
    (.dict .robust [entry3 "xis" xis, entry3 "xic" xic, entry1 "b" [b0 * 1]]) [landIC (fun _ => 0) (fun _ => 0) (fun _ => 0) 0] []).1
  (nlls.run (.dict .robust [entry3 "xis" xis, entry3 "xic" xic0, entry1 "b" [b * 1]]) [landIC R0 V0 ag Gam] fuel).1

/-- `onp.array([0.5 * (V0 - R0), -0.5*(V0 + R0)])`, Ls 101, Lt 109. -/
noncomputable def lunarStart (R0 V0 : Fin 3 → ℝ) : List ℝ := List.ofFn (fun i => 0.5 * (V0 i - R0 i)) ++ List.ofFn fun i => -0.5 * (V0 i + R0 i)

/-- One pass of the loop Lt 100–120 for the data `R0`, `V0`, with the scaling of 105–114; there `b0` is `sqrt(2)`, `b` `sqrt(10)` and `ag` `[0,0,-1.62]`.
The costate at the start is made from the data before the scaling. -/
noncomputable def runLunar (lib : LinAlg) (N ms : ℕ) (tol : ℝ) (maxIter : ℕ) (b0 b : ℝ) (R0 V0 ag : Fin 3 → ℝ)
    (wt bt wt' bt' : ℕ → ℝ) (fuel : ℕ) : Except Err (Option (View String × ℤ)) :=
  let pscale := maxAbs3 R0
  let tscale := pscale / maxAbs3 V0
  runLunarScaled lib N ms tol maxIter b0 b (lunarStart R0 V0) (fun i => R0 i / pscale) (fun i => V0 i * tscale / pscale)
    (fun i => ag i * tscale ^ 2 / pscale) 0 wt bt wt' bt' fuel

/-- One pass of the loop Ls 92–113, with the scaling of 97–107. -/
noncomputable def runLunarSpec (lib : LinAlg) (N ms : ℕ) (tol : ℝ) (maxIter : ℕ) (b0 b : ℝ) (R0 V0 ag : Fin 3 → ℝ)
    (wt bt wt' bt' : ℕ → ℝ) (fuel : ℕ) : Except Err (Option (View String × ℤ)) :=
  let pscale := maxAbs3 R0
  let tscale := pscale / maxAbs3 V0
  runSpecScaled lib N ms tol maxIter b0 b (some (lunarStart R0 V0)) (fun i => R0 i / pscale) (fun i => V0 i * tscale / pscale)
    (fun i => ag i * tscale ^ 2 / pscale) 0 wt bt wt' bt' fuel

/-- Os 39–101; there `N` is 100 and `ms` 30. `NllsClass` has its default tolerance `1e-13`. -/
noncomputable def specInnerInit (lib : LinAlg) (N ms : ℕ) (wt bt wt' bt' : ℕ → ℝ) : Except Err LandObjects := do
  let stfc ← utfcInit N (.int 0) ms "CP" (some (-1)) (some 1) "C++" wt bt
  let ctfc ← utfcInit N (.int 0) 1 "CP" (some (-1)) (some 1) "C++" wt' bt'
  let xis ← zerosOf stfc stfc.z 3
  let xic ← zerosOf ctfc stfc.z 3
  let xi : View String := .dict .robust [entry3 "xis" xis, entry3 "xic" xic]
  let nlls ← (NllsObj.init lib .pinv none none none 1e-13 2 true (psysResidual (specInnerSysIC stfc ctfc)) xi
    [landInnerIC (fun _ => 0) (fun _ => 0) (fun _ => 0) 0 2] []).1
  return ⟨stfc, ctfc, xi, nlls⟩

/-- `Htf(xi,IC)`, Os 71–72: the costate, its derivative and the velocity at the end. -/
noncomputable def specHtfOf (stfc ctfc : Utfc) (zf : ℝ) (args : List (View String)) (v : View String) : Except Err ℝ := do
  let xis ← lookUp v "xis"
  let xic ← lookUp v "xic"
  let l ← (List.finRange 3).mapM fun i : Fin 3 => curveD ctfc [] (column 3 i xic) 0 1 fun _ => zf
  let lr ← (List.finRange 3).mapM fun i : Fin 3 => curveD ctfc [] (column 3 i xic) 1 1 fun _ => zf
  let vel ← (List.finRange 3).mapM fun i : Fin 3 => curveD stfc [] (column 3 i xis) 1 1 fun _ => zf
  return specHtf (icVec args "ag") (icNum args "Gam") (icNum args "c") (fun i => (l.getD i fun _ => 0) 0) (fun i => (lr.getD i fun _ => 0) 0)
    fun i => (vel.getD i fun _ => 0) 0

/-- `Innerloop(tf,xi,IC)`, Os 117–126; `none` if the run has not ended after `fuel` evaluations of its condition. -/
noncomputable def specInnerloop (o : LandObjects) (R0 V0 ag : Fin 3 → ℝ) (Gam tf : ℝ) (fuel : ℕ) : Except Err (Option ℝ × LandObjects) := do
  let IC := landInnerIC R0 V0 ag Gam (2 / tf)
  let (r, nlls) := o.nlls.run o.xi [IC] fuel
  match ← r with
  | none => return (none, { o with nlls := nlls })
  | some (xi, _) =>
    let l ← psysRes (specInnerSysIC o.stfc o.ctfc [IC]) xi
    let loss1 ← maxAbs l
    let h ← specHtfOf o.stfc o.ctfc (last o.stfc.z) [IC] xi
    return (some (max loss1 |h|), { o with nlls := nlls })

end Verif.Model.Py
