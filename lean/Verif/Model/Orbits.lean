import Verif.Model.Landing

/-!
# Model of the programs for periodic orbits of the restricted three-body problem

Y is /repo/examples/Hunter_Johnston_Dissertation/Chapter_4/Example_4_8/Lyap.py, H is /repo/examples/Hunter_Johnston_Dissertation/Chapter_4/Example_4_9/Halo.py,
K is /repo/examples/TfcBook/Chapter_3/Problem_7.py, T is util.py beside Y (the file beside H is the same). The derivative of the velocity, which the
programs get from `egrad`, is written out by the chain rule. Plots, measured times and printed lines are left out; the starting values of `rich3_lyap` and
`rich` are arguments here.
-/

namespace Verif.Model.Py

open Verif.Py Verif.Np Verif.Model.LSq Verif.Model.Prog Verif.Model.Dict

/-- `r`, Y 65–68, H 72–75, K 76–79, component by component: the same value and the same derivative at both ends. -/
noncomputable def orbFuns {n m : ℕ} (u : Utfc) (R0 V0 : Fin n → (Fin m → ℝ) → ℝ) (q : Fin n) : PFun m :=
  ⟨u, "xis", n, q, [
    ⟨hphi1 (first u.z) (last u.z), 0, first u.z, R0 q⟩,
    ⟨hphi2 (first u.z) (last u.z), 0, last u.z, R0 q⟩,
    ⟨hphi3 (first u.z) (last u.z), 1, first u.z, V0 q⟩,
    ⟨hphi4 (first u.z) (last u.z), 1, last u.z, V0 q⟩]⟩

/-! ## Orbits in the plane: Y and K -/

/-- `r1`, Y 70 (`R1`, K 82). -/
noncomputable def planarR1 (mu x y : ℝ) : ℝ := Real.sqrt ((x + mu) ^ 2 + y ^ 2)

/-- `r2`, Y 71 (`R2`, K 83). -/
noncomputable def planarR2 (mu x y : ℝ) : ℝ := Real.sqrt ((x + mu - 1) ^ 2 + y ^ 2)

/-- One component of `v`, Y 73–75, K 86–90; `dr` is that component of `egrad(r)`. -/
noncomputable def planarV (mu b x y dr : ℝ) : ℝ := 1 / planarR2 mu x y * b ^ 2 * dr

/-- One component of `egrad(v)`, Y 76, K 91, by the chain rule; `dx`, `dy` are the components of `egrad(r)`, and `dr`, `ddr` those of the first two
derivatives of the component in question. -/
noncomputable def planarDv (mu b x y dx dy dr ddr : ℝ) : ℝ :=
  b ^ 2 * (-(((x + mu - 1) * dx + y * dy) / planarR2 mu x y) / planarR2 mu x y ^ 2 * dr + 1 / planarR2 mu x y * ddr)

/-- One component of `a`, Y 76, K 91. -/
noncomputable def planarA (mu b x y dx dy dr ddr : ℝ) : ℝ := 1 / planarR2 mu x y * b ^ 2 * planarDv mu b x y dx dy dr ddr

/-- `Jc`, Y 80–84, K 97–101. -/
noncomputable def planarJc (mu b x y dx dy : ℝ) : ℝ :=
  (x ^ 2 + y ^ 2) + 2 * (1 - mu) / planarR1 mu x y + 2 * mu / planarR2 mu x y + (1 - mu) * mu
    - (planarV mu b x y dx ^ 2 + planarV mu b x y dy ^ 2)

/-- `Ls`, Y 86–98, K 104–116. -/
noncomputable def planarLs (mu b x y dx dy ddx ddy : ℝ) : Fin 2 → ℝ := ![
  -planarA mu b x y dx dy dx ddx + (2 * planarV mu b x y dy + x) - (1 - mu) / planarR1 mu x y ^ 3 * (x + mu)
    - mu / planarR2 mu x y ^ 3 * (x + mu - 1),
  -planarA mu b x y dx dy dy ddy + (-2 * planarV mu b x y dx + y) - (1 - mu) / planarR1 mu x y ^ 3 * y - mu / planarR2 mu x y ^ 3 * y]

/-- `R0`, Y 51, K 59. The unknown numbers are `X`, `Y`, `dX`, `dY`, `b`. -/
def planarR0 (q : Fin 2) (s : Fin 5 → ℝ) : ℝ := s ⟨q, by omega⟩

/-- `V0`, Y 53, K 61. -/
noncomputable def planarV0 (mu : ℝ) (q : Fin 2) (s : Fin 5 → ℝ) : ℝ := s ⟨2 + q, by omega⟩ / s 4 ^ 2 / (1 / lyapD0 mu (s 0) (s 1))

/-- What enters the equations: `r`, `egrad(r)` and the second derivatives. Y 65–76. -/
def planarTerms : Fin 6 → Fin 2 × ℕ := ![(0, 0), (1, 0), (0, 1), (1, 1), (0, 2), (1, 2)]

/-- `L`, Y 102, K 119: the equations of motion, row by row, then the equation for the constant of Jacobi. -/
noncomputable def planarSys (u : Utfc) (mu C : ℝ) : PSys 2 5 where
  names := !["X", "Y", "dX", "dY", "b"]
  funs := orbFuns u planarR0 (planarV0 mu)
  eqs := [
    ⟨u.z, 6, planarTerms, here, 2, fun _ J s => planarLs mu (s 4) (J 0) (J 1) (J 2) (J 3) (J 4) (J 5)⟩,
    ⟨u.z, 6, planarTerms, here, 1, fun _ J s _ => planarJc mu (s 4) (J 0) (J 1) (J 2) (J 3) - C⟩]

/-- The value of the argument `C`, Y 102, H 111: an array with one entry, or a number. -/
noncomputable def levelOf : List (View String) → ℝ
  | .arr l :: _ => l.getD 0 0
  | _ => 0

/-- An array with `w` columns, Y 105, H 114. -/
def entryW (w : ℕ) (k : String) (l : List ℝ) : String × Arr ℝ := (k, ⟨[l.length / w, w], l⟩)

/-- The dictionary of Y 112–115, 139–142, K 142. -/
noncomputable def planarUnknowns (xis : List ℝ) (x y dx dy b : ℝ) : View String :=
  .dict .robust [entryW 2 "xis" xis, entry1 "X" [x], entry1 "Y" [y], entry1 "dX" [dx], entry1 "dY" [dy], entry1 "b" [b]]

/-- `getJacobi`, T 316–329. -/
noncomputable def getJacobi (S : Fin 6 → ℝ) (mu : ℝ) : ℝ :=
  let R1 := Real.sqrt ((S 0 + mu) ^ 2 + S 1 ^ 2 + S 2 ^ 2)
  let R2 := Real.sqrt ((S 0 + mu - 1) ^ 2 + S 1 ^ 2 + S 2 ^ 2)
  (S 0 ^ 2 + S 1 ^ 2) + 2 * (1 - mu) / R1 + 2 * mu / R2 + (1 - mu) * mu - (S 3 ^ 2 + S 4 ^ 2 + S 5 ^ 2)

/-- The loop over the values of `C`, Y 145–156, H 139–148: each run starts from the unknowns the run before has left. `none` if a run has not ended
after `fuel` evaluations of its condition. The entries of `sol` follow from the unknowns. -/
noncomputable def followLevels (fuel : ℕ) : NllsObj String → List ℝ → View String → Except Err (Option (List (View String × ℤ)))
  | _, [], _ => .ok (some [])
  | o, C :: Cs, xi => do
    let (r, o') := o.run xi [.arr [C]] fuel
    match ← r with
    | none => return none
    | some (xi', it) =>
      match ← followLevels fuel o' Cs xi' with
      | none => return none
      | some rs => return some ((xi', it) :: rs)

/-- Y 15–156; there `N` is 140, `m` 130, the basis `'CP'`, `nStep` 30, `maxIter` 20, `Cend` 2.91 and `tol` the machine epsilon. `rvi` and `period` are
from `rich3_lyap`. The value `Cspan[nStep]` (for jax the last entry) of the last assignment in Y 156 is not used. -/
noncomputable def runLyap (lib : LinAlg) (N m : ℕ) (basis : String) (nStep maxIter : ℕ) (mu tol Cend : ℝ) (rvi : Fin 6 → ℝ) (period : ℝ) (w b : ℕ → ℝ)
    (fuel : ℕ) : Except Err (Option (List (View String × ℤ))) := do
  let tfc ← utfcInit N (.int 4) m basis (some (-1)) (some 1) "C++" w b
  let xis ← zerosOf tfc tfc.z 2
  let C := getJacobi rvi mu
  let nlls ← (NllsObj.init lib .pinv none none none tol maxIter true (psysResidual fun args => planarSys tfc mu (levelOf args))
    (planarUnknowns xis 1 1 1 1 1) [.arr [C]] []).1
  let xi := planarUnknowns xis (rvi 0) (rvi 1) (rvi 3) (rvi 4) (1 * Real.sqrt (2 / period))
  followLevels fuel nlls (linspace C Cend nStep) xi

/-- `xis` of K 126–130: the entries of the first two rows are set. -/
noncomputable def startXis (xis : List ℝ) : Except Err (List ℝ) :=
  if xis.length / 2 < 2 then .error .valueError else .ok ([-0.003, 2e-12, 9e-12, 0.01] ++ xis.drop 4)

/-- K 21–145; there `N` is 140, `m` 130, the basis `'CP'`, `mu` 0.01215, `C` 3.05, and the start `[0.79, 0.]`, `[0., 0.42]`, 21.4. -/
noncomputable def runProblem7 (lib : LinAlg) (N m : ℕ) (basis : String) (mu C : ℝ) (r_init v_init : Fin 2 → ℝ) (T_init : ℝ) (w b : ℕ → ℝ) (fuel : ℕ) :
    Except Err (Option (View String × ℤ)) := do
  let tfc ← utfcInit N (.int 4) m basis (some (-1)) (some 1) "C++" w b
  let z ← zerosOf tfc tfc.z 2
  let xis ← startXis z
  solveSys lib .pinv 1e-13 50 true (planarSys tfc mu C)
    (planarUnknowns xis (1 * r_init 0) (1 * r_init 1) (1 * v_init 0) (1 * v_init 1) (1 * Real.sqrt (2 / T_init))) fuel

/-! ## Orbits in space: H -/

/-- `r1`, H 77. -/
noncomputable def spatialR1 (mu x y z : ℝ) : ℝ := Real.sqrt ((x + mu) ^ 2 + y ^ 2 + z ^ 2)

/-- `r2`, H 78. -/
noncomputable def spatialR2 (mu x y z : ℝ) : ℝ := Real.sqrt ((x + mu - 1) ^ 2 + y ^ 2 + z ^ 2)

/-- `Jc`, H 86–90, with `v` of H 80. -/
noncomputable def spatialJc (mu b x y z dx dy dz : ℝ) : ℝ :=
  (x ^ 2 + y ^ 2) + 2 * (1 - mu) / spatialR1 mu x y z + 2 * mu / spatialR2 mu x y z + (1 - mu) * mu
    - ((b ^ 2 * dx) ^ 2 + (b ^ 2 * dy) ^ 2 + (b ^ 2 * dz) ^ 2)

/-- `Ls`, H 92–107, with `v` and `a` of H 80, 81. -/
noncomputable def spatialLs (mu b x y z dx dy ddx ddy ddz : ℝ) : Fin 3 → ℝ := ![
  -(b ^ 2 * (b ^ 2 * ddx)) + (2 * (b ^ 2 * dy) + x) - (1 - mu) / spatialR1 mu x y z ^ 3 * (x + mu) - mu / spatialR2 mu x y z ^ 3 * (x + mu - 1),
  -(b ^ 2 * (b ^ 2 * ddy)) + (-2 * (b ^ 2 * dx) + y) - (1 - mu) / spatialR1 mu x y z ^ 3 * y - mu / spatialR2 mu x y z ^ 3 * y,
  -(b ^ 2 * (b ^ 2 * ddz)) + 0 - (1 - mu) / spatialR1 mu x y z ^ 3 * z - mu / spatialR2 mu x y z ^ 3 * z]

/-- `R0`, H 59. The unknown numbers are `X`, `Y`, `Z`, `dX`, `dY`, `dZ`, `b`. -/
def spatialR0 (q : Fin 3) (s : Fin 7 → ℝ) : ℝ := s ⟨q, by omega⟩

/-- `V0`, H 60. -/
noncomputable def spatialV0 (q : Fin 3) (s : Fin 7 → ℝ) : ℝ := s ⟨3 + q, by omega⟩ / s 6 ^ 2

/-- What enters the equations, H 72–81. -/
def spatialTerms : Fin 9 → Fin 3 × ℕ := ![(0, 0), (1, 0), (2, 0), (0, 1), (1, 1), (2, 1), (0, 2), (1, 2), (2, 2)]

/-- `L`, H 111. -/
noncomputable def spatialSys (u : Utfc) (mu C : ℝ) : PSys 3 7 where
  names := !["X", "Y", "Z", "dX", "dY", "dZ", "b"]
  funs := orbFuns u spatialR0 spatialV0
  eqs := [
    ⟨u.z, 9, spatialTerms, here, 3, fun _ J s => spatialLs mu (s 6) (J 0) (J 1) (J 2) (J 3) (J 4) (J 6) (J 7) (J 8)⟩,
    ⟨u.z, 9, spatialTerms, here, 1, fun _ J s _ => spatialJc mu (s 6) (J 0) (J 1) (J 2) (J 3) (J 4) (J 5) - C⟩]

/-- The dictionary of H 123–126. -/
noncomputable def spatialUnknowns (xis : List ℝ) (rvi : Fin 6 → ℝ) (b : ℝ) : View String :=
  .dict .robust [entryW 3 "xis" xis, entry1 "X" [rvi 0], entry1 "Y" [rvi 1], entry1 "Z" [rvi 2], entry1 "dX" [rvi 3], entry1 "dY" [rvi 4],
    entry1 "dZ" [rvi 5], entry1 "b" [b]]

/-- H 13–148; there `N` is 200, `m` 190, the basis `'CP'`, `nTraj` 50, `maxIter` 25, `Cend` 2.95 and `tol` the machine epsilon. `rvi` and `period` are
from `rich`. -/
noncomputable def runHalo (lib : LinAlg) (N m : ℕ) (basis : String) (nTraj maxIter : ℕ) (mu tol Cend : ℝ) (rvi : Fin 6 → ℝ) (period : ℝ) (w b : ℕ → ℝ)
    (fuel : ℕ) : Except Err (Option (List (View String × ℤ))) := do
  let tfc ← utfcInit N (.int 4) m basis (some (-1)) (some 1) "C++" w b
  let xis ← zerosOf tfc tfc.z 3
  let xi := spatialUnknowns xis rvi (1 * Real.sqrt (2 / period))
  let nlls ← (NllsObj.init lib .pinv none none none tol maxIter true (psysResidual fun args => spatialSys tfc mu (levelOf args)) xi [.arr [1]] []).1
  followLevels fuel nlls (linspace (getJacobi rvi mu) Cend nTraj) xi

end Verif.Model.Py
