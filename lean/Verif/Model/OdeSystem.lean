import Verif.Model.OdeExample

/-!
# Model of the example programs with several unknown functions of one variable and unknown numbers, in a dictionary

The unknowns are a `TFCDict` or `TFCDictRobust` that holds one array of coefficients for each free function (or for several components, one in each
column) and arrays of length 1 for the unknown numbers, such as the value at a joint or the length of the time interval. The general form of the
steps comes first, then the programs. J is /repo/examples/Hunter_Johnston_Dissertation, B is /repo/examples/TfcBook. L is
J/Chapter_4/Example_4_5/tfc_linearNonlinear.py, P is J/Chapter_4/Example_4_5/spectral_linearNonlinear.py, U is J/Chapter_4/Example_4_7/UnknownTime.py.
-/

namespace Verif.Model.Py

open Verif.Py Verif.Np Verif.Model.LSq Verif.Model.Prog Verif.Model.Dict

/-- A summand `phi(x)*(value - np.dot(H0,xi['…']))` whose value may contain the unknown numbers, e.g. `xi['y1']` in L 86. -/
structure PCond (m : ℕ) where
  weight : ℝ → ℝ
  order : ℕ
  point : ℝ
  value : (Fin m → ℝ) → ℝ

/-- One unknown function: the object, the key of its coefficients, the number of columns of the array and the column that is used, and the conditions,
e.g. L 84–87. -/
structure PFun (m : ℕ) where
  obj : Utfc
  key : String
  width : ℕ
  col : ℕ
  conds : List (PCond m)

/-- Equations with `outs` components at the points `pts`: `F x J s` is the formula, where `J i` is the derivative number `terms i` (function and order)
at `arg i x`, mostly `x` itself, and `s` are the unknown numbers. E.g. `L1`, `L2`, L 109–111; two different points in one equation P 96. -/
structure PEqn (nf m : ℕ) where
  pts : List ℝ
  count : ℕ
  terms : Fin count → Fin nf × ℕ
  arg : Fin count → ℝ → ℝ
  outs : ℕ
  F : ℝ → (Fin count → ℝ) → (Fin m → ℝ) → Fin outs → ℝ

/-- All values at the point itself. L 109–111. -/
def here {n : ℕ} (_ : Fin n) (x : ℝ) : ℝ := x

/-- All data of a program: the names of the unknown numbers, the unknown functions and the equations. L 79–113. -/
structure PSys (nf m : ℕ) where
  names : Fin m → String
  funs : Fin nf → PFun m
  eqs : List (PEqn nf m)

/-- The conditions, for given unknown numbers. L 85–87. -/
def PFun.ends {m : ℕ} (f : PFun m) (s : Fin m → ℝ) : List EndCond := f.conds.map fun c => ⟨c.weight, c.order, c.point, c.value s⟩

/-- `xi['key']`, L 84–87. -/
def lookUp (v : View String) (k : String) : Except Err (List ℝ) :=
  match v with
  | .arr _ => .error .indexError
  | .dict _ kvs =>
    match kvs.find? fun p => p.1 = k with
    | none => .error .keyError
    | some p => .ok p.2.data

/-- Column `col` of an array with `width` columns, stored row by row; a one-dimensional array has one column. L 84 (one column). -/
def column (width col : ℕ) (xi : List ℝ) : List ℝ := (List.range (xi.length / width)).map fun i => xi.getD (i * width + col) 0

/-- The unknown numbers, `xi['y1']`, L 86. -/
def numbers {m : ℕ} (names : Fin m → String) (v : View String) : Except Err (Fin m → ℝ) := do
  let l ← (List.ofFn names).mapM (lookUp v)
  return fun i => (l.getD i []).getD 0 0

/-- An unknown function after `d` applications of `egrad`, on `n` points. L 84–89. -/
noncomputable def pfunD {m : ℕ} (f : PFun m) (v : View String) (s : Fin m → ℝ) (d n : ℕ) (X : ℕ → ℝ) : Except Err (ℕ → ℝ) := do
  let xi ← lookUp v f.key
  curveD f.obj (f.ends s) (column f.width f.col xi) d n X

/-- The equations at their points, as one array, row by row. L 109–111. -/
noncomputable def peqnRes {nf m : ℕ} (S : PSys nf m) (v : View String) (E : PEqn nf m) : Except Err (List ℝ) := do
  let X := fun j => E.pts.getD j 0
  let s ← numbers S.names v
  let ts ← (List.finRange E.count).mapM fun i => pfunD (S.funs (E.terms i).1) v s (E.terms i).2 E.pts.length fun j => E.arg i (X j)
  return (List.range E.pts.length).flatMap fun j => List.ofFn (E.F (X j) (fun i => (ts.getD i fun _ => 0) j) s)

/-- `L = lambda xi: np.hstack((…))`, L 113. -/
noncomputable def psysRes {nf m : ℕ} (S : PSys nf m) (v : View String) : Except Err (List ℝ) := do
  let rs ← S.eqs.mapM (peqnRes S v)
  return rs.flatten

/-- `L` as the argument of the solver; the arguments after the unknowns may change the data. L 113. -/
noncomputable def psysResidual {nf m : ℕ} (S : List (View String) → PSys nf m) : Residual String
  | [] => []
  | v :: args => orEmpty (psysRes (S args) v)

/-- `onp.zeros(H(x).shape[1])`, L 118, 119; with `width` columns `onp.zeros((H(z).shape[1],width))`. -/
noncomputable def zerosOf (u : Utfc) (pts : List ℝ) (width : ℕ) : Except Err (List ℝ) := do
  let A ← u.Hjax pts.length (fun j => pts.getD j 0) 0 false
  return List.replicate (A.cols * width) 0

/-- `NLLS(xi,L,timer=True)`, L 128; an error of the residual at the start is returned as such. -/
noncomputable def solveSys {nf m : ℕ} (lib : LinAlg) (method : Method) (tol : ℝ) (maxIter : ℕ) (timer : Bool) (S : PSys nf m) (z : View String)
    (fuel : ℕ) : Except Err (Option (View String × ℤ)) := do
  let _ ← psysRes S z
  (NLLS lib method none none none tol maxIter timer (psysResidual fun _ => S) z [] [] fuel).1

/-! ## The programs -/

/-- A key of a `TFCDict` with its one-dimensional array, L 126. -/
def entry1 (k : String) (l : List ℝ) : String × Arr ℝ := (k, ⟨[l.length], l⟩)

/-- The expressions and the residual of L 58–113, with `xs1 = tfc1.x`, `xs2 = tfc2.x`. -/
noncomputable def hybSys (u1 u2 : Utfc) (x0 x1 xf y0 yf : ℝ) : PSys 2 2 where
  names := !["y1", "y1d"]
  funs := ![
    ⟨u1, "xi1", 1, 0, [
      ⟨fun a => 1 / (x1 - x0) ^ 2 * (x1 ^ 2 - 2 * x1 * a + a ^ 2), 0, first u1.x, fun _ => y0⟩,
      ⟨fun a => 1 / (x1 - x0) ^ 2 * (x0 * (x0 - 2 * x1) + 2 * x1 * a - a ^ 2), 0, last u1.x, fun s => s 0⟩,
      ⟨fun a => 1 / (x1 - x0) * (x0 * x1 - (x0 + x1) * a + a ^ 2), 1, last u1.x, fun s => s 1⟩]⟩,
    ⟨u2, "xi2", 1, 0, [
      ⟨fun a => 1 / (xf - x1) ^ 2 * (xf * (xf - 2 * x1) + 2 * x1 * a - a ^ 2), 0, first u2.x, fun s => s 0⟩,
      ⟨fun a => 1 / (xf - x1) * (-xf * x1 + (xf + x1) * a - a ^ 2), 1, first u2.x, fun s => s 1⟩,
      ⟨fun a => 1 / (xf - x1) ^ 2 * (x1 ^ 2 - 2 * x1 * a + a ^ 2), 0, last u2.x, fun _ => yf⟩]⟩]
  eqs := [
    ⟨u1.x, 2, ![(0, 2), (0, 0)], here, 1, fun x J _ _ => J 0 + J 1 - hybF x⟩,
    ⟨u2.x, 3, ![(1, 2), (1, 0), (1, 1)], here, 1, fun x J _ _ => J 0 + J 1 * J 2 - hybF x⟩]

/-- L 18–128; there `N` is 100, `m` 20 and the basis `'CP'` (`tol` and `iterMax` are not used). -/
noncomputable def runHybrid (lib : LinAlg) (N m : ℕ) (basis : String) (w b w' b' : ℕ → ℝ) (fuel : ℕ) : Except Err (Option (View String × ℤ)) := do
  let u1 ← utfcInit N (.int 3) m basis (some 0) (some (Real.pi / 2)) "C++" w b
  let u2 ← utfcInit N (.int 3) m basis (some (Real.pi / 2)) (some Real.pi) "C++" w' b'
  let xi1 ← zerosOf u1 u1.x 1
  let xi2 ← zerosOf u2 u2.x 1
  let slope := (hybYf - hybY0) / (Real.pi - 0)
  let z : View String := .dict .plain [entry1 "xi1" xi1, entry1 "xi2" xi2, entry1 "y1" [1 * (slope * last u1.x + hybY0)], entry1 "y1d" [1 * slope]]
  solveSys lib .pinv 1e-13 50 true (hybSys u1 u2 0 (Real.pi / 2) Real.pi hybY0 hybYf) z fuel

/-- The expressions and the residual of P 80–100: no conditions are built into the functions. -/
noncomputable def hybSpecSys (u1 u2 : Utfc) (y0 yf : ℝ) : PSys 2 0 where
  names := ![]
  funs := ![⟨u1, "xi1", 1, 0, []⟩, ⟨u2, "xi2", 1, 0, []⟩]
  eqs := [
    ⟨[first u1.x], 1, ![(0, 0)], here, 1, fun _ J _ _ => J 0 - y0⟩,
    ⟨u1.x.tail.dropLast, 2, ![(0, 2), (0, 0)], here, 1, fun x J _ _ => J 0 + J 1 - hybF x⟩,
    ⟨[last u1.x], 2, ![(0, 0), (1, 0)], ![id, fun _ => first u2.x], 1, fun _ J _ _ => J 0 - J 1⟩,
    ⟨[last u1.x], 2, ![(0, 1), (1, 1)], ![id, fun _ => first u2.x], 1, fun _ J _ _ => J 0 - J 1⟩,
    ⟨u2.x.tail.dropLast, 3, ![(1, 2), (1, 0), (1, 1)], here, 1, fun x J _ _ => J 0 + J 1 * J 2 - hybF x⟩,
    ⟨[last u2.x], 1, ![(1, 0)], here, 1, fun _ J _ _ => J 0 - yf⟩]

/-- P 20–110; there `N` is 100, `m` 23 and the basis `'CP'` (`tol` and `iterMax` are not used). -/
noncomputable def runHybridSpec (lib : LinAlg) (N m : ℕ) (basis : String) (w b w' b' : ℕ → ℝ) (fuel : ℕ) :
    Except Err (Option (View String × ℤ)) := do
  let u1 ← utfcInit N (.int 0) m basis (some 0) (some (Real.pi / 2)) "C++" w b
  let u2 ← utfcInit N (.int 0) m basis (some (Real.pi / 2)) (some Real.pi) "C++" w' b'
  let xi1 ← zerosOf u1 u1.x 1
  let xi2 ← zerosOf u2 u2.x 1
  solveSys lib .pinv 1e-13 50 true (hybSpecSys u1 u2 hybY0 hybYf) (.dict .plain [entry1 "xi1" xi1, entry1 "xi2" xi2]) fuel

/-- The expressions and the residual of U 42–69. -/
noncomputable def unkSys (xtfc utfc : Utfc) (x0 xf alfa beta : ℝ) : PSys 2 1 where
  names := !["b"]
  funs := ![
    ⟨xtfc, "xi_x", 1, 0, [
      ⟨fun a => (last xtfc.z - a) / (last xtfc.z - first xtfc.z), 0, first xtfc.z, fun _ => x0⟩,
      ⟨fun a => (a - first xtfc.z) / (last xtfc.z - first xtfc.z), 0, last xtfc.z, fun _ => xf⟩]⟩,
    ⟨utfc, "xi_u", 1, 0, []⟩]
  eqs := [
    ⟨xtfc.z, 3, ![(0, 1), (0, 0), (1, 0)], here, 1, fun _ J s _ => -s 0 ^ 2 * J 0 - alfa * J 1 - beta * J 2⟩,
    ⟨xtfc.z, 3, ![(1, 1), (0, 0), (1, 0)], here, 1, fun _ J s _ => -s 0 ^ 2 * J 0 - beta * J 1 + alfa * J 2⟩,
    ⟨xtfc.z, 2, ![(0, 0), (1, 0)], here, 1, fun _ J _ _ => 0.5 * J 0 ^ 2 - 0.5 * J 1 ^ 2 - alfa / beta * J 0 * J 1⟩]

/-- U 17–79; there `N` is 35, `m` 30, `x0` 0, `xf` 1, `alfa` and `beta` 1, and `tol` the machine epsilon. -/
noncomputable def runUnknownTime (lib : LinAlg) (N m : ℕ) (x0 xf alfa beta tol : ℝ) (w b w' b' : ℕ → ℝ) (fuel : ℕ) :
    Except Err (Option (View String × ℤ)) := do
  let xtfc ← utfcInit N (.int 2) m "CP" (some (-1)) (some 1) "C++" w b
  let utfc ← utfcInit N (.int 0) m "CP" (some (-1)) (some 1) "C++" w' b'
  let xi_x ← zerosOf xtfc xtfc.z 1
  let xi_u ← zerosOf utfc xtfc.z 1
  let z : View String := .dict .plain [entry1 "xi_x" xi_x, entry1 "xi_u" xi_u, entry1 "b" [1 * Real.sqrt 2]]
  solveSys lib .pinv tol 50 true (unkSys xtfc utfc x0 xf alfa beta) z fuel

/-- `Ham[i]`, U 89, 90. -/
noncomputable def unkHam (alfa beta X U : ℝ) : ℝ :=
  let int := 0.5 * (X ^ 2 + U ^ 2)
  int + -U / beta * (alfa * X + beta * U)

end Verif.Model.Py
