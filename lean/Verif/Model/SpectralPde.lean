import Verif.Model.PdeExample

/-!
# Model of /repo/examples/Carl_Leake_Dissertation/Chapter_3/Example_3_2_spectral_method.py

The program solves Poisson's equation without a constrained expression: the boundary conditions are further rows of the least-squares
problem. D is /repo/examples/Carl_Leake_Dissertation. The table of errors (lines 71–85) is not modelled.
-/

namespace Verif.Model.Py

open Verif.Py Verif.Np Verif.Model.LSq Verif.Model.Prog

/-- `u = lambda xi,*x: np.dot(H(*x),xi)`: an expression without conditions. D/Chapter_3/Example_3_2_spectral_method.py 49. -/
def noExpr : TwoStep := ⟨[], []⟩

open Classical in
/-- `np.where(X==v)[0]`. D/Chapter_3/Example_3_2_spectral_method.py 40–43. -/
noncomputable def whereEq (X : List ℝ) (v : ℝ) : List ℕ := (List.range X.length).filter fun j => X.getD j 0 = v

/-- `X[ind]` for an array of indices. D/Chapter_3/Example_3_2_spectral_method.py 58–66. -/
def take (X : List ℝ) (ind : List ℕ) : List ℝ := ind.map fun j => X.getD j 0

/-- `H(x[0][ind],x[1][ind])`. D/Chapter_3/Example_3_2_spectral_method.py 58–61. -/
noncomputable def sideH (u : Mtfc) (ind : List ℕ) : Except Err (Mat ℝ) :=
  u.Hjax ind.length (points2 (fun j => (take (u.x.getD 0 []) ind).getD j 0) fun j => (take (u.x.getD 1 []) ind).getD j 0) [0, 0] false

/-- `np.vstack` of two matrices. D/Chapter_3/Example_3_2_spectral_method.py 57–61. -/
def vstack (A B : Mat ℝ) : Except Err (Mat ℝ) :=
  if A.cols = B.cols then .ok ⟨A.rows + B.rows, A.cols, fun i j => if i < A.rows then A.at_ i j else B.at_ (i - A.rows) j⟩
  else .error .typeError

/-- Lines 35–69 of D/Chapter_3/Example_3_2_spectral_method.py for the object `u` with `n` points in each dimension: `none` where the program
notes `nan` and goes on, `some xi` otherwise. -/
noncomputable def solveSpectral (lib : LinAlg) (n : ℕ) (u : Mtfc) : Except Err (Option (List ℝ)) :=
  if u.obj.numBasis false > (n : ℤ) ^ 2 then .ok none
  else do
    let X := u.x.getD 0 []
    let Y := u.x.getD 1 []
    let x0ind := whereEq X 0
    let xfind := whereEq X 1
    let y0ind := whereEq Y 0
    let yfind := whereEq Y 1
    let zXi := List.replicate (u.obj.numBasis false).toNat 0
    let r ← eqRes u noExpr poiEq X Y zXi
    let A0 ← jacobian (eqResidual u noExpr poiEq) [.arr zXi, .arr X, .arr Y]
    let A1 ← sideH u x0ind
    let A2 ← sideH u xfind
    let A3 ← sideH u y0ind
    let A4 ← sideH u yfind
    let A ← vstack A0 A1
    let A ← vstack A A2
    let A ← vstack A A3
    let A ← vstack A A4
    let B := r.map (- ·) ++ (take Y x0ind).map (fun y => y ^ 3) ++ (take Y xfind).map (fun y => (1 + y ^ 3) * Real.exp (-1)) ++
      (take X y0ind).map (fun x => x * Real.exp (-x)) ++ (take X yfind).map fun x => (x + 1) * Real.exp (-x)
    let xi ← dot (lib.pinv A) B
    return some xi

end Verif.Model.Py
