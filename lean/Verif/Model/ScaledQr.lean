import Verif.Np
import Mathlib.Analysis.Real.Sqrt
import Mathlib.Algebra.BigOperators.Group.Finset.Basic

/-!
# Model of `ScaledQrLs` and `_MatPinv`: /repo/src/tfc/utils/TFCUtils.py 1687–1728

Entries are real numbers (division by the norm of a zero column, in floating point `inf`, is here 0). The library functions are parameters;
their contracts are in Verif/Spec/ScaledQr.lean.
-/

namespace Verif.Model.ScaledQr

open Verif.Py Verif.Np

/-- The library functions. Called at TFCUtils.py 1708–1710, 1727–1728. -/
structure Lib where
  /-- `np.linalg.qr(M)` (mode `reduced`). -/
  qr : Mat ℝ → Mat ℝ × Mat ℝ
  /-- `np.linalg.pinv(M, rcond=c)`. -/
  pinv : Mat ℝ → ℝ → Mat ℝ
  /-- `np.linalg.cond(M)`. -/
  cond : Mat ℝ → ℝ
  /-- `np.linalg.norm(M, ord=2)`. -/
  norm2 : Mat ℝ → ℝ
  /-- `onp.spacing(x)`. -/
  spacing : ℝ → ℝ

/-- An array with one or two axes. The argument `B`, TFCUtils.py 1687. -/
inductive Arr
  | d1 (l : List ℝ)
  | d2 (M : Mat ℝ)

/-- `M.T`. TFCUtils.py 1709. -/
def transpose (M : Mat ℝ) : Mat ℝ := ⟨M.cols, M.rows, fun i j => M.at_ j i⟩

/-- `M.dot(N)` for two axes each. TFCUtils.py 1708–1709. -/
def mul (M N : Mat ℝ) : Except Err (Mat ℝ) :=
  if M.cols = N.rows then .ok ⟨M.rows, N.cols, fun i j => ∑ k ∈ Finset.range M.cols, M.at_ i k * N.at_ k j⟩ else .error .typeError

/-- `M.dot(v)` for one axis. TFCUtils.py 1709. -/
def mulVec (M : Mat ℝ) (v : List ℝ) : Except Err (List ℝ) :=
  if M.cols = v.length then .ok ((List.range M.rows).map fun i => ∑ k ∈ Finset.range M.cols, M.at_ i k * v.getD k 0)
  else .error .typeError

/-- `np.diag(S)`. TFCUtils.py 1708. -/
def diag (m : ℕ) (S : ℕ → ℝ) : Mat ℝ := ⟨m, m, fun i j => if i = j then S i else 0⟩

/-- `np.linalg.multi_dot([P, Q, B])`: the product does not depend on the order of evaluation; computed from the right.
TFCUtils.py 1709. -/
def multiDot (P Q : Mat ℝ) : Arr → Except Err Arr
  | .d1 b => do
    let y ← mulVec Q b
    let z ← mulVec P y
    .ok (.d1 z)
  | .d2 B => do
    let Y ← mul Q B
    let Z ← mul P Y
    .ok (.d2 Z)

/-- `S * y` for `S` of shape `(m,)` and `y` of shape `(k,)`, with broadcasting. TFCUtils.py 1709. -/
def scaleList (m : ℕ) (S : ℕ → ℝ) (y : List ℝ) : Except Err Arr :=
  if y.length = m then .ok (.d1 ((List.range m).map fun j => S j * y.getD j 0))
  else if y.length = 1 then .ok (.d1 ((List.range m).map fun j => S j * y.getD 0 0))
  else if m = 1 then .ok (.d1 (y.map fun t => S 0 * t))
  else .error .typeError

/-- `S * Y` for `S` of shape `(m,)` and `Y` of shape `(k, c)`, with broadcasting: `S` is repeated along the first axis.
TFCUtils.py 1709. -/
def scaleMat (m : ℕ) (S : ℕ → ℝ) (Y : Mat ℝ) : Except Err Arr :=
  if Y.cols = m then .ok (.d2 ⟨Y.rows, m, fun i j => S j * Y.at_ i j⟩)
  else if Y.cols = 1 then .ok (.d2 ⟨Y.rows, m, fun i j => S j * Y.at_ i 0⟩)
  else if m = 1 then .ok (.d2 ⟨Y.rows, Y.cols, fun i j => S 0 * Y.at_ i j⟩)
  else .error .typeError

/-- `S * y`. TFCUtils.py 1709. -/
def scale (m : ℕ) (S : ℕ → ℝ) : Arr → Except Err Arr
  | .d1 y => scaleList m S y
  | .d2 Y => scaleMat m S Y

/-- `1.0 / np.sqrt(np.sum(A * A, 0))`, TFCUtils.py 1706–1707. -/
noncomputable def colScale (A : Mat ℝ) (j : ℕ) : ℝ := 1 / Real.sqrt (∑ i ∈ Finset.range A.rows, A.at_ i j * A.at_ i j)

/-- `_MatPinv`, TFCUtils.py 1714–1728. -/
def matPinv (lib : Lib) (A : Mat ℝ) : Mat ℝ := lib.pinv A ((max A.rows A.cols : ℕ) * lib.spacing (lib.norm2 A))

/-- `ScaledQrLs`, TFCUtils.py 1687–1711. -/
noncomputable def scaledQrLs (lib : Lib) (A : Mat ℝ) (B : Arr) : Except Err (Arr × ℝ) := do
  let M ← mul A (diag A.cols (colScale A))
  let y ← multiDot (matPinv lib (lib.qr M).2) (transpose (lib.qr M).1) B
  let x ← scale A.cols (colScale A) y
  .ok (x, lib.cond (lib.qr M).2)

end Verif.Model.ScaledQr
