import Verif.Py
import Mathlib.Data.List.Range
import Mathlib.Algebra.Group.Defs

/-!
# Two-dimensional numpy arrays as functions

An `n × c` array is its shape together with the entries; entries outside the shape are irrelevant. These are the numpy
operations used by /repo/src/tfc/utils/BF_Py.py, with numpy's documented behaviour. Errors are values.
-/

namespace Verif.Np

open Verif.Py

/-- A two-dimensional array. numpy; the arrays of BF_Py.py 124–866. -/
structure Mat (K : Type) where
  rows : ℕ
  cols : ℕ
  at_ : ℕ → ℕ → K

namespace Mat

variable {K : Type}

/-- The `(n,1)` array of a vector (`np.expand_dims(z, 1)`). -/
def column (n : ℕ) (v : ℕ → K) : Mat K := ⟨n, 1, fun i _ => v i⟩

/-- Elementwise function of one array. numpy; used throughout BF_Py.py 124–866. -/
def map {L : Type} (f : K → L) (A : Mat K) : Mat L := ⟨A.rows, A.cols, fun i j => f (A.at_ i j)⟩

/-- `np.zeros((n, c))`; a negative dimension is a `ValueError`. numpy; used throughout BF_Py.py 151–590. -/
def zeros [Zero K] (n : ℕ) (c : ℤ) : Except Err (Mat K) :=
  if c < 0 then .error .valueError else .ok ⟨n, c.toNat, fun _ _ => 0⟩

/-- `np.hstack((A, B))`; different numbers of rows are a `ValueError`. numpy; used throughout BF_Py.py 151–590. -/
def hstack (A B : Mat K) : Except Err (Mat K) :=
  if A.rows = B.rows then
    .ok ⟨A.rows, A.cols + B.cols, fun i j => if j < A.cols then A.at_ i j else B.at_ i (j - A.cols)⟩
  else .error .valueError

/-- `A[:, k:k+1] = v` (also `A[:, k] = v`) for an existing column `k`. -/
def setCol (A : Mat K) (k : ℕ) (v : ℕ → K) : Mat K :=
  { A with at_ := fun i j => if j = k then v i else A.at_ i j }

/-- The columns `np.delete(A, idx, axis=1)` keeps: negative indices count from the end, repetitions do not matter. -/
def keptByDelete (c : ℕ) (idx : List ℤ) : List ℕ :=
  (List.range c).filter fun j => (j : ℤ) ∉ idx ∧ (j : ℤ) - c ∉ idx

/-- `np.delete(A, idx, axis=1)`; an index outside `-c … c-1` is an `IndexError`. -/
def delete [Inhabited K] (A : Mat K) (idx : List ℤ) : Except Err (Mat K) :=
  if idx.all (fun r => -(A.cols : ℤ) ≤ r ∧ r < A.cols) then
    .ok ⟨A.rows, (keptByDelete A.cols idx).length, fun i j =>
      match (keptByDelete A.cols idx)[j]? with
      | some k => A.at_ i k
      | none => default⟩
  else .error .indexError

end Mat

/-- `for k in range(lo, hi)` over a state. Python `for`; used throughout BF_Py.py 151–590. -/
def pfor {σ : Type} (lo hi : ℕ) (body : ℕ → σ → σ) (s : σ) : σ :=
  (List.range' lo (hi - lo)).foldl (fun s k => body k s) s

end Verif.Np
