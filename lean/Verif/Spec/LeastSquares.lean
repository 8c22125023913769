import Verif.Model.LeastSquares
import Mathlib.Data.Matrix.Mul
import Mathlib.LinearAlgebra.Matrix.ConjTranspose

/-! # Least squares: what the words mean -/

namespace Verif.Spec

open Verif.Np Verif.Model.Dict Verif.Model.LSq

variable {Key : Type}

/-- All entries of an argument, in order. -/
def entries : View Key → List ℝ
  | .arr l => l
  | .dict _ kvs => (kvs.map (·.2.data)).flatten

/-- Two arguments of the same form: arrays of the same length, or dictionaries of the same class with the same keys and shapes. -/
def SameForm : View Key → View Key → Prop
  | .arr l, .arr l' => l.length = l'.length
  | .dict c kvs, .dict c' kvs' =>
    c = c' ∧ kvs.map (fun p => (p.1, p.2.shape, p.2.data.length)) = kvs'.map fun p => (p.1, p.2.shape, p.2.data.length)
  | _, _ => False

/-- A non-empty array, or a non-empty dictionary with distinct keys: one-dimensional arrays in a TFCDict, arrays whose shape fits
the number of entries in a TFCDictRobust. -/
def ProperUnknowns : View Key → Prop
  | .arr _ => True
  | .dict cls kvs => kvs ≠ [] ∧ (kvs.map (·.1)).Nodup ∧
    ∀ p ∈ kvs, if cls = .plain then p.2.shape = [p.2.data.length] else p.2.shape.prod = p.2.data.length

/-- The sum of the squares of the entries. -/
def normSq (l : List ℝ) : ℝ := (l.map (· ^ 2)).sum

/-- The residual is the affine function `A x + b` of the entries `x` of the unknowns, with `N` components. -/
def AffineIn (res : Residual Key) (z : View Key) (args : List (View Key)) (N : ℕ) (A : ℕ → ℕ → ℝ) (b : ℕ → ℝ) : Prop :=
  ∀ v, SameForm z v → res (v :: args) = (List.range N).map fun i =>
    (∑ j ∈ Finset.range (entries v).length, A i j * (entries v).getD j 0) + b i

/-- No choice of the unknowns gives a residual of smaller norm. -/
def IsLeastSquares (res : Residual Key) (z : View Key) (args : List (View Key)) (x : View Key) : Prop :=
  SameForm z x ∧ ∀ y, SameForm z y → normSq (res (x :: args)) ≤ normSq (res (y :: args))

/-- The dictionary with the entries replaced by those of `l`, in order. -/
def refillDict : List (Key × Arr ℝ) → List ℝ → List (Key × Arr ℝ)
  | [], _ => []
  | p :: kvs, l => (p.1, ⟨p.2.shape, l.take p.2.data.length⟩) :: refillDict kvs (l.drop p.2.data.length)

/-- The unknowns with the entries replaced by those of `l`, in order. -/
def refill : View Key → List ℝ → View Key
  | .arr _, l => .arr l
  | .dict cls kvs, l => .dict cls (refillDict kvs l)

/-- The partial derivative of component `i` of the residual by entry `j` of the unknowns, at `v`. -/
noncomputable def resPartial (res : Residual Key) (args : List (View Key)) (v : View Key) (i j : ℕ) : ℝ :=
  deriv (fun t => (res (refill v ((entries v).modify j (· + t)) :: args)).getD i 0) 0

/-- The `m × n` corner of an infinite matrix. -/
def corner (m n : ℕ) (a : ℕ → ℕ → ℝ) : Matrix (Fin m) (Fin n) ℝ := Matrix.of fun i j => a i j

/-- The four equations of Penrose. -/
structure MoorePenrose {m n : ℕ} (A : Matrix (Fin m) (Fin n) ℝ) (P : Matrix (Fin n) (Fin m) ℝ) : Prop where
  apa : A * P * A = A
  pap : P * A * P = P
  ap : (A * P).transpose = A * P
  pa : (P * A).transpose = P * A

/-- `‖A x - c‖²`. -/
def missSq (m n : ℕ) (A : ℕ → ℕ → ℝ) (x c : ℕ → ℝ) : ℝ :=
  ∑ i ∈ Finset.range m, ((∑ j ∈ Finset.range n, A i j * x j) - c i) ^ 2

/-- The entries of a list as a function. -/
def vec (l : List ℝ) : ℕ → ℝ := fun j => l.getD j 0

/-- `x` is the solution of least norm of the least-squares problem `A x ≈ c`. -/
structure LeastNormSolution (m n : ℕ) (A : ℕ → ℕ → ℝ) (c x : List ℝ) : Prop where
  length : x.length = n
  min : ∀ y, missSq m n A (vec x) (vec c) ≤ missSq m n A y (vec c)
  norm : ∀ y : List ℝ, y.length = n → missSq m n A (vec y) (vec c) ≤ missSq m n A (vec x) (vec c) → normSq x ≤ normSq y

/-- The contracts of `np.linalg.pinv` (the Moore–Penrose inverse) and `np.linalg.lstsq` (the solution of least norm of the least-squares
problem), in exact arithmetic. -/
structure LinAlgCorrect (lib : LinAlg) : Prop where
  pinv_rows : ∀ J : Mat ℝ, (lib.pinv J).rows = J.cols
  pinv_cols : ∀ J : Mat ℝ, (lib.pinv J).cols = J.rows
  pinv : ∀ J : Mat ℝ, MoorePenrose (corner J.rows J.cols J.at_) (corner J.cols J.rows (lib.pinv J).at_)
  lstsq_length : ∀ (J : Mat ℝ) (c : List ℝ), c.length = J.rows → (lib.lstsq J c).length = J.cols
  lstsq_min : ∀ (J : Mat ℝ) (c : List ℝ), c.length = J.rows → ∀ y,
    missSq J.rows J.cols J.at_ (vec (lib.lstsq J c)) (vec c) ≤ missSq J.rows J.cols J.at_ y (vec c)
  lstsq_norm : ∀ (J : Mat ℝ) (c : List ℝ), c.length = J.rows → ∀ y : List ℝ, y.length = J.cols →
    missSq J.rows J.cols J.at_ (vec y) (vec c) ≤ missSq J.rows J.cols J.at_ (vec (lib.lstsq J c)) (vec c) →
    normSq (lib.lstsq J c) ≤ normSq y

/-- All entries are at most `tol` in absolute value. -/
def Within (tol : ℝ) (l : List ℝ) : Prop := ∀ x ∈ l, |x| ≤ tol

/-- One Gauss–Newton step from `v` to `v'`: the linearised residual `res(v) - J(v) dx` is minimised (with the shortest such `dx`) and `dx`
is subtracted. -/
structure GaussNewtonStep (res : Residual Key) (args : List (View Key)) (v : View Key) (dx : List ℝ) (v' : View Key) : Prop where
  solves : LeastNormSolution (res (v :: args)).length (entries v).length (resPartial res args v) (res (v :: args)) dx
  next : v' = refill v (List.zipWith (· - ·) (entries v) dx)

end Verif.Spec
