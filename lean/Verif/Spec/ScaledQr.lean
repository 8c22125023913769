import Verif.Spec.LeastSquares
import Verif.Model.ScaledQr

/-!
# Singular values, condition numbers, and what the library functions promise

Vectors are functions of the index; a matrix is given by its numbers of rows and columns and its entries.
-/

namespace Verif.Spec

open Verif.Np Verif.Model.ScaledQr

/-- `M x`. -/
def times (M : Mat ℝ) (x : ℕ → ℝ) (i : ℕ) : ℝ := ∑ j ∈ Finset.range M.cols, M.at_ i j * x j

/-- `Mᵀ y`. -/
def timesT (M : Mat ℝ) (y : ℕ → ℝ) (j : ℕ) : ℝ := ∑ i ∈ Finset.range M.rows, M.at_ i j * y i

/-- `|x|²`, for the first `n` entries. -/
def sumSq (n : ℕ) (x : ℕ → ℝ) : ℝ := ∑ i ∈ Finset.range n, x i ^ 2

/-- The columns are linearly independent. -/
def FullColumnRank (A : Mat ℝ) : Prop := ∀ x, (∀ i < A.rows, times A x i = 0) → ∀ j < A.cols, x j = 0

/-- `A` with every column divided by its length. -/
noncomputable def unitColumns (A : Mat ℝ) : Mat ℝ :=
  ⟨A.rows, A.cols, fun i j => A.at_ i j / Real.sqrt (sumSq A.rows fun k => A.at_ k j)⟩

/-- `s` is the largest singular value: the largest value of `|M x| / |x|`. -/
def IsLargest (M : Mat ℝ) (s : ℝ) : Prop :=
  0 ≤ s ∧ (∀ x, sumSq M.rows (times M x) ≤ s ^ 2 * sumSq M.cols x) ∧
    ∃ x, sumSq M.cols x ≠ 0 ∧ sumSq M.rows (times M x) = s ^ 2 * sumSq M.cols x

/-- `s` is the smallest value of `|M x| / |x|`; for a matrix with at least as many rows as columns, the smallest singular value. -/
def IsSmallest (M : Mat ℝ) (s : ℝ) : Prop :=
  0 ≤ s ∧ (∀ x, s ^ 2 * sumSq M.cols x ≤ sumSq M.rows (times M x)) ∧
    ∃ x, sumSq M.cols x ≠ 0 ∧ sumSq M.rows (times M x) = s ^ 2 * sumSq M.cols x

/-- `c` is the condition number of a matrix with independent columns: the quotient of the largest and the smallest singular value. -/
def IsCondition (M : Mat ℝ) (c : ℝ) : Prop := ∃ s t, IsLargest M s ∧ IsSmallest M t ∧ c = s / t

/-- What is used of the reduced QR decomposition of a matrix with independent columns: `M = q r` with orthonormal columns of `q`. -/
structure ReducedQr (M q r : Mat ℝ) : Prop where
  q_rows : q.rows = M.rows
  q_cols : q.cols = M.cols
  r_rows : r.rows = M.cols
  r_cols : r.cols = M.cols
  product : ∀ i < M.rows, ∀ j < M.cols, ∑ k ∈ Finset.range M.cols, q.at_ i k * r.at_ k j = M.at_ i j
  orthonormal : ∀ j < M.cols, ∀ k < M.cols, ∑ i ∈ Finset.range M.rows, q.at_ i j * q.at_ i k = if j = k then 1 else 0

/-- `P` is the pseudo-inverse of `M` with cut-off `c`: for a right singular vector `v` with singular value `s` (that is, `MᵀM v = s² v`), the
vector `M v` is sent to `v` if `s` is larger than `c` times the largest singular value and to zero otherwise; what is orthogonal to all
columns of `M` is sent to zero. -/
structure CutPinv (M : Mat ℝ) (c : ℝ) (P : Mat ℝ) : Prop where
  rows : P.rows = M.cols
  cols : P.cols = M.rows
  large : ∀ s t v, IsLargest M t → 0 ≤ s → (∀ j < M.cols, timesT M (times M v) j = s ^ 2 * v j) → c * t < s →
    ∀ j < M.cols, times P (times M v) j = v j
  small : ∀ s t v, IsLargest M t → 0 ≤ s → (∀ j < M.cols, timesT M (times M v) j = s ^ 2 * v j) → s ≤ c * t →
    ∀ j < M.cols, times P (times M v) j = 0
  kernel : ∀ w, (∀ j < M.cols, timesT M w j = 0) → ∀ j < M.cols, times P w j = 0

/-- The contracts of the library functions in exact arithmetic. Of `spacing` nothing is used but its sign. -/
structure ScaledLib (lib : Lib) : Prop where
  qr : ∀ M, FullColumnRank M → ReducedQr M (lib.qr M).1 (lib.qr M).2
  pinv : ∀ M c, 0 ≤ c → CutPinv M c (lib.pinv M c)
  cond : ∀ M, 0 < M.cols → FullColumnRank M → IsCondition M (lib.cond M)
  norm2 : ∀ M, 0 < M.cols → IsLargest M (lib.norm2 M)
  spacing : ∀ x, 0 ≤ x → 0 < lib.spacing x

end Verif.Spec
