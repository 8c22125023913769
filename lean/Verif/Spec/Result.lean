import Verif.Mem
import Verif.Spec.Columns
import Verif.Np

/-!
# What it means that a call returned a given matrix

The columns are labelled by `cols` (function numbers, or multi-indices). The compiled code returns `(nOut, mOut, block)`; the block is row-major. The Python code returns a numpy array.
-/

namespace Verif.Spec

open Verif.Mem Verif.Py Verif.Np

/-- The call returned normally (no memory fault, no exception), announcing `n` rows and `cols.length` columns, in a block of exactly
`n * cols.length` cells, all written; the entry in row `j` and column `i` is `V j cols[i]`. -/
def ReturnsMatrix {K ι ε : Type} (r : Except ε (ℕ × ℕ × Buf K)) (n : ℕ) (cols : List ι)
    (V : ℕ → ι → K) : Prop :=
  ∃ F : Buf K, r = .ok (n, cols.length, F) ∧ F.size = n * cols.length ∧
    ∀ j < n, ∀ i, ∀ hi : i < cols.length, F.cell (cols.length * j + i) = some (V j cols[i])

/-- The same for the XLA entry point, which fills a given block. -/
def FillsMatrix {K ι : Type} (r : Except Fault (Buf K)) (n : ℕ) (cols : List ι)
    (V : ℕ → ι → K) : Prop :=
  ∃ F : Buf K, r = .ok F ∧ F.size = n * cols.length ∧
    ∀ j < n, ∀ i, ∀ hi : i < cols.length, F.cell (cols.length * j + i) = some (V j cols[i])

/-- A Python call returned normally (no exception) an array with `n` rows and `cols.length` columns whose entry in row `j`
and column `i` is `V j cols[i]`. -/
def ReturnsArray {K ι : Type} (r : Except Err (Mat K)) (n : ℕ) (cols : List ι) (V : ℕ → ι → K) : Prop :=
  ∃ A : Mat K, r = .ok A ∧ A.rows = n ∧ A.cols = cols.length ∧
    ∀ j < n, ∀ i, ∀ hi : i < cols.length, A.at_ j i = V j cols[i]

end Verif.Spec
