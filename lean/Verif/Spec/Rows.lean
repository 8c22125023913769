import Verif.Np

/-! # Row-by-row evaluation -/

namespace Verif.Spec

open Verif.Py Verif.Np

/-- `H` evaluates point by point: for every array of `n` points (with property `ok`) and every choice `p` of `n'` positions in
it (one point, a part, a permutation, repetitions, …) both calls return, with `n` and `n'` rows and the same columns, and row
`j` of the second matrix is row `p j` of the first. -/
def RowByRow {P : Type} (H : ℕ → (ℕ → P) → Except Err (Mat ℝ)) (ok : P → Prop) : Prop :=
  ∀ (n : ℕ) (xs : ℕ → P) (n' : ℕ) (p : ℕ → ℕ), (∀ j < n, ok (xs j)) → (∀ j < n', p j < n) →
    ∃ A B, H n xs = .ok A ∧ H n' (fun j => xs (p j)) = .ok B ∧ A.rows = n ∧ B.rows = n' ∧ B.cols = A.cols ∧
      ∀ j < n', ∀ i < A.cols, B.at_ j i = A.at_ (p j) i

end Verif.Spec
