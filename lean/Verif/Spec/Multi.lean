import Mathlib.Algebra.BigOperators.Fin
import Mathlib.Analysis.Calculus.Deriv.Basic
import Verif.Spec.Basis

/-!
# The multivariate bases as functions of the user's variables

A tensor-product basis function is chosen by a multi-index `α : Fin dim → ℕ`.
-/

namespace Verif.Spec

/-- The multi-index `α` is a basis function: total degree at most `m - 1`, and (unless all functions are wanted) at least one
coordinate is not listed in its dimension's row of `nC`. -/
def Admissible {dim : ℕ} (m : ℕ) (nC : Fin dim → List ℤ) (full : Bool) (α : Fin dim → ℕ) : Prop :=
  ∑ k, α k < m ∧ (full = true ∨ ∃ k, (α k : ℤ) ∉ nC k)

instance {dim : ℕ} (m : ℕ) (nC : Fin dim → List ℤ) (full : Bool) (α : Fin dim → ℕ) :
    Decidable (Admissible m nC full α) := by unfold Admissible; infer_instance

/-- The fixed order of the columns: the last coordinate decides, then the one before it, and so on. -/
def ColexLt {dim : ℕ} (α β : Fin dim → ℕ) : Prop := ∃ k, α k < β k ∧ ∀ l, k < l → α l = β l

/-- `L` is the list of the basis functions, each once, in the fixed order. At most one list has this property
(`Verif.IsColumnOrder.unique`). -/
structure IsColumnOrder {dim : ℕ} (m : ℕ) (nC : Fin dim → List ℤ) (full : Bool) (L : List (Fin dim → ℕ)) : Prop where
  mem : ∀ α, α ∈ L ↔ Admissible m nC full α
  nodup : L.Nodup
  sorted : L.Pairwise ColexLt

/-- All multi-indices with entries below `m`, last coordinate slowest. -/
def boxTuples (m : ℕ) : (dim : ℕ) → List (Fin dim → ℕ)
  | 0 => [Fin.elim0]
  | k + 1 => (List.range m).flatMap fun a => (boxTuples m k).map fun α => Fin.snoc α a

/-- The columns of a multivariate basis matrix (`Verif.multiColumns_order`: it is in the order `IsColumnOrder`). -/
def multiColumns {dim : ℕ} (m : ℕ) (nC : Fin dim → List ℤ) (full : Bool) : List (Fin dim → ℕ) :=
  (boxTuples m dim).filter fun α => Admissible m nC full α

/-- Derivative with respect to the `k`-th variable. -/
noncomputable def partialDeriv {dim : ℕ} (k : Fin dim) (f : (Fin dim → ℝ) → ℝ) (x : Fin dim → ℝ) : ℝ :=
  deriv (fun t => f (Function.update x k t)) (x k)

/-- The mixed partial derivative of order `d k` in the `k`-th variable. -/
noncomputable def mixedPartial {dim : ℕ} (d : Fin dim → ℕ) (f : (Fin dim → ℝ) → ℝ) : (Fin dim → ℝ) → ℝ :=
  (List.finRange dim).foldr (fun k g => (partialDeriv k)^[d k] g) f

/-- The three tensor-product families. -/
inductive NFamily
  | cp | lep | fs
  deriving DecidableEq, Repr

/-- The univariate class a tensor-product family is built from. -/
def NFamily.cls : NFamily → UniClass
  | .cp => .poly .cp
  | .lep => .poly .lep
  | .fs => .fs

/-- The tensor-product basis function of the multi-index `α`. -/
noncomputable def UniClass.tensor {dim : ℕ} (cls : UniClass) (x0 xf : Fin dim → ℝ) (α : Fin dim → ℕ)
    (x : Fin dim → ℝ) : ℝ := ∏ k, cls.basis (x0 k) (xf k) (α k) (x k)

/-- The `k`-th basis function of an n-dimensional ELM basis: the activation of the affine combination (weights `w · k`, bias
`b k`) of the coordinates mapped to `[0, 1]`. -/
noncomputable def nElmBasis {dim : ℕ} (a : Activation) (x0 xf : Fin dim → ℝ) (w : Fin dim → ℕ → ℝ) (b : ℕ → ℝ) (k : ℕ)
    (x : Fin dim → ℝ) : ℝ := act a (∑ i, w i k * toBasis (x0 i) (xf i) 0 1 (x i) + b k)

end Verif.Spec
