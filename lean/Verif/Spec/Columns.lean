import Mathlib.Data.List.Range
import Mathlib.Data.Int.Notation
import Mathlib.Tactic.Common

/-!
# Which columns a basis matrix is meant to have

`nC` lists the basis functions to remove; the remaining ones are kept in increasing order.
-/

namespace Verif.Spec

/-- The indices `0 ≤ j < m` not listed in `nC`, in increasing order. -/
def keptColumns (m : ℕ) (nC : List ℤ) : List ℕ := (List.range m).filter (fun j => (j : ℤ) ∉ nC)

/-- The columns of a call with the flag `full`. -/
def outColumns (m : ℕ) (nC : List ℤ) (full : Bool) : List ℕ :=
  if full then List.range m else keptColumns m nC

/-- `nC` names distinct existing basis functions. -/
def ValidRemoval (m : ℕ) (nC : List ℤ) : Prop := nC.Nodup ∧ ∀ r ∈ nC, 0 ≤ r ∧ r < (m : ℤ)

end Verif.Spec
