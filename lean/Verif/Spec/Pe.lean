import Mathlib.Data.List.Range

/-! # Freezing some of the arguments of a function -/

namespace Verif.Spec

/-- The entries of `l` at the positions not in `L`, in order. -/
def remaining {α : Type} (L : List ℕ) (l : List α) : List α :=
  ((List.range l.length).filter (· ∉ L)).filterMap (l[·]?)

end Verif.Spec
