import Verif.Py
import Mathlib.Data.List.Range
import Mathlib.Algebra.Order.Ring.Int

/-! # Model of the argument handling of `utfc.__init__`: /repo/src/tfc/utfc.py lines 92–109 -/

namespace Verif.Model.Py

open Verif.Py

/-- The types of `nC` distinguished by `isinstance` (utfc.py 98–103). -/
inductive NCArg
  | int (k : ℤ)
  | jaxArray (l : List ℤ)
  | list (l : List ℤ)
  | other
  deriving DecidableEq, Repr

/-- `numpy.arange(k, dtype=int32)` for an integer `k`: empty when `k ≤ 0`. -/
def arange (k : ℤ) : List ℤ := (List.range k.toNat).map Int.ofNat

/-- The removed-function handling of `utfc.__init__`, utfc.py 98–109; the result is `self.nC`. An argument of another type
leaves `self.nC` unset, so line 104 raises `AttributeError`. Integer overflow of `int32` is not modelled. -/
def utfcNC (deg : ℕ) (nC : NCArg) : Except Err (List ℤ) := do
  let l ← match nC with
    | .int k => .ok (arange k)
    | .jaxArray l => .ok l
    | .list l => .ok l
    | .other => .error .attributeError
  if l.length > deg then .error .exit
  else if l.any (· < 0) then .error .exit
  else .ok l

end Verif.Model.Py
