import Mathlib.Data.Int.Notation
import Mathlib.Tactic.Common

/-! # Python exceptions as values -/

namespace Verif.Py

/-- The ways in which a modelled Python function can stop without returning. `exit` is `TFCPrint.Error`, which prints a
message and calls `sys.exit()` (/repo/src/tfc/utils/TFCUtils.py 47–59). `crash` is a memory fault in compiled code called from
Python. `osError` is any exception of the file system, such as `FileNotFoundError`. -/
inductive Err
  | exit
  | attributeError
  | typeError
  | valueError
  | indexError
  | keyError
  | nameError
  | unboundLocal
  | assertion
  | crash
  | osError
  deriving DecidableEq, Repr

end Verif.Py
