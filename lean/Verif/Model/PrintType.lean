import Verif.Model.Printer

/-!
# Model of `print_type` and of the construction of a `TfcPrinter`: /repo/src/tfc/utils/CeSolver.py 76–99, 372–382

The tables `_kf` and `_kc` belong to sympy's class `PythonCodePrinter`: `self._kf[k] = …` changes them for the whole program. Likewise
`init_printing` sets one mode for the whole program. A string is the list of its characters.
-/

namespace Verif.Model.Printer

open Verif.Py

/-- How sympy shows expressions: the last call of `init_printing`. CeSolver.py 87, 89, 91, 95. -/
inductive Shown
  | start | tfc | str | pretty | latex
  deriving DecidableEq

/-- What print types can change: the two tables of the class, the mode, and the attribute `_print_type` of the `CeSolver` objects. CeSolver.py 65–99, 373–382. -/
structure World where
  kf : List (List Char × List Char)
  kc : List (List Char × List Char)
  shown : Shown := .start
  types : List (Option (List Char)) := []

/-- One loop of `TfcPrinter.__init__` over a table, CeSolver.py 375–377 and 378–380. -/
def switchTable (t : List (List Char × List Char)) : List (List Char × List Char) :=
  t.map fun kv => if "math".toList <:+: kv.2 then (kv.1, replace "math".toList "np".toList kv.2) else kv

/-- `TfcPrinter()`, CeSolver.py 373–382. -/
def tfcPrinter (w : World) : World := { w with kf := switchTable w.kf, kc := switchTable w.kc }

/-- `CeSolver(...)`, CeSolver.py 65–74: the constructor does not set `_print_type`. -/
def newSolver (w : World) : World := { w with types := w.types ++ [none] }

/-- The property `print_type` of object `i`, CeSolver.py 76–78. -/
def getPrintType (w : World) (i : ℕ) : Except Err (List Char) :=
  match w.types[i]? with
  | some (some t) => .ok t
  | some none => .error .attributeError
  | none => .error .nameError

/-- The setter of `print_type` of object `i`, CeSolver.py 80–99. `TFCPrint.Error` ends the program (TFCUtils.py 47–59), after the assignment. -/
def setPrintType (w : World) (i : ℕ) (t : List Char) : Except Err Unit × World :=
  let w := { w with types := w.types.set i (some t) }
  if t = "tfc".toList then
    let w := tfcPrinter w
    (.ok (), { w with shown := .tfc })
  else if t = "str".toList then (.ok (), { w with shown := .str })
  else if t = "pretty".toList then (.ok (), { w with shown := .pretty })
  else if t = "latex".toList then (.ok (), { w with shown := .latex })
  else (.error .exit, w)

/-- What a program does: a new object, an assignment to `print_type`, a `TfcPrinter` of its own. An exit is caught by an interactive session.
CeSolver.py 65, 81; docs/notebooks/CeSolver.ipynb 301–302. -/
inductive PrintOp
  | new | set (i : ℕ) (t : List Char) | printer

/-- One step of a program. CeSolver.py 65–99, 372–382. -/
def printStep (w : World) : PrintOp → World
  | .new => newSolver w
  | .set i t => (setPrintType w i t).2
  | .printer => tfcPrinter w

end Verif.Model.Printer
