import Mathlib.Data.List.Basic

/-! # Model of `TFCPrint` and of the progress line of `NLLS`: /repo/src/tfc/utils/TFCUtils.py 35–72, 1046–1047

The standard output is the list of characters written to it; `colorama` passes them on unchanged (terminals other than the Windows console). -/

namespace Verif.Model.Print

/-- `colorama.Fore.RED`. /repo/src/tfc/utils/TFCUtils.py 57. -/
def foreRed : List Char := ['\x1b', '[', '3', '1', 'm']

/-- `colorama.Fore.YELLOW`. /repo/src/tfc/utils/TFCUtils.py 71. -/
def foreYellow : List Char := ['\x1b', '[', '3', '3', 'm']

/-- `colorama.Style.BRIGHT`. /repo/src/tfc/utils/TFCUtils.py 57, 71. -/
def styleBright : List Char := ['\x1b', '[', '1', 'm']

/-- `colorama.Style.RESET_ALL`. /repo/src/tfc/utils/TFCUtils.py 58, 72. -/
def resetAll : List Char := ['\x1b', '[', '0', 'm']

/-- `print(s, end=end)`: what it writes. /repo/src/tfc/utils/TFCUtils.py 57, 58. -/
def print (s ending : List Char) : List Char := s ++ ending

/-- How a call ends: it returns, or raises `SystemExit(code)`. /repo/src/tfc/utils/TFCUtils.py 59. -/
inductive Ending
  | returned
  | systemExit (code : Option ℕ)
  deriving DecidableEq

/-- `TFCPrint.Error`: the characters written and how it ends; `sys.exit()` has no argument. /repo/src/tfc/utils/TFCUtils.py 46–59. -/
def error (s : List Char) : List Char × Ending :=
  (print (foreRed ++ styleBright ++ s) ['\n'] ++ print resetAll [], .systemExit none)

/-- `TFCPrint.Warning`. /repo/src/tfc/utils/TFCUtils.py 61–72. -/
def warning (s : List Char) : List Char × Ending :=
  (print (foreYellow ++ styleBright ++ s) ['\n'] ++ print resetAll [], .returned)

/-- `nlls_id_print`; the number and the residual are given as Python formats them. /repo/src/tfc/utils/TFCUtils.py 1046–1047. -/
def idPrint (it x ending : List Char) : List Char :=
  print ("Iteration: ".toList ++ it ++ "\tmax(abs(res)): ".toList ++ x) ending

end Verif.Model.Print
