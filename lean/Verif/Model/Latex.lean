import Verif.Py
import Mathlib.Data.List.Basic

/-!
# Model of `table`: /repo/src/tfc/utils/Latex.py

A Python string is the list of its characters. `fmt` is `lambda x: form % x`. `np.array2string` follows numpy's source
(numpy/_core/arrayprint.py, `_array2string`, `_formatArray`, `_extendLine`) for one-dimensional arrays of floats with the default
print options: line width 75, threshold 1000, three edge items; formatted entries contain no line break. Integer arrays, to which numpy does not apply the
`float_kind` formatter, are not modelled.
-/

namespace Verif.Model.Latex

open Verif.Py

/-- Python strings (no code of their own): the texts of Latex.py 10–173. -/
abbrev Str := List Char

variable {K : Type}

/-- The argument `arrIn`: one-dimensional, or two-dimensional with its number of columns and its rows. Latex.py 43, 69, 82. -/
inductive Arr (K : Type)
  | d1 (l : List K)
  | d2 (m : ℕ) (rows : List (List K))

/-- Characters removed by `str.rstrip()`. Used at Latex.py 95 and inside `np.array2string`, called at 72. -/
def isSpace (c : Char) : Bool := c == ' ' || c == '\n' || c == '\t' || c == '\r'

/-- `s.rstrip()`. Used at Latex.py 95 and inside `np.array2string`, called at 72. -/
def rstrip (s : Str) : Str := (s.reverse.dropWhile isSpace).reverse

/-- Characters removed by `strip("[]")`. Latex.py 74, 79, 88, 93. -/
def isBracket (c : Char) : Bool := c == '[' || c == ']'

/-- `s.strip("[]")`. Latex.py 74, 79, 88, 93. -/
def stripBrackets (s : Str) : Str := ((s.dropWhile isBracket).reverse.dropWhile isBracket).reverse

/-- `" & "`. Latex.py 40, 73, 85, 87. -/
def sep : Str := [' ', '&', ' ']

/-- numpy's `_extendLine`: the word starts a new line if it does not fit and the line is not empty. The width up to the separator is 75 - 2. -/
def extendLine (s line word : Str) : Str × Str :=
  if 73 < line.length + word.length ∧ 1 < line.length then (s ++ rstrip line ++ ['\n'], [' '] ++ word) else (s, line ++ word)

/-- The loops of numpy's `_formatArray` over the words of the last axis.
Inside `np.array2string`, called at Latex.py 72, 77, 86, 91. -/
def joinWords (s line : Str) : List Str → Str
  | [] => s ++ line
  | [w] => (extendLine s line w).1 ++ (extendLine s line w).2
  | w :: ws => joinWords (extendLine s line w).1 ((extendLine s line w).2 ++ sep) ws

/-- The words shown by numpy: all of up to 1000 entries, else three at each end. -/
def shown (ws : List Str) : List Str :=
  if 1000 < ws.length then ws.take 3 ++ [['.', '.', '.']] ++ ws.drop (ws.length - 3) else ws

/-- `np.array2string(row, separator=" & ", formatter=…)`. -/
def array2string (fmt : K → Str) (row : List K) : Str :=
  if row.length = 0 then ['[', ']'] else ['['] ++ (joinWords [] [' '] (shown (row.map fmt))).drop 1 ++ [']']

/-- `"\\begin{center}\n\\begin{tabular}{"`. Latex.py 23. -/
def headerStart : Str :=
  ['\\', 'b', 'e', 'g', 'i', 'n', '{', 'c', 'e', 'n', 't', 'e', 'r', '}', '\n', '\\', 'b', 'e', 'g', 'i', 'n', '{', 't', 'a', 'b', 'u', 'l', 'a', 'r', '}', '{']

/-- `table._Header`, Latex.py 10–23. -/
def header (numCols : ℕ) : Str :=
  headerStart ++ (List.replicate numCols ['|', 'c']).flatten ++ ['|', '}', '\n']

/-- `table._colHeader`, Latex.py 26–40. -/
def colHeader (strIn : List Str) : Str := sep.intercalate strIn ++ ['\\', '\\', '\n']

/-- `"\\hline\n"`. Latex.py 75, 89. -/
def hline : Str := ['\\', 'h', 'l', 'i', 'n', 'e', '\n']

/-- The loop over the rows without row headers, Latex.py 71–75. -/
def rowsPlain (fmt : K → Str) (out : Str) : List (List K) → Str
  | [] => out
  | r :: rows => rowsPlain fmt (out ++ stripBrackets (array2string fmt r) ++ ['\\', '\\', '\n'] ++ hline) rows

/-- The loop over the rows with row headers, Latex.py 84–89, from row `k` on: `rowHeader[k]` may not exist. -/
def rowsHeaded (fmt : K → Str) (rowHeader : List Str) (out : Str) : ℕ → List (List K) → Except Err Str
  | _, [] => .ok out
  | k, r :: rows =>
    match rowHeader[k]? with
    | none => .error .indexError
    | some h => rowsHeaded fmt rowHeader (out ++ h ++ sep ++ stripBrackets (array2string fmt r) ++ ['\\', '\\', '\n'] ++ hline) (k + 1) rows

/-- `table._Arr2Tab`, Latex.py 43–95. In the one-dimensional branches `k` has no value. -/
def arr2Tab (fmt : K → Str) (rowHeader : Option (List Str)) : Arr K → Except Err Str
  | .d1 _ => .error .unboundLocal
  | .d2 _ rows =>
    match rowHeader with
    | none => .ok (rstrip (rowsPlain fmt [] rows))
    | some h => (rowsHeaded fmt h [] 0 rows).map rstrip

/-- `table._Footer`, Latex.py 98–102. -/
def footer : Str :=
  ['\\', 'e', 'n', 'd', '{', 't', 'a', 'b', 'u', 'l', 'a', 'r', '}', '\n', '\\', 'e', 'n', 'd', '{', 'c', 'e', 'n', 't', 'e', 'r', '}']

/-- `arrIn.shape[1]`. -/
def shape1 : Arr K → Except Err ℕ
  | .d1 _ => .error .indexError
  | .d2 m _ => .ok m

/-- `table.SimpleTable`, Latex.py 105–173. -/
def simpleTable (fmt : K → Str) (colH rowH : Option (List Str)) (a : Arr K) : Except Err Str := do
  match colH, rowH with
  | none, none =>
    let m ← shape1 a
    let body ← arr2Tab fmt none a
    .ok (header m ++ hline ++ body ++ ['\n'] ++ footer)
  | some c, none =>
    let m ← shape1 a
    let body ← arr2Tab fmt none a
    .ok (header m ++ hline ++ colHeader c ++ hline ++ body ++ ['\n'] ++ footer)
  | none, some r =>
    let m ← shape1 a
    let body ← arr2Tab fmt (some r) a
    .ok (header (m + 1) ++ hline ++ body ++ ['\n'] ++ footer)
  | some c, some r =>
    let m ← shape1 a
    let body ← arr2Tab fmt (some r) a
    .ok (header (m + 1) ++ hline ++ colHeader c ++ hline ++ body ++ ['\n'] ++ footer)

end Verif.Model.Latex
