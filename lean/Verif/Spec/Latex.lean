import Mathlib.Data.List.Basic

/-! # LaTeX tables -/

namespace Verif.Spec

/-- `t` is the text of a row of cells: the cells in order, with `" & "` between two neighbours; a line break may stand instead of the blank after `&`, followed by a blank. -/
inductive RowText : List (List Char) → List Char → Prop
  | one (c : List Char) : RowText [c] c
  | cons (c : List Char) (cs : List (List Char)) (t : List Char) (h : RowText cs t) : RowText (c :: cs) (c ++ [' ', '&', ' '] ++ t)
  | wrap (c : List Char) (cs : List (List Char)) (t : List Char) (h : RowText cs t) : RowText (c :: cs) (c ++ [' ', '&', '\n', ' '] ++ t)

/-- `\begin{center}`, a line break, and `\begin{tabular}{`. -/
def beginText : List Char :=
  ['\\', 'b', 'e', 'g', 'i', 'n', '{', 'c', 'e', 'n', 't', 'e', 'r', '}', '\n', '\\', 'b', 'e', 'g', 'i', 'n', '{', 't', 'a', 'b', 'u', 'l', 'a', 'r', '}', '{']

/-- `\hline` and a line break. -/
def hlineText : List Char := ['\\', 'h', 'l', 'i', 'n', 'e', '\n']

/-- `\end{tabular}`, a line break, and `\end{center}`. -/
def endText : List Char :=
  ['\\', 'e', 'n', 'd', '{', 't', 'a', 'b', 'u', 'l', 'a', 'r', '}', '\n', '\\', 'e', 'n', 'd', '{', 'c', 'e', 'n', 't', 'e', 'r', '}']

/-- The text of a `tabular` with `m` centred columns between vertical lines, an optional first line of headings, and the given rows, each closed by `\\` and a horizontal line. -/
def tabularText (m : ℕ) (headings : Option (List Char)) (rows : List (List Char)) : List Char :=
  beginText ++ (List.replicate m ['|', 'c']).flatten ++ ['|', '}', '\n'] ++ hlineText ++
    (match headings with
      | none => []
      | some h => h ++ ['\\', '\\', '\n'] ++ hlineText) ++
    (rows.map fun r => r ++ ['\\', '\\', '\n'] ++ hlineText).flatten ++
    (if rows = [] then ['\n'] else []) ++ endText

/-- The cells in order with `" & "` between two neighbours. -/
def ampText : List (List Char) → List Char
  | [] => []
  | [c] => c
  | c :: cs => c ++ [' ', '&', ' '] ++ ampText cs

end Verif.Spec
