import Mathlib.Data.List.Basic
import Mathlib.Data.List.Infix

/-!
# What the shell and `criu` make of a command line

Not code of the project: the words of a command without quotes, after the POSIX rules, and the options that the manual of `criu` lists of those the project
uses.
-/

namespace Verif.Spec

/-- Characters that stand for themselves inside a word: not blanks, operators, quotes, expansions or comments. -/
def PlainChar (c : Char) : Prop := c.isAlphanum = true ∨ c = '/' ∨ c = '.' ∨ c = '-' ∨ c = '_'

/-- A word of the command line, as the shell separates it. -/
def emit (w : List Char) : List (List Char) := if w = [] then [] else [w]

/-- The words of a command line: blanks separate them, and the operators `(`, `)` and `&` are words of their own. `w` is the word begun. Other
characters are taken as they are, which is what the shell does with plain ones. -/
def shellWords (w : List Char) : List Char → List (List Char)
  | [] => emit w
  | c :: s =>
      if c = ' ' then emit w ++ shellWords [] s
      else if c = '(' ∨ c = ')' ∨ c = '&' then emit w ++ [c] :: shellWords [] s
      else shellWords (w ++ [c]) s

/-- What a call of `criu` asks for: the process, the directory of the images, and whether the process goes on. -/
structure CriuArgs where
  pid : Option (List Char) := none
  dir : Option (List Char) := none
  shellJob : Bool := false
  leaveRunning : Bool := false
  unprivileged : Bool := false

/-- The options of `criu dump` and `criu restore`. Every other word is refused. -/
def criuOptions (a : CriuArgs) : List (List Char) → Option CriuArgs
  | [] => some a
  | w :: ws =>
      if w = "-t".toList then
        match ws with
        | [] => none
        | v :: ws => criuOptions { a with pid := some v } ws
      else if w = "-D".toList then
        match ws with
        | [] => none
        | v :: ws => criuOptions { a with dir := some v } ws
      else if w = "--shell-job".toList then criuOptions { a with shellJob := true } ws
      else if w = "--leave-running".toList then criuOptions { a with leaveRunning := true } ws
      else if w = "--unprivileged".toList then criuOptions { a with unprivileged := true } ws
      else none
  termination_by ws => ws.length

/-- `( … &) &` runs what is between the parentheses, in the background. -/
def inBackground (ws : List (List Char)) : Option (List (List Char)) :=
  if ws.take 1 = [['(']] ∧ ws.drop (ws.length - 3) = [['&'], [')'], ['&']] then some ((ws.drop 1).take (ws.length - 4)) else none

/-- A call of `criu`, with or without `sudo`: whether it runs as root, its command and its arguments. -/
def criuCall (ws : List (List Char)) : Option (Bool × List Char × CriuArgs) :=
  if ws.take 2 = ["sudo".toList, "criu".toList] then
    match ws.drop 2 with
    | [] => none
    | c :: ws => (criuOptions {} ws).map fun a => (true, c, a)
  else if ws.take 1 = ["criu".toList] then
    match ws.drop 1 with
    | [] => none
    | c :: ws => (criuOptions {} ws).map fun a => (false, c, a)
  else none

end Verif.Spec
