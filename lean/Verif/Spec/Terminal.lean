import Mathlib.Data.List.Basic

/-! # A terminal that understands the colour sequences of ECMA-48 -/

namespace Verif.Spec

/-- How characters are shown: the code of the foreground colour (30 to 37), if one is set, and whether they are bright. -/
structure Style where
  color : Option ℕ
  bright : Bool
  deriving DecidableEq

/-- The style of a new terminal. -/
def Style.normal : Style := ⟨none, false⟩

/-- The character that begins a control sequence. -/
def esc : Char := '\x1b'

/-- The effect of `ESC [ n m`. -/
def Style.select (s : Style) (n : ℕ) : Style :=
  if n = 0 then .normal else if n = 1 then { s with bright := true } else if 30 ≤ n ∧ n ≤ 37 then { s with color := some n } else s

/-- What a terminal does between characters: it shows text, or it has seen `ESC`, or `ESC [` and the digits of a number. -/
inductive Mode
  | text
  | escape
  | number (n : ℕ)

/-- The state of a terminal: style, mode, and what it has shown so far. -/
structure Terminal where
  style : Style
  mode : Mode
  shown : List (Char × Style)

/-- A terminal takes one character. -/
def Terminal.take (t : Terminal) (c : Char) : Terminal :=
  match t.mode with
  | .text => if c = esc then { t with mode := .escape } else { t with shown := t.shown ++ [(c, t.style)] }
  | .escape => if c = '[' then { t with mode := .number 0 } else { t with mode := .text }
  | .number n =>
      if '0' ≤ c ∧ c ≤ '9' then { t with mode := .number (10 * n + (c.toNat - '0'.toNat)) }
      else if c = 'm' then { t with mode := .text, style := t.style.select n }
      else { t with mode := .text }

/-- A terminal takes a text. -/
def Terminal.write (t : Terminal) (s : List Char) : Terminal := s.foldl Terminal.take t

/-- The exit status of a program that ends by `SystemExit(code)`; without a code it is zero. -/
def exitStatus (code : Option ℕ) : ℕ := code.getD 0

end Verif.Spec
