import Mathlib.Data.List.Basic
import Mathlib.Data.List.Infix
import Mathlib.Data.Rat.Defs
import Mathlib.Algebra.Field.Rat

/-! # Texts of derivatives and substitutions -/

namespace Verif.Spec

/-- The text of nested `egrad` calls for the given positions: `egrad(egrad(g,1),0)`. -/
def nestText (name : List Char) (num : ℕ → List Char) : List ℕ → List Char
  | [] => name
  | p :: ps => ['e', 'g', 'r', 'a', 'd', '('] ++ nestText name num ps ++ [','] ++ num p ++ [')']

/-- `a,b,c` -/
def commaText : List (List Char) → List Char
  | [] => []
  | [a] => a
  | a :: l => a ++ [','] ++ commaText l

/-- The depth of open parentheses after reading a text from the left; `none` when one is closed that was not opened. -/
def parenDepth : List Char → ℕ → Option ℕ
  | [], d => some d
  | '(' :: s, d => parenDepth s (d + 1)
  | ')' :: _, 0 => none
  | ')' :: s, d + 1 => parenDepth s d
  | _ :: s, d => parenDepth s d

/-- Every parenthesis is closed. -/
def Balanced (s : List Char) : Prop := parenDepth s 0 = some 0

/-! ### Tokens -/

/-- The characters of Python names and numbers. -/
def nameChar (c : Char) : Bool := c.isAlphanum || c == '_' || c == '.'

/-- A piece of a printed expression: a name or number, or operators, brackets and blanks. -/
inductive Token
  | name (s : List Char)
  | other (s : List Char)
  deriving DecidableEq

def Token.text : Token → List Char
  | .name s => s
  | .other s => s

/-- Names consist of name characters, other pieces of none. -/
def Token.Ok : Token → Prop
  | .name s => s ≠ [] ∧ ∀ c ∈ s, nameChar c = true
  | .other s => s ≠ [] ∧ ∀ c ∈ s, nameChar c = false

def Token.isName : Token → Bool
  | .name _ => true
  | .other _ => false

/-- No two names follow each other directly. -/
def Separated (l : List Token) : Prop := l.IsChain fun a b => (a.isName && b.isName) = false

/-- The whole text. -/
def textOf (l : List Token) : List Char := l.flatMap Token.text

/-- The token that stands for a token after the simultaneous substitution of names: only a whole name is replaced. -/
def substToken (subs : List (List Char × List Char)) : Token → Token
  | .name s => .name (((subs.find? fun p => p.1 = s).map Prod.snd).getD s)
  | .other s => .other s

/-! ### Arithmetic with precedence, for a counterexample -/

/-- Arithmetic expressions in one variable. -/
inductive Arith
  | var
  | num (n : ℕ)
  | neg (e : Arith)
  | pow (e : Arith) (n : ℕ)

def Arith.eval (x : ℚ) : Arith → ℚ
  | .var => x
  | .num n => n
  | .neg e => - e.eval x
  | .pow e n => (e.eval x) ^ n

def Arith.subst (v : Arith) : Arith → Arith
  | .var => v
  | .num n => .num n
  | .neg e => .neg (Arith.subst v e)
  | .pow e n => .pow (Arith.subst v e) n

/-- Python's text: the base of a power is in brackets unless it is a variable or number, as `**` binds stronger than `-`. -/
def Arith.text : Arith → List Char
  | .var => ['x']
  | .num n => Nat.toDigits 10 n
  | .neg e => ['-'] ++ e.text
  | .pow .var n => ['x', '*', '*'] ++ Nat.toDigits 10 n
  | .pow (.num m) n => Nat.toDigits 10 m ++ ['*', '*'] ++ Nat.toDigits 10 n
  | .pow e n => ['('] ++ e.text ++ [')', '*', '*'] ++ Nat.toDigits 10 n

end Verif.Spec
