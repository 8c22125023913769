import Verif.Py
import Mathlib.Data.List.Infix

/-!
# Model of two methods of `TfcPrinter`: /repo/src/tfc/utils/CeSolver.py 439–495

A Python string is the list of its characters. The texts that sympy's own printers give for subexpressions are parameters.
-/

namespace Verif.Model.Printer

open Verif.Py

/-- `s.replace(old, new)` for a non-empty `old`: from left to right, without overlaps. Used at CeSolver.py 454. -/
def replace (old new : List Char) (s : List Char) : List Char :=
  if h : old ≠ [] ∧ old <+: s then new ++ replace old new (s.drop old.length)
  else
    match s with
    | [] => []
    | c :: s => c :: replace old new s
termination_by s.length
decreasing_by
  · obtain ⟨h0, h1⟩ := h
    have h2 := List.IsPrefix.length_le h1
    have h3 := List.length_pos_iff.2 h0
    simp only [List.length_drop]
    omega
  · simp

/-- `_print_Subs`, CeSolver.py 437–455: `expr` is the printed expression, `subs` the printed pairs of old and new, in order. -/
def printSubs (expr : List Char) (subs : List (List Char × List Char)) : List Char :=
  subs.foldl (fun text p => replace p.1 p.2 text) expr

/-- `str(n)` for a natural number. Used at CeSolver.py 492. -/
def natStr (n : ℕ) : List Char := Nat.toDigits 10 n

/-- The loop that finds the positions, CeSolver.py 477–481: `function_vars.index(var[0])` raises a `ValueError` if the variable is not an argument. -/
def positions (args : List (List Char)) : List (List Char × ℕ) → Except Err (List (ℕ × ℕ))
  | [] => .ok []
  | (v, k) :: vars =>
    if v ∈ args then (positions args vars).map ((args.idxOf v, k) :: ·) else .error .valueError

/-- The opening calls, CeSolver.py 490–493. -/
def openings (name : List Char) (pos : List (ℕ × ℕ)) : List (List Char) :=
  pos.flatMap fun pv => List.replicate pv.2 (['e', 'g', 'r', 'a', 'd', '('] ++ name ++ [','] ++ natStr pv.1)

/-- `_print_Derivative`, CeSolver.py 457–498, for a function called `name` with arguments `args`, both printed, and the variables with their orders. -/
def printDerivative (name : List Char) (args : List (List Char)) (vars : List (List Char × ℕ)) : Except Err (List Char) :=
  (positions args vars).map fun pos =>
    let o := openings name pos
    o.flatten ++ (List.replicate o.length [')']).flatten ++ ['('] ++ (vars.map Prod.fst).flatten ++ [')']

end Verif.Model.Printer
