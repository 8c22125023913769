import Verif.Model.MakePlot

/-! # A figure with labelled subplots -/

namespace Verif.Spec

open Verif.Model.MakePlot

variable {L : Type}

/-- A table of labels read from an argument: its shape and its entries. A single string is one subplot; a one-dimensional list is a column. -/
inductive ReadsAs : LabArg L → ℕ → ℕ → (ℕ → ℕ → Option L) → Prop
  | str (s : L) : ReadsAs (.str s) 1 1 fun _ _ => some s
  | d1 (l : List (Option L)) : ReadsAs (.d1 l) l.length 1 fun j _ => (l[j]?).getD none
  | d2 (g : Grid L) : ReadsAs (.d2 g) g.rows g.cols g.at_

/-- An optional argument that is absent, or a table with an entry at every position below `n0`, `n1`; an absent argument has no entries. -/
def CoversOpt (a : Option (LabArg L)) (n0 n1 : ℕ) (f : ℕ → ℕ → Option L) : Prop :=
  match a with
  | none => ∀ j k, f j k = none
  | some a => ∃ r c, n0 ≤ r ∧ n1 ≤ c ∧ ReadsAs a r c f

/-- The positions, row by row, at which a subplot is asked for. -/
def used (n0 n1 : ℕ) (x : ℕ → ℕ → Option L) : List (ℕ × ℕ) :=
  ((List.range n0).flatMap fun j => (List.range n1).map fun k => (j, k)).filter fun p => (x p.1 p.2).isSome

/-- The subplot at row `j` and column `k` of an `n0 × n1` figure, with the labels and the title given for that position. -/
def subplotAt (n0 n1 : ℕ) (is3d : Bool) (x y z t : ℕ → ℕ → Option L) (p : ℕ × ℕ) : Axes L :=
  { nrows := n0, ncols := n1, index := p.1 * n1 + p.2 + 1, is3d := is3d, xlabel := x p.1 p.2, ylabel := y p.1 p.2,
    zlabel := z p.1 p.2, title := t p.1 p.2 }

end Verif.Spec
