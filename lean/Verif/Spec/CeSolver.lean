import Verif.Model.CeSolver
import Mathlib.Algebra.BigOperators.Group.Finset.Basic

/-! # Constrained expressions -/

namespace Verif.Spec

open Verif.Np Verif.Py Verif.Model.CeSolver

variable {A : Type} [CommRing A]

/-- `N` is the two-sided inverse of the `n × n` matrix `M`. -/
def IsInverse (n : ℕ) (M N : ℕ → ℕ → A) : Prop :=
  (∀ i < n, ∀ j < n, ∑ l ∈ Finset.range n, M i l * N l j = if i = j then 1 else 0) ∧
    ∀ i < n, ∀ j < n, ∑ l ∈ Finset.range n, N i l * M l j = if i = j then 1 else 0

/-- The number `C_i[f]`. -/
def applyOp (C : List (A → A)) (i : ℕ) (f : A) : A := (C.getD i fun _ => 0) f

/-- `g + Σ_j φ_j (κ_j − C_j[g])`. -/
def withSwitching (C : List (A → A)) (K : List A) (g : A) (phi : ℕ → A) : A :=
  g + ∑ j ∈ Finset.range K.length, phi j * (K.getD j 0 - applyOp C j g)

/-- `e` is the constrained expression of the data: as many support functions and values as constraints, at least one constraint, an invertible support matrix `C_i[s_j]`, and switching functions `φ_j = Σ_i s_i α_ij` from its inverse. -/
def ConstrainedExpr (C : List (A → A)) (K s : List A) (g e : A) : Prop :=
  0 < C.length ∧ s.length = C.length ∧ K.length = C.length ∧
    ∃ N, IsInverse C.length (fun i j => applyOp C i (s.getD j 0)) N ∧
      e = withSwitching C K g fun j => ∑ i ∈ Finset.range C.length, s.getD i 0 * N i j

/-- What sympy's matrix inverse is trusted to do: it returns the inverse of a square matrix if there is one, and otherwise raises. -/
structure InverseContract (inv : Mat A → Except Err (Mat A)) : Prop where
  sound : ∀ M N, inv M = .ok N → M.cols = M.rows ∧ N.rows = M.rows ∧ N.cols = M.rows ∧ IsInverse M.rows M.at_ N.at_
  complete : ∀ M, M.cols = M.rows → (∃ N, IsInverse M.rows M.at_ N) → ∃ N, inv M = .ok N

/-! ### Histories -/

/-- The data a user has assigned, and the assignments to `phi` and `ce` still in force. -/
structure CeData (A : Type) where
  C : List (A → A)
  K : List A
  s : List A
  g : A
  phi : Option (Mat A) := none
  ce : Option A := none

/-- The effect of one operation on the data: reading changes nothing; new operators or support functions put an assigned `phi` out of force; any new data put an assigned `ce` out of force. -/
def CeData.apply (d : CeData A) : Op A → CeData A
  | .setC C => { d with C := C, phi := none, ce := none }
  | .setKappa K => { d with K := K, ce := none }
  | .setS s => { d with s := s, phi := none, ce := none }
  | .setG g => { d with g := g, ce := none }
  | .setPhi p => { d with phi := some p }
  | .setCe e => { d with ce := some e }
  | _ => d

/-- `e` is what `ce` should be for the data: an assigned expression; else the expression with the assigned switching functions; else the constrained expression. -/
def CeData.Expected (d : CeData A) (e : A) : Prop :=
  match d.ce, d.phi with
  | some x, _ => e = x
  | none, some p => 0 < p.rows ∧ 0 < p.cols ∧ p.cols = d.K.length ∧ d.K.length ≤ d.C.length ∧ e = withSwitching d.C d.K d.g (p.at_ 0)
  | none, none => ConstrainedExpr d.C d.K d.s d.g e

/-- No `phi` is assigned between a reading of `ce` (or an assignment to it) and the next assignment of data. `fresh` says whether `ce` was read since the last assignment. -/
def NoLatePhi : Bool → List (Op A) → Prop
  | _, [] => True
  | fresh, .setPhi _ :: ops => fresh = false ∧ NoLatePhi fresh ops
  | _, .readCe :: ops => NoLatePhi true ops
  | _, .checkCe :: ops => NoLatePhi true ops
  | _, .setCe _ :: ops => NoLatePhi true ops
  | _, .setC _ :: ops => NoLatePhi false ops
  | _, .setKappa _ :: ops => NoLatePhi false ops
  | _, .setS _ :: ops => NoLatePhi false ops
  | _, .setG _ :: ops => NoLatePhi false ops
  | fresh, _ :: ops => NoLatePhi fresh ops

/-- Only data are assigned: neither `phi` nor `ce`. -/
def OnlyData (ops : List (Op A)) : Prop := ∀ o ∈ ops, (∀ p, o ≠ .setPhi p) ∧ ∀ e, o ≠ .setCe e

end Verif.Spec
