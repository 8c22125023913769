import Verif.Model.Graph
import Mathlib.Logic.Relation

/-! # Orientations of a graph without cycles -/

namespace Verif.Spec

open Verif.Model.Graph

/-- The arrow given to an edge: `true` means that `node0` is the target. -/
def Arrow (E : List Edge) (target : List Bool) (u v : String) : Prop :=
  ∃ e b, (e, b) ∈ E.zip target ∧ if b then u = e.node1 ∧ v = e.node0 else u = e.node0 ∧ v = e.node1

/-- No node is reached from itself along one or more arrows. -/
def Acyclic (R : String → String → Prop) : Prop := ∀ v, ¬ Relation.TransGen R v v

end Verif.Spec
