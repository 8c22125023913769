import Verif.Model.Color
import Mathlib.Order.Bounds.Basic

/-! # One colour scale for several plots -/

namespace Verif.Spec

open Verif.Model.Color

variable {S K : Type}

/-- The plot is of one of the types, and has the property. -/
def Concerned (types : List S) (data : S) (t : Trace S K) : Prop := t.cls ∈ types ∧ data ∈ t.props

/-- The values shown by the plots concerned. -/
def shownValues (types : List S) (data : S) (traces : List (Trace S K)) : Set K :=
  {v | ∃ t ∈ traces, Concerned types data t ∧ ∃ l, t.vals data = some l ∧ v ∈ l}

/-- The plots concerned get the limits that are given; nothing else about them changes, nor do the other plots. -/
def SetLimits (types : List S) (data : S) (cmax cmin : Option K) (t t' : Trace S K) : Prop :=
  (Concerned types data t → t' = { t with
    cmax := match cmax with
      | some a => some (.fin a)
      | none => t.cmax
    cmin := match cmin with
      | some b => some (.fin b)
      | none => t.cmin }) ∧
  (¬ Concerned types data t → t' = t)

end Verif.Spec
