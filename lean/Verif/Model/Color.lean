import Verif.Py
import Mathlib.Order.Defs.LinearOrder
import Mathlib.Order.Lattice

/-!
# Model of `NormalizeColorScale`: /repo/src/tfc/utils/PlotlyMakePlot.py 664–717

`S` is the type of names of plot types and of properties. The data are finite numbers of an ordered type `K`; NaN is not modelled.
-/

namespace Verif.Model.Color

open Verif.Py

variable {S K : Type} [DecidableEq S] [LinearOrder K]

/-- A limit of the colour scale: a number, `-np.inf` or `np.inf`. /repo/src/tfc/utils/PlotlyMakePlot.py 695, 696. -/
inductive Lim (K : Type)
  | fin (k : K)
  | ninf
  | pinf

/-- A trace of the figure: its class, the properties its class has (`data in k`), the arrays stored in them (`None` if not set), and its colour limits.
/repo/src/tfc/utils/PlotlyMakePlot.py 698–701, 714–717. -/
structure Trace (S K : Type) where
  cls : S
  props : List S
  vals : S → Option (List K)
  cmax : Option (Lim K)
  cmin : Option (Lim K)

/-- `k[data].max()`: `None` has no such attribute, an empty array has no maximum. /repo/src/tfc/utils/PlotlyMakePlot.py 700. -/
def maxOf : Option (List K) → Except Err K
  | none => .error .attributeError
  | some [] => .error .valueError
  | some (a :: l) => .ok (l.foldl max a)

/-- `k[data].min()`. /repo/src/tfc/utils/PlotlyMakePlot.py 701. -/
def minOf : Option (List K) → Except Err K
  | none => .error .attributeError
  | some [] => .error .valueError
  | some (a :: l) => .ok (l.foldl min a)

/-- `kmax > cmax`. /repo/src/tfc/utils/PlotlyMakePlot.py 703. -/
def gtLim (k : K) : Lim K → Bool
  | .fin c => c < k
  | .ninf => true
  | .pinf => false

/-- `kmin < cmin`. /repo/src/tfc/utils/PlotlyMakePlot.py 705. -/
def ltLim (k : K) : Lim K → Bool
  | .fin c => k < c
  | .ninf => false
  | .pinf => true

/-- The local variables of the loop: `cmax`, `cmin`, and `kmax`, `kmin`, which are unbound at first. /repo/src/tfc/utils/PlotlyMakePlot.py 695–706. -/
structure Locals (K : Type) where
  cmax : Lim K
  cmin : Lim K
  k : Option (K × K)

/-- The assignments of `kmax` and `kmin`. /repo/src/tfc/utils/PlotlyMakePlot.py 699–701. -/
def bindK (data : S) (t : Trace S K) (k : Option (K × K)) : Except Err (Option (K × K)) :=
  if data ∈ t.props then do
    let a ← maxOf (t.vals data)
    let b ← minOf (t.vals data)
    .ok (some (a, b))
  else .ok k

/-- The two comparisons. /repo/src/tfc/utils/PlotlyMakePlot.py 703–706. -/
def compareK (s : Locals K) : Option (K × K) → Except Err (Locals K)
  | none => .error .unboundLocal
  | some (a, b) => .ok ⟨if gtLim a s.cmax then .fin a else s.cmax, if ltLim b s.cmin then .fin b else s.cmin, some (a, b)⟩

/-- One pass of the first loop. /repo/src/tfc/utils/PlotlyMakePlot.py 698–706. -/
def scanStep (types : List S) (data : S) (s : Locals K) (t : Trace S K) : Except Err (Locals K) :=
  if t.cls ∈ types then do
    let k ← bindK data t s.k
    compareK s k
  else .ok s

/-- The limits passed on: those given, or those of the data if neither is given. /repo/src/tfc/utils/PlotlyMakePlot.py 694–706. -/
def limits (traces : List (Trace S K)) (types : List S) (data : S) : Option K → Option K → Except Err (Option (Lim K) × Option (Lim K))
  | none, none => do
      let s ← traces.foldlM (scanStep types data) ⟨.ninf, .pinf, none⟩
      .ok (some s.cmax, some s.cmin)
  | a, b => .ok (a.map .fin, b.map .fin)

/-- `k.update(colorScaleUpdate)`; every class with the property is assumed to have colour limits. /repo/src/tfc/utils/PlotlyMakePlot.py 708–717. -/
def updateOne (types : List S) (data : S) (u : Option (Lim K) × Option (Lim K)) (t : Trace S K) : Trace S K :=
  if t.cls ∈ types then
    if data ∈ t.props then { t with cmax := u.1.or t.cmax, cmin := u.2.or t.cmin } else t
  else t

/-- `NormalizeColorScale`. /repo/src/tfc/utils/PlotlyMakePlot.py 664–717. -/
def normalize (traces : List (Trace S K)) (types : List S) (data : S) (cmax cmin : Option K) : Except Err (List (Trace S K)) := do
  let u ← limits traces types data cmax cmin
  .ok (traces.map (updateOne types data u))

end Verif.Model.Color
