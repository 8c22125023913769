import Verif.Model.Plotly

/-!
# Model of the colours and traces of the Plotly `MakePlot`: /repo/src/tfc/utils/PlotlyMakePlot.py

The library is modelled as documented: `update_xaxes` and `update_yaxes` change every axis of the figure; `add_trace(t, row, col)` appends `t`; without `row` and `col` the trace belongs
to the first subplot, with only one of them, or for a subplot that the figure does not have, or whose type is not that of the trace, it raises. The template is not modelled.
-/

namespace Verif.Model.Plotly

open Verif.Py Verif.Model.MakePlot

/-- The colours of an axis; `none` is Plotly's own choice. /repo/src/tfc/utils/PlotlyMakePlot.py 252–287. -/
structure AxisColor (C : Type) where
  grid : Option C
  zero : Option C
  line : Option C
  back : Option C

/-- The colours in the layout: of the axes `x`, `y`, `z` of subplot number `k`, and of the plotting area. /repo/src/tfc/utils/PlotlyMakePlot.py 248–287. -/
structure Colors (C : Type) where
  count : ℕ
  axis : ℕ → Fin 3 → AxisColor C
  plotBg : Option C

variable {C : Type}

/-- A layout without colours. /repo/src/tfc/utils/PlotlyMakePlot.py 162–189. -/
def noColors (count : ℕ) : Colors C := ⟨count, fun _ _ => ⟨none, none, none, none⟩, none⟩

/-- The axes of one scene in the loop: the first one gets no colour for its zero lines. /repo/src/tfc/utils/PlotlyMakePlot.py 251–279. -/
def sceneAxis (grid back : C) (p : ℕ × ℕ) (a : AxisColor C) : AxisColor C :=
  if p.1 = 0 ∧ p.2 = 0 then { a with grid := some grid, back := some back }
  else { a with grid := some grid, zero := some grid, back := some back }

/-- One pass of the loop. /repo/src/tfc/utils/PlotlyMakePlot.py 249–279. -/
def colorStep (grid back : C) (f : Colors C) (p : ℕ × ℕ) : Except Err (Colors C) :=
  if 1 ≤ key p.1 p.2 ∧ key p.1 p.2 ≤ f.count then
    .ok { f with axis := fun k i => if k = key p.1 p.2 then sceneAxis grid back p (f.axis k i) else f.axis k i }
  else .error .valueError

/-- `update_xaxes`, `update_yaxes` and `update_layout` of a plane figure. /repo/src/tfc/utils/PlotlyMakePlot.py 281–287. -/
def flatColors (grid back black : C) (f : Colors C) : Colors C :=
  { f with
    axis := fun k i => if i = 2 then f.axis k i else { f.axis k i with grid := some grid, line := some black, zero := some grid }
    plotBg := some back }

/-- The colours set by `__init__` in a figure with `n0` rows and `n1` columns. /repo/src/tfc/utils/PlotlyMakePlot.py 247–287. -/
def setColors (is3d : Bool) (n0 n1 : ℕ) (grid back black : C) : Except Err (Colors C) :=
  if is3d then (cells n0 n1).foldlM (colorStep grid back) (noColors (n0 * n1)) else .ok (flatColors grid back black (noColors (n0 * n1)))

/-- The classes of `plotly.graph_objects` that are used. /repo/src/tfc/utils/PlotlyMakePlot.py 314–468. -/
inductive Kind
  | surface | scatter3d | scatter | histogram | contour | box | violin | volume
  deriving DecidableEq

/-- Traces that need a scene. Plotly's documentation of the trace types. /repo/src/tfc/utils/PlotlyMakePlot.py 314–468. -/
def Kind.spatial : Kind → Bool
  | .surface | .scatter3d | .volume => true
  | _ => false

/-- A trace: its class, the keyword arguments and the number of its subplot. /repo/src/tfc/utils/PlotlyMakePlot.py 314. -/
structure Trace (A : Type) where
  kind : Kind
  args : A
  subplot : ℕ

/-- The part of the figure that matters for traces; `hasSubplots`: made by `make_subplots`. /repo/src/tfc/utils/PlotlyMakePlot.py 162–189. -/
structure Canvas (A : Type) where
  is3d : Bool
  hasSubplots : Bool
  rows : ℕ
  cols : ℕ
  traces : List (Trace A)

/-- What a method returns. /repo/src/tfc/utils/PlotlyMakePlot.py 314. -/
inductive Returned (A : Type)
  | figure (f : Canvas A)
  | trace (t : Trace A)

variable {A : Type}

/-- `fig.add_trace(t, row=row, col=col)`; rows and columns count from one. /repo/src/tfc/utils/PlotlyMakePlot.py 314. -/
def addTrace (f : Canvas A) (k : Kind) (args : A) (row col : Option ℕ) : Except Err (Canvas A × Returned A) :=
  match row, col with
  | none, none =>
      let f' := { f with traces := f.traces ++ [⟨k, args, 1⟩] }
      .ok (f', .figure f')
  | some r, some c =>
      if f.hasSubplots = false then .error .valueError
      else if ¬ (1 ≤ r ∧ r ≤ f.rows ∧ 1 ≤ c ∧ c ≤ f.cols) then .error .indexError
      else if k.spatial ≠ f.is3d then .error .valueError
      else
        let f' := { f with traces := f.traces ++ [⟨k, args, (r - 1) * f.cols + (c - 1) + 1⟩] }
        .ok (f', .figure f')
  | _, _ => .error .valueError

/-- The figure made by `__init__`. /repo/src/tfc/utils/PlotlyMakePlot.py 162–189. -/
def canvas (is3d : Bool) (n0 n1 : ℕ) : Canvas A := ⟨is3d, decide (n0 * n1 ≠ 1), n0, n1, []⟩

/-- The names of the methods. /repo/src/tfc/utils/PlotlyMakePlot.py 294–448. -/
inductive Method
  | Surface | Scatter3d | Scatter | Histogram | Contour | Box | Violin | Volume

/-- The eight methods. /repo/src/tfc/utils/PlotlyMakePlot.py 314, 336, 358, 380, 402, 424, 446, 468. -/
def callMethod (f : Canvas A) (m : Method) (row col : Option ℕ) (kwargs : A) : Except Err (Canvas A × Returned A) :=
  match m with
  | .Surface => addTrace f .surface kwargs row col
  | .Scatter3d => addTrace f .scatter3d kwargs row col
  | .Scatter => addTrace f .scatter kwargs row col
  | .Histogram => addTrace f .histogram kwargs row col
  | .Contour => addTrace f .contour kwargs row col
  | .Box => addTrace f .box kwargs row col
  | .Violin => addTrace f .violin kwargs row col
  | .Volume => addTrace f .volume kwargs row col

end Verif.Model.Plotly
