import Verif.Model.MakePlot
import Mathlib.Analysis.SpecialFunctions.Trigonometric.Basic

/-!
# Model of the Plotly `MakePlot`: /repo/src/tfc/utils/PlotlyMakePlot.py

The figure is the part of `fig.layout` that the class sets: for every number `k` the texts of `xaxis{k}`, `yaxis{k}` (or the axes of `scene{k}`) and the
position of the camera of `scene{k}`; number 1 is written without digit. `make_subplots(rows, cols)` makes the numbers 1 to
`rows * cols` and puts number `r * cols + c + 1` at row `r` and column `c`, counted from zero (Plotly's documentation, `start_cell = "top-left"`). Titles and
templates are not modelled; colours are in `Model/PlotlyTrace.lean`.
-/

namespace Verif.Model.Plotly

open Verif.Py Verif.Model.MakePlot

variable {L : Type}

/-- The texts of one subplot. /repo/src/tfc/utils/PlotlyMakePlot.py 191–230. -/
structure AxisText (L : Type) where
  x : Option L
  y : Option L
  z : Option L

/-- The layout and the attributes `_is3d` and `viewDistance`. /repo/src/tfc/utils/PlotlyMakePlot.py 104, 133–136, 162–189. -/
structure Fig (L : Type) where
  is3d : Bool
  viewDistance : ℝ
  count : ℕ
  text : ℕ → AxisText L
  eye : ℕ → Option (ℝ × ℝ × ℝ)

/-- The number used for the subplot at `row`, `col` (counted from zero). /repo/src/tfc/utils/PlotlyMakePlot.py 195, 206, 217, 225. -/
def key (row col : ℕ) : ℕ := if row = 0 ∧ col = 0 then 1 else row + col + 1

/-- `zlabs[row, col]` if the figure is 3D. /repo/src/tfc/utils/PlotlyMakePlot.py 202–204, 212–214. -/
def getZ (z : Option (Grid L)) (row col : ℕ) : Except Err (Option L) :=
  match z with
  | none => .ok none
  | some z => z.get row col

/-- One pass of the loop over the subplots. A number that the layout does not have is an error. /repo/src/tfc/utils/PlotlyMakePlot.py 191–230. -/
def labelStep (x y : Grid L) (z : Option (Grid L)) (f : Fig L) (p : ℕ × ℕ) : Except Err (Fig L) := do
  let lx ← x.get p.1 p.2
  let ly ← y.get p.1 p.2
  let lz ← getZ z p.1 p.2
  if 1 ≤ key p.1 p.2 ∧ key p.1 p.2 ≤ f.count then
    .ok { f with text := fun k => if k = key p.1 p.2 then ⟨lx, ly, lz⟩ else f.text k }
  else .error .valueError

/-- The figure before any text is set. /repo/src/tfc/utils/PlotlyMakePlot.py 104, 162–189. -/
noncomputable def blank (x : Grid L) (z : Option (Grid L)) : Fig L :=
  { is3d := z.isSome, viewDistance := 5 / 2, count := x.rows * x.cols, text := fun _ => ⟨none, none, none⟩, eye := fun _ => none }

/-- `MakePlot.__init__`. A figure with a single subplot is labelled by `update_layout`, which for number 1 is the same assignment.
/repo/src/tfc/utils/PlotlyMakePlot.py 81–292. -/
noncomputable def init (xlabs ylabs : LabArg L) (zlabs : Option (LabArg L)) : Except Err (Fig L) := do
  let x ← consistify xlabs
  let y ← consistify ylabs
  let z ← consistifyOpt zlabs
  (cells x.rows x.cols).foldlM (labelStep x y z) (blank x z)

/-- The direction `dark` from which the plot is seen. /repo/src/tfc/utils/PlotlyMakePlot.py 597–605. -/
noncomputable def eyeOf (d azimuth elevation : ℝ) : ℝ × ℝ × ℝ :=
  (d * (-Real.sin (azimuth * (Real.pi / 180)) * Real.cos (elevation * (Real.pi / 180))),
    d * (-Real.cos (azimuth * (Real.pi / 180)) * Real.cos (elevation * (Real.pi / 180))),
    d * Real.sin (elevation * (Real.pi / 180)))

/-- `self.viewDistance` after the optional argument: `None` and `0` leave it. /repo/src/tfc/utils/PlotlyMakePlot.py 594, 595. -/
noncomputable def newDistance (f : Fig L) (viewDistance : Option ℝ) : ℝ :=
  match viewDistance with
  | none => f.viewDistance
  | some d => open Classical in if d = 0 then f.viewDistance else d

/-- The number of the scene: `row + col - 1` if both are given and not zero, else 1. /repo/src/tfc/utils/PlotlyMakePlot.py 606–617. -/
def sceneNum (row col : Option ℕ) : ℕ :=
  match row, col with
  | some r, some c => if r ≠ 0 ∧ c ≠ 0 then r + c - 1 else 1
  | _, _ => 1

/-- `view`. /repo/src/tfc/utils/PlotlyMakePlot.py 565–617. -/
noncomputable def view (f : Fig L) (azimuth elevation : ℝ) (row col : Option ℕ) (viewDistance : Option ℝ) : Except Err (Fig L) :=
  if f.is3d = false then .error .exit
  else if 1 ≤ sceneNum row col ∧ sceneNum row col ≤ f.count then
    .ok { f with
      viewDistance := newDistance f viewDistance
      eye := fun k => if k = sceneNum row col then some (eyeOf (newDistance f viewDistance) azimuth elevation) else f.eye k }
  else .error .valueError

end Verif.Model.Plotly
