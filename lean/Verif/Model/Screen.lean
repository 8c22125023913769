import Verif.Py
import Mathlib.Data.Rat.Floor

/-!
# Model of `FullScreen` and `PartScreen`

/repo/src/tfc/utils/MakePlot.py 189–218, /repo/src/tfc/utils/PlotlyMakePlot.py 619–662, /repo/src/tfc/utils/MayaviMakePlot.py 126–153.

Arithmetic is exact: the numbers are rational. What `tkinter` reports about the screen is the structure `Display`. The checks made by `set_size_inches`
(matplotlib) and by `layout.width`, `layout.height` (Plotly), and that `mlab.figure` uses its argument `size` only for a scene that it creates, follow the documentation of these
libraries.
-/

namespace Verif.Model.Screen

open Verif.Py

/-- `winfo_screenwidth`, `winfo_screenheight`, `winfo_screenmmwidth`, `winfo_screenmmheight`. /repo/src/tfc/utils/PlotlyMakePlot.py 627, 628, 652–656. -/
structure Display where
  pxW : ℕ
  pxH : ℕ
  mmW : ℕ
  mmH : ℕ

/-- A matplotlib figure: its resolution and its size in inches. /repo/src/tfc/utils/MakePlot.py 203, 204. -/
structure MplFig where
  dpi : ℚ
  w : ℚ
  h : ℚ

/-- `fig.set_size_inches(w, h)`: negative sizes are a `ValueError`. /repo/src/tfc/utils/MakePlot.py 204, 218. -/
def MplFig.setSizeInches (f : MplFig) (w h : ℚ) : Except Err MplFig :=
  if 0 ≤ w ∧ 0 ≤ h then .ok { f with w := w, h := h } else .error .valueError

/-- The matplotlib `FullScreen`. The `ZeroDivisionError` is written as `valueError`. /repo/src/tfc/utils/MakePlot.py 189–204. -/
def mplFullScreen (s : Display) (f : MplFig) : Except Err MplFig :=
  if f.dpi = 0 then .error .valueError else f.setSizeInches (s.pxW / f.dpi) (s.pxH / f.dpi)

/-- The matplotlib `PartScreen`. /repo/src/tfc/utils/MakePlot.py 206–218. -/
def mplPartScreen (f : MplFig) (width height : ℚ) : Except Err MplFig := f.setSizeInches width height

/-- Python's `int(x)`: the digits after the point are cut off. /repo/src/tfc/utils/PlotlyMakePlot.py 659. -/
def toInt (x : ℚ) : ℤ := if 0 ≤ x then ⌊x⌋ else ⌈x⌉

/-- `fig.update_layout(width=w, height=h)`: each has to be at least 10. The result is the size in pixels. /repo/src/tfc/utils/PlotlyMakePlot.py 630, 658–660, 662. -/
def setLayout (w h : ℚ) : Except Err (ℚ × ℚ) := if 10 ≤ w ∧ 10 ≤ h then .ok (w, h) else .error .valueError

/-- The Plotly `FullScreen`. /repo/src/tfc/utils/PlotlyMakePlot.py 619–630. -/
def plotlyFullScreen (s : Display) : Except Err (ℚ × ℚ) := setLayout s.pxW s.pxH

/-- The pixels per unit, for the two lengths of the screen in one direction. /repo/src/tfc/utils/PlotlyMakePlot.py 651–656. -/
def convert (units : List Char) (px mm : ℕ) : ℚ := if units = ['i', 'n'] then px / (mm / 25.4) else px / mm

/-- The Plotly `PartScreen`. A screen of which a length is reported as zero gives a `ZeroDivisionError`, written as `valueError`.
/repo/src/tfc/utils/PlotlyMakePlot.py 632–662. -/
def plotlyPartScreen (s : Display) (width height : ℚ) (units : List Char) : Except Err (ℚ × ℚ) :=
  if units ≠ ['p', 'x'] then
    if s.mmW = 0 ∨ s.mmH = 0 then .error .valueError
    else setLayout (toInt (width * convert units s.pxW s.mmW)) (toInt (height * convert units s.pxH s.mmH))
  else setLayout width height

/-- A Mayavi scene: its size in pixels. /repo/src/tfc/utils/MayaviMakePlot.py 123, 124. -/
structure Scene where
  w : ℚ
  h : ℚ

/-- `mlab.figure(fig, size=(w, h))` for a scene that exists: the scene becomes the current one and keeps its size. /repo/src/tfc/utils/MayaviMakePlot.py 140, 153. -/
def mlabFigure (f : Scene) (_size : ℚ × ℚ) : Scene := f

/-- The Mayavi `FullScreen`. A scene has no method `get_dpi`. /repo/src/tfc/utils/MayaviMakePlot.py 126–140. -/
def mayaviFullScreen (_s : Display) (_f : Scene) : Except Err Scene := .error .attributeError

/-- The Mayavi `PartScreen`. /repo/src/tfc/utils/MayaviMakePlot.py 142–153. -/
def mayaviPartScreen (f : Scene) (width height : ℚ) : Except Err Scene := .ok (mlabFigure f (width, height))

end Verif.Model.Screen
