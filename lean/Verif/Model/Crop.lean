import Verif.Py
import Mathlib.Data.List.Basic

/-!
# Model of the trimming of white space in the Plotly `save`: /repo/src/tfc/utils/PlotlyMakePlot.py 520–536

A picture has height `h`, width `w` and four channels (RGBA), as Plotly's `to_image("png")` returns it. `Image.fromarray(a, "RGBA")` fails unless the array has four channels
(with fewer the buffer is too small).
-/

namespace Verif.Model.Crop

open Verif.Py

/-- `pngArray`. /repo/src/tfc/utils/PlotlyMakePlot.py 528. -/
structure Img where
  h : ℕ
  w : ℕ
  px : ℕ → ℕ → ℕ → ℕ

/-- `np.argwhere(pngArray != pngArray[0, 0, :])`. /repo/src/tfc/utils/PlotlyMakePlot.py 529–531. -/
def coords (a : Img) : List (ℕ × ℕ × ℕ) :=
  ((List.range a.h).flatMap fun i => (List.range a.w).flatMap fun j => (List.range 4).map fun c => (i, j, c)).filter
    fun p => a.px p.1 p.2.1 p.2.2 ≠ a.px 0 0 p.2.2

/-- One component of `coords.min(axis=0)`; an empty array is a `ValueError`. /repo/src/tfc/utils/PlotlyMakePlot.py 532. -/
def lowest : List ℕ → Except Err ℕ
  | [] => .error .valueError
  | a :: l => .ok (l.foldl min a)

/-- One component of `coords.max(axis=0) + 1`. /repo/src/tfc/utils/PlotlyMakePlot.py 533. -/
def beyond : List ℕ → Except Err ℕ
  | [] => .error .valueError
  | a :: l => .ok (l.foldl max a + 1)

/-- `pngArray[x0:x1, y0:y1, z0:z1]` made into a picture with four channels. /repo/src/tfc/utils/PlotlyMakePlot.py 534, 535. -/
def cut (a : Img) (x0 x1 y0 y1 z0 z1 : ℕ) : Except Err Img :=
  if z1 - z0 = 4 then .ok ⟨x1 - x0, y1 - y0, fun i j c => a.px (x0 + i) (y0 + j) (z0 + c)⟩ else .error .valueError

/-- The trimming. An empty picture has no pixel `[0, 0]`. /repo/src/tfc/utils/PlotlyMakePlot.py 528–536. -/
def crop (a : Img) : Except Err Img :=
  if a.h = 0 ∨ a.w = 0 then .error .indexError
  else do
    let x0 ← lowest ((coords a).map fun p => p.1)
    let y0 ← lowest ((coords a).map fun p => p.2.1)
    let z0 ← lowest ((coords a).map fun p => p.2.2)
    let x1 ← beyond ((coords a).map fun p => p.1)
    let y1 ← beyond ((coords a).map fun p => p.2.1)
    let z1 ← beyond ((coords a).map fun p => p.2.2)
    cut a x0 x1 y0 y1 z0 z1

end Verif.Model.Crop
