import Verif.Py
import Mathlib.Data.List.Basic

/-!
# Model of the constructor of the matplotlib `MakePlot`: /repo/src/tfc/utils/MakePlot.py

`L` is the type of label strings. The figure is what the calls to matplotlib leave behind: the list `self.ax` with the arguments of
`add_subplot` and the texts set on every axes object, and the list `self.twinAx`. Styles, font sizes and the layout are not modelled.
-/

namespace Verif.Model.MakePlot

open Verif.Py

variable {L : Type}

/-- A two-dimensional numpy array of labels; an entry is a string or `None`. /repo/src/tfc/utils/MakePlot.py 68–79. -/
structure Grid (L : Type) where
  rows : ℕ
  cols : ℕ
  at_ : ℕ → ℕ → Option L

/-- `labels[j, k]`: numpy raises `IndexError` outside the shape. /repo/src/tfc/utils/MakePlot.py 143–147. -/
def Grid.get (g : Grid L) (j k : ℕ) : Except Err (Option L) :=
  if j < g.rows ∧ k < g.cols then .ok (g.at_ j k) else .error .indexError

/-- A label argument: a string, a one- or two-dimensional array, list or tuple, or something else. Arrays of other dimensions
and ragged lists are not modelled. /repo/src/tfc/utils/MakePlot.py 22–26. -/
inductive LabArg (L : Type)
  | str (s : L)
  | d1 (l : List (Option L))
  | d2 (g : Grid L)
  | other

/-- "Consistify all label types" for one argument; `TFCPrint.Error` exits. /repo/src/tfc/utils/MakePlot.py 67–134. -/
def consistify : LabArg L → Except Err (Grid L)
  | .str s => .ok ⟨1, 1, fun _ _ => some s⟩
  | .d1 l => .ok ⟨l.length, 1, fun j _ => (l[j]?).getD none⟩
  | .d2 g => .ok g
  | .other => .error .exit

/-- The same for an optional argument. /repo/src/tfc/utils/MakePlot.py 94–134. -/
def consistifyOpt : Option (LabArg L) → Except Err (Option (Grid L))
  | none => .ok none
  | some a => (consistify a).map some

/-- An axes object: the arguments of `add_subplot`, whether it is 3D, and its texts. /repo/src/tfc/utils/MakePlot.py 145–147, 157–162. -/
structure Axes (L : Type) where
  nrows : ℕ
  ncols : ℕ
  index : ℕ
  is3d : Bool
  xlabel : Option L
  ylabel : Option L
  zlabel : Option L
  title : Option L
  deriving DecidableEq

/-- A twin axes object: the position in `self.ax` of the axes it was made from, and its label. /repo/src/tfc/utils/MakePlot.py 166–174. -/
structure Twin (L : Type) where
  base : ℕ
  ylabel : Option L
  deriving DecidableEq

/-- `fig.add_subplot(n[0], n[1], index)`, an axes object without texts. /repo/src/tfc/utils/MakePlot.py 145, 157–159. -/
def newAxes (n0 n1 index : ℕ) (is3d : Bool) : Axes L := ⟨n0, n1, index, is3d, none, none, none, none⟩

/-- Calling a setter on `self.ax[count]`. /repo/src/tfc/utils/MakePlot.py 146, 147, 160–162, 183. -/
def onAxes (ax : List (Axes L)) (count : ℕ) (f : Axes L → Axes L) : Except Err (List (Axes L)) :=
  if count < ax.length then .ok (ax.modify count f) else .error .indexError

/-- The pairs `(j, k)` in the order of `for j in range(n[0]): for k in range(n[1])`. /repo/src/tfc/utils/MakePlot.py 141, 142. -/
def cells (n0 n1 : ℕ) : List (ℕ × ℕ) := (List.range n0).flatMap fun j => (List.range n1).map fun k => (j, k)

/-- `self.ax[count].set_zlabel(zlabs[j, k])` if there are z labels. /repo/src/tfc/utils/MakePlot.py 162. -/
def setZ (z : Option (Grid L)) (j k : ℕ) (ax : List (Axes L)) (count : ℕ) : Except Err (List (Axes L)) :=
  match z with
  | none => .ok ax
  | some z => do
      let l ← z.get j k
      onAxes ax count fun a => { a with zlabel := l }

/-- The statements after the `continue` of the first loop. /repo/src/tfc/utils/MakePlot.py 145–148, 157–163. -/
def addOne (y : Grid L) (z : Option (Grid L)) (n0 n1 j k : ℕ) (l : Option L) (s : List (Axes L) × ℕ) :
    Except Err (List (Axes L) × ℕ) := do
  let ax := s.1 ++ [newAxes n0 n1 (j * n1 + k + 1) z.isSome]
  let ax ← onAxes ax s.2 fun a => { a with xlabel := l }
  let ly ← y.get j k
  let ax ← onAxes ax s.2 fun a => { a with ylabel := ly }
  let ax ← setZ z j k ax s.2
  .ok (ax, s.2 + 1)

/-- One pass of the first loop. /repo/src/tfc/utils/MakePlot.py 143–148, 155–163. -/
def addStep (x y : Grid L) (z : Option (Grid L)) (s : List (Axes L) × ℕ) (p : ℕ × ℕ) : Except Err (List (Axes L) × ℕ) := do
  let l ← x.get p.1 p.2
  if l.isNone then .ok s else addOne y z x.rows x.cols p.1 p.2 l s

/-- Creating the subplots. /repo/src/tfc/utils/MakePlot.py 136–163. -/
def addAll (x y : Grid L) (z : Option (Grid L)) : Except Err (List (Axes L)) := do
  let s ← (cells x.rows x.cols).foldlM (addStep x y z) ([], 0)
  .ok s.1

/-- One pass of the loop of the twin axes. /repo/src/tfc/utils/MakePlot.py 170–174. -/
def twinStep (x t : Grid L) (ax : List (Axes L)) (s : List (Twin L) × ℕ) (p : ℕ × ℕ) : Except Err (List (Twin L) × ℕ) := do
  let l ← x.get p.1 p.2
  if l.isNone then .ok s
  else if s.2 < ax.length then do
    let lt ← t.get p.1 p.2
    if s.2 < s.1.length + 1 then .ok ((s.1 ++ [(⟨s.2, none⟩ : Twin L)]).modify s.2 (fun w => { w with ylabel := lt }), s.2 + 1)
    else .error .indexError
  else .error .indexError

/-- The twin axes. /repo/src/tfc/utils/MakePlot.py 165–174. -/
def twinAll (x : Grid L) (t : Option (Grid L)) (ax : List (Axes L)) : Except Err (List (Twin L)) :=
  match t with
  | none => .ok []
  | some t => do
      let s ← (cells x.rows x.cols).foldlM (twinStep x t ax) ([], 0)
      .ok s.1

/-- One pass of the loop of the titles: it skips where the *title* is `None`. /repo/src/tfc/utils/MakePlot.py 181–184. -/
def titleStep (t : Grid L) (s : List (Axes L) × ℕ) (p : ℕ × ℕ) : Except Err (List (Axes L) × ℕ) := do
  let l ← t.get p.1 p.2
  if l.isNone then .ok s
  else do
    let ax ← onAxes s.1 s.2 fun a => { a with title := l }
    .ok (ax, s.2 + 1)

/-- The titles. /repo/src/tfc/utils/MakePlot.py 177–184. -/
def titleAll (x : Grid L) (t : Option (Grid L)) (ax : List (Axes L)) : Except Err (List (Axes L)) :=
  match t with
  | none => .ok ax
  | some t => do
      let s ← (cells x.rows x.cols).foldlM (titleStep t) (ax, 0)
      .ok s.1

/-- What the constructor leaves in the object: `self.ax` and `self.twinAx`. /repo/src/tfc/utils/MakePlot.py 139, 166. -/
structure Fig (L : Type) where
  ax : List (Axes L)
  twinAx : List (Twin L)
  deriving DecidableEq

/-- `MakePlot.__init__`. /repo/src/tfc/utils/MakePlot.py 20–187. -/
def init (xlabs ylabs : LabArg L) (titles twinYlabs zlabs : Option (LabArg L)) : Except Err (Fig L) := do
  let x ← consistify xlabs
  let y ← consistify ylabs
  let z ← consistifyOpt zlabs
  let t ← consistifyOpt titles
  let w ← consistifyOpt twinYlabs
  let ax ← addAll x y z
  let tw ← twinAll x w ax
  let ax ← titleAll x t ax
  .ok ⟨ax, tw⟩

end Verif.Model.MakePlot
