import Verif.Py
import Mathlib.Algebra.Order.Floor.Ring

/-!
# Colours in the Mayavi plots

`ColormapGradient`, `_ProcessKwargs` and the methods that call `mlab`, /repo/src/tfc/utils/MayaviMakePlot.py. Not modelled: the tables of matplotlib's
`to_rgb` and `to_rgba`, which are parameters, and what `mlab` draws.
-/

namespace Verif.Model.Colormap

open Verif.Py

/-- A colour given by name, or as the list, tuple or array of its channels. /repo/src/tfc/utils/MayaviMakePlot.py 10. Simplified: arrays are of floats, as the
type says; an array of `uint8` would wrap in line 98. -/
inductive Color (K : Type)
  | name (s : String)
  | chans (v : List K)

variable {K : Type}

/-- The conversion of an argument of `ColormapGradient` to an array; `rgba` is `_str_to_rgba` with `alpha=None` (34–50).
/repo/src/tfc/utils/MayaviMakePlot.py 90–97. -/
def Color.array (rgba : String → Except Err (List K)) : Color K → Except Err (List K)
  | .name s => rgba s
  | .chans v => .ok v

/-- The shapes of two one dimensional arrays that numpy combines: equal, or one of them has one entry. /repo/src/tfc/utils/MayaviMakePlot.py 100. -/
def broadcast (a b : List K) : Except Err (List (K × K)) :=
  if a.length = b.length then .ok (a.zip b)
  else match a, b with
    | [x], b => .ok (b.map fun y => (x, y))
    | a, [y] => .ok (a.map fun x => (x, y))
    | _, _ => .error .valueError

/-- Row `i` of `np.linspace(start, stop, num)` in one channel, before the conversion to integers: numpy multiplies the step by `i`, or, if some channel has
step zero, the quotient `i/div` by the difference; the last row is set to `stop`. /repo/src/tfc/utils/MayaviMakePlot.py 100. -/
def linRow [Add K] [Sub K] [Mul K] [Div K] [NatCast K] (num : ℕ) (zeroStep : Bool) (p : K × K) (i : ℕ) : K :=
  if i + 1 = num then p.2
  else if zeroStep then ((i : K) / ((num - 1 : ℕ) : K)) * (p.2 - p.1) + p.1
  else (i : K) * ((p.2 - p.1) / ((num - 1 : ℕ) : K)) + p.1

/-- `ColormapGradient(c1, c2)`, /repo/src/tfc/utils/MayaviMakePlot.py 74–100: the rows of the table. For an integer `dtype` numpy takes the floor before the
conversion; `cast` is the conversion to `uint8`, which numpy leaves open outside `0 … 255`. -/
def gradient [Zero K] [Add K] [Sub K] [Mul K] [Div K] [NatCast K] [DecidableEq K] (flr : K → ℤ) (cast : ℤ → ℕ) (rgba : String → Except Err (List K))
    (c1 c2 : Color K) : Except Err (List (List ℕ)) := do
  let v1 ← c1.array rgba
  let v2 ← c2.array rgba
  let v1 := v1.map fun x => x * ((255 : ℕ) : K)
  let v2 := v2.map fun x => x * ((255 : ℕ) : K)
  let ps ← broadcast v1 v2
  let zeroStep := ps.any fun p => decide ((p.2 - p.1) / ((256 - 1 : ℕ) : K) = 0)
  return (List.range 256).map fun i => ps.map fun p => cast (flr (linRow 256 zeroStep p i))

/-- The values of the keyword arguments: a string, a colour in numbers, or anything else. /repo/src/tfc/utils/MayaviMakePlot.py 53. -/
inductive Val (K V : Type)
  | str (s : String)
  | rgb (v : List K)
  | other (v : V)

variable {V : Type}

/-- `_ProcessKwargs`, /repo/src/tfc/utils/MayaviMakePlot.py 53–71; `rgb` is `_str_to_rgb` (18–31). A dictionary is the list of its items; the assignment to an
existing key keeps its place. -/
def processKwargs (rgb : String → Except Err (List K)) (kwargs : List (String × Val K V)) : Except Err (List (String × Val K V)) :=
  match kwargs.lookup "color" with
  | some (.str s) => do
    let c ← rgb s
    return kwargs.map fun kv => if kv.1 = "color" then (kv.1, .rgb c) else kv
  | _ => .ok kwargs

/-- `points3d`, `plot3d`, `surf`, `quiver3d`, `mesh`, `contour3d`: the arguments with which the function of `mlab` is called.
/repo/src/tfc/utils/MayaviMakePlot.py 322, 323, 340, 341, 358, 359, 377, 378, 395, 396, 414, 415. A second `figure` is a `TypeError`. -/
def callArgs {A : Type} (rgb : String → Except Err (List K)) (fig : V) (args : A) (kwargs : List (String × Val K V)) :
    Except Err (A × List (String × Val K V)) := do
  let kwargs ← processKwargs rgb kwargs
  if (kwargs.lookup "figure").isSome then .error .typeError
  else return (args, ("figure", .other fig) :: kwargs)

end Verif.Model.Colormap
