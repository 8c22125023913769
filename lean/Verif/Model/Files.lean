import Verif.Py
import Mathlib.Data.List.Basic

/-!
# Model of the code that writes files

`save` and `animate` of /repo/src/tfc/utils/MakePlot.py, `save` of /repo/src/tfc/utils/PlotlyMakePlot.py, `save` and `animate` of
/repo/src/tfc/utils/MayaviMakePlot.py, `WriteFile` and `ReadFile` of /repo/src/tfc/utils/Html.py and `criuCheckpoint` of /repo/src/tfc/utils/TFCUtils.py.

A Python string is the list of its characters. A file is its format and its content; `B` is the type of contents. A directory exists
under the names that the file system lists: links and different spellings of one name are not modelled, nor are permissions. The functions of `os`,
`os.path` and `pathlib` follow Python 3.12 on POSIX.
-/

namespace Verif.Model.Files

open Verif.Py

/-- Python strings (no code of their own): the names and texts of MakePlot.py 232–271 and Html.py 45–70. -/
abbrev Str := List Char

/-- `s.split("/")`, used by `pathlib`. /repo/src/tfc/utils/MakePlot.py 253. -/
def split : Str → List Str
  | [] => [[]]
  | c :: s =>
      if c = '/' then [] :: split s
      else match split s with
        | [] => [[c]]
        | w :: ws => (c :: w) :: ws

/-- `os.path.basename(s)`: what follows the last slash. Used by `os.path.dirname`, /repo/src/tfc/utils/Html.py 47. -/
def basename (s : Str) : Str := (split s).getLastD []

/-- The parts of `pathlib.Path(s)`: empty parts and single dots are dropped. /repo/src/tfc/utils/MakePlot.py 253. -/
def parts (s : Str) : List Str := (split s).filter fun w => w ≠ [] ∧ w ≠ ['.']

/-- `Path(s).name`. /repo/src/tfc/utils/MakePlot.py 253. -/
def pathName (s : Str) : Str := (parts s).getLastD []

/-- The characters after the last dot of a name, read from its end. /repo/src/tfc/utils/MakePlot.py 253. -/
def afterDot (name : Str) : Str := (name.reverse.takeWhile (· ≠ '.')).reverse

/-- The characters before the last dot of a name. /repo/src/tfc/utils/MakePlot.py 253. -/
def beforeDot (name : Str) : Str := ((name.reverse.dropWhile (· ≠ '.')).drop 1).reverse

/-- `Path(fileName).suffix[1:]`: empty if the only dot is the first or the last character of the name. /repo/src/tfc/utils/MakePlot.py 253. -/
def suffix (fileName : Str) : Str :=
  if '.' ∈ pathName fileName ∧ afterDot (pathName fileName) ≠ [] ∧ beforeDot (pathName fileName) ≠ [] then afterDot (pathName fileName) else []

/-- `s.rstrip("/")`. Used by `os.path.dirname`, /repo/src/tfc/utils/Html.py 47. -/
def rstripSlash (s : Str) : Str := (s.reverse.dropWhile (· = '/')).reverse

/-- `os.path.dirname(s)`. /repo/src/tfc/utils/Html.py 47. -/
def dirname (s : Str) : Str :=
  if rstripSlash (s.take (s.length - (basename s).length)) = [] then s.take (s.length - (basename s).length)
  else rstripSlash (s.take (s.length - (basename s).length))

/-- `os.path.join(a, b)`. /repo/src/tfc/utils/MakePlot.py 338. -/
def join (a b : Str) : Str :=
  if b.head? = some '/' then b else if a = [] ∨ a.getLast? = some '/' then a ++ b else a ++ '/' :: b

variable {B : Type}

/-- A file: its format and what it shows. /repo/src/tfc/utils/MakePlot.py 264–271. -/
structure File (B : Type) where
  fmt : Str
  body : B

/-- The file system: the names of the directories and the files. /repo/src/tfc/utils/Html.py 45–51. -/
structure FS (B : Type) where
  dirs : Str → Bool
  files : Str → Option (File B)

/-- `os.path.exists(p)`. /repo/src/tfc/utils/Html.py 47. -/
def FS.exists_ (fs : FS B) (p : Str) : Bool := fs.dirs p || (fs.files p).isSome

/-- Opening `p` for writing and writing `f`. It is an error if the directory of `p` does not exist or `p` names a directory. A bare name lies in
the current directory, which exists. /repo/src/tfc/utils/Html.py 49–51. -/
def FS.write (fs : FS B) (p : Str) (f : File B) : Except Err (FS B) :=
  if (dirname p = [] ∨ fs.dirs (dirname p)) ∧ fs.dirs p = false ∧ basename p ≠ [] ∧ basename p ≠ ['.'] ∧ basename p ≠ ['.', '.'] then
    .ok { fs with files := fun q => if q = p then some f else fs.files q }
  else .error .osError

/-- `os.mkdir(p)`: the parent has to exist. /repo/src/tfc/utils/MakePlot.py 332. -/
def FS.mkdir (fs : FS B) (p : Str) : Except Err (FS B) :=
  if p ≠ [] ∧ fs.exists_ p = false ∧ (dirname (rstripSlash p) = [] ∨ fs.dirs (dirname (rstripSlash p))) then
    .ok { fs with dirs := fun q => q = p || fs.dirs q }
  else .error .osError

/-- The directories that `os.makedirs(p)` needs: `p` and its beginnings up to a slash. /repo/src/tfc/utils/Html.py 48. -/
def ancestors (p : Str) : List Str := p.inits.filter fun q => q ≠ [] ∧ (q = p ∨ (p.drop q.length).head? = some '/')

/-- `os.makedirs(p)`. The empty name is an error, and so is an ancestor that is a file. /repo/src/tfc/utils/Html.py 48. -/
def FS.makedirs (fs : FS B) (p : Str) : Except Err (FS B) :=
  if p ≠ [] ∧ (ancestors p).all (fun q => (fs.files q).isNone) then
    .ok { fs with dirs := fun q => (ancestors p).contains q || fs.dirs q }
  else .error .osError

/-- `"png"`. /repo/src/tfc/utils/MakePlot.py 254. -/
def png : Str := ['p', 'n', 'g']
/-- `"pdf"`. /repo/src/tfc/utils/MakePlot.py 254. -/
def pdf : Str := ['p', 'd', 'f']
/-- `"ps"`. /repo/src/tfc/utils/MakePlot.py 254. -/
def ps : Str := ['p', 's']
/-- `"eps"`. /repo/src/tfc/utils/MakePlot.py 254. -/
def eps : Str := ['e', 'p', 's']
/-- `"svg"`. /repo/src/tfc/utils/MakePlot.py 254. -/
def svg : Str := ['s', 'v', 'g']
/-- `"jpg"`. /repo/src/tfc/utils/PlotlyMakePlot.py 507. -/
def jpg : Str := ['j', 'p', 'g']
/-- `"html"`. /repo/src/tfc/utils/PlotlyMakePlot.py 507. -/
def html : Str := ['h', 't', 'm', 'l']

/-- The list tested by the matplotlib `save`. /repo/src/tfc/utils/MakePlot.py 254. -/
def mplTypes : List Str := [png, pdf, ps, eps, svg]

/-- The list tested by the Plotly `save`. /repo/src/tfc/utils/PlotlyMakePlot.py 507. -/
def plotlyTypes : List Str := [pdf, jpg, png, svg, eps, html]

/-- The list tested by the Mayavi `save`. /repo/src/tfc/utils/MayaviMakePlot.py 242–258. -/
def mayaviTypes : List Str :=
  [png, jpg, ['b', 'm', 'p'], ['t', 'i', 'f', 'f'], ps, eps, pdf, ['r', 'i', 'b'], ['o', 'o', 'g', 'l'], ['i', 'v'], ['w', 'r', 'l'],
    ['v', 'r', 'm', 'l'], ['o', 'b', 'j'], ['x', '3', 'd'], ['p', 'o', 'v']]

/-- `not fileType`: it is `None` or the empty string. /repo/src/tfc/utils/MakePlot.py 250. -/
def noType (fileType : Option Str) : Bool := fileType.isNone || fileType == some []

/-- The name and the format that the matplotlib `save` passes to `savefig`. /repo/src/tfc/utils/MakePlot.py 250–262. -/
def mplTarget (fileName : Str) (fileType : Option Str) : Str × Str :=
  if noType fileType then
    if suffix fileName ∈ mplTypes then (fileName, suffix fileName) else (fileName, pdf)
  else (fileName ++ '.' :: fileType.getD [], fileType.getD [])

/-- The matplotlib `save`; `savefig` with `format=` writes that format under the name it is given. `fileName` is a string, as the annotation
`Path = str` says. Transparency, cropping and resolution are not modelled. /repo/src/tfc/utils/MakePlot.py 232–271. -/
def mplSave (fs : FS B) (fileName : Str) (fileType : Option Str) (fig : B) : Except Err (FS B) :=
  fs.write (mplTarget fileName fileType).1 ⟨(mplTarget fileName fileType).2, fig⟩

/-- Writers that take the format from the extension of the name: `fig.write_image`, `Image.save`, `mlab.savefig`. A name without one is an
error. /repo/src/tfc/utils/PlotlyMakePlot.py 519, 538; /repo/src/tfc/utils/MayaviMakePlot.py 268. -/
def FS.writeByName (fs : FS B) (p : Str) (fig : B) : Except Err (FS B) :=
  if suffix p = [] then .error .valueError else fs.write p ⟨suffix p, fig⟩

/-- The name and the type that the Plotly `save` uses. /repo/src/tfc/utils/PlotlyMakePlot.py 503–517. -/
def plotlyTarget (fileName : Str) (fileType : Option Str) : Str × Str :=
  if noType fileType then
    if suffix fileName ∈ plotlyTypes then (fileName, suffix fileName) else (fileName ++ '.' :: png, png)
  else (fileName ++ '.' :: fileType.getD [], fileType.getD [])

/-- The Plotly `save`. What is drawn is not modelled, nor is the trimming of white space here (see `Model/Crop.lean`).
/repo/src/tfc/utils/PlotlyMakePlot.py 481–542. -/
def plotlySave (fs : FS B) (fileName : Str) (fileType : Option Str) (fig : B) : Except Err (FS B) :=
  if (plotlyTarget fileName fileType).2 = html then fs.write (plotlyTarget fileName fileType).1 ⟨html, fig⟩
  else fs.writeByName (plotlyTarget fileName fileType).1 fig

/-- The name that the Mayavi `save` uses. /repo/src/tfc/utils/MayaviMakePlot.py 238–267. -/
def mayaviTarget (fileName : Str) (fileType : Option Str) : Str :=
  if noType fileType then
    if suffix fileName ∈ mayaviTypes then fileName else fileName ++ '.' :: pdf
  else fileName ++ '.' :: fileType.getD []

/-- The Mayavi `save`. /repo/src/tfc/utils/MayaviMakePlot.py 206–268. -/
def mayaviSave (fs : FS B) (fileName : Str) (fileType : Option Str) (fig : B) : Except Err (FS B) :=
  fs.writeByName (mayaviTarget fileName fileType) fig

/-- The decimal digits of `n`, most significant first; none for zero. /repo/src/tfc/utils/MakePlot.py 337. -/
def digits (n : ℕ) : Str := if h : n = 0 then [] else digits (n / 10) ++ [Char.ofNat (48 + n % 10)]
  termination_by n
  decreasing_by omega

/-- `"{:0>6d}".format(k)`. /repo/src/tfc/utils/MakePlot.py 337; /repo/src/tfc/utils/MayaviMakePlot.py 194. -/
def pad6 (k : ℕ) : Str := List.replicate (6 - (digits k).length) '0' ++ digits k

/-- The name passed to `save` for frame `k`. /repo/src/tfc/utils/MakePlot.py 337, 338; /repo/src/tfc/utils/MayaviMakePlot.py 194, 195. -/
def framePath (outDir fileName : Str) (k : ℕ) : Str := join outDir (fileName ++ pad6 k)

/-- The loop `while next(iterable, -1) != -1`. The generator is the list of what it yields (`None` or an integer) with the picture shown then.
/repo/src/tfc/utils/MakePlot.py 335–339; /repo/src/tfc/utils/MayaviMakePlot.py 193–196. -/
def frames (save : FS B → Str → Option Str → B → Except Err (FS B)) (outDir fileName : Str) :
    FS B → ℕ → List (Option ℤ × B) → Except Err (FS B)
  | fs, _, [] => .ok fs
  | fs, k, (y, pic) :: rest =>
      if y = some (-1) then .ok fs
      else do
        let fs ← save fs (framePath outDir fileName k) (some png) pic
        frames save outDir fileName fs (k + 1) rest

/-- `if not os.path.exists(outDir): os.mkdir(outDir)`. /repo/src/tfc/utils/MakePlot.py 331, 332; /repo/src/tfc/utils/MayaviMakePlot.py 188, 189. -/
def FS.ensure (fs : FS B) (outDir : Str) : Except Err (FS B) := if fs.exists_ outDir then .ok fs else fs.mkdir outDir

/-- `animate` with `save = True`, for either of the two classes. /repo/src/tfc/utils/MakePlot.py 303–345; /repo/src/tfc/utils/MayaviMakePlot.py 157–202. -/
def animate (save : FS B → Str → Option Str → B → Except Err (FS B)) (fs : FS B) (outDir fileName : Str) (gen : List (Option ℤ × B)) :
    Except Err (FS B) := do
  let fs ← fs.ensure outDir
  frames save outDir fileName fs 0 gen

/-- What `ffmpeg` reads as frame `k` from the pattern in the printed command, `./{outDir}/{fileName}%06d.png`.
/repo/src/tfc/utils/MakePlot.py 341–345; /repo/src/tfc/utils/MayaviMakePlot.py 198–202. -/
def printedFrame (outDir fileName : Str) (k : ℕ) : Str := ['.', '/'] ++ outDir ++ '/' :: (fileName ++ pad6 k ++ '.' :: png)

/-- `if not os.path.exists(d): os.makedirs(d)`. /repo/src/tfc/utils/Html.py 47, 48. -/
def FS.ensureAll (fs : FS B) (d : Str) : Except Err (FS B) := if fs.exists_ d then .ok fs else fs.makedirs d

/-- `HTML.WriteFile`; `text` is the result of `GenerateHtml`. /repo/src/tfc/utils/Html.py 45–51. -/
def writeFile (fs : FS B) (outFile : Str) (text : B) : Except Err (FS B) := do
  let fs ← fs.ensureAll (dirname outFile)
  fs.write outFile ⟨html, text⟩

/-- `HTML.ReadFile`. /repo/src/tfc/utils/Html.py 53–70. -/
def readFile (fs : FS B) (inFile : Str) : Except Err B :=
  match fs.files inFile with
  | none => .error .osError
  | some f => .ok f.body

end Verif.Model.Files
