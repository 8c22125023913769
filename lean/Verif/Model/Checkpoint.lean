import Verif.Model.Files

/-!
# Model of `criuCheckpoint`, `Dot.Render`, `savePickle` and `saveAll`

/repo/src/tfc/utils/TFCUtils.py 1749–1788, /repo/src/tfc/utils/Html.py 78–105, /repo/src/tfc/utils/MakePlot.py 273–301. The files are those of `Model/Files.lean`.
-/

namespace Verif.Model.Checkpoint

open Verif.Py Verif.Model.Files

variable {B : Type}

/-- `str(Path(dir))`: the parts, joined by slashes; `.` if there are none. The two leading slashes that POSIX keeps are not modelled.
/repo/src/tfc/utils/TFCUtils.py 1767. -/
def pathStr (dir : Str) : Str :=
  if dir.head? = some '/' then '/' :: ['/'].intercalate (parts dir)
  else if parts dir = [] then ['.'] else ['/'].intercalate (parts dir)

/-- `str(Path(dir).absolute())`; `cwd` is the current directory. /repo/src/tfc/utils/TFCUtils.py 1777, 1784. -/
def absPath (cwd dir : Str) : Str :=
  '/' :: ['/'].intercalate (if dir.head? = some '/' then parts dir else parts cwd ++ parts dir)

/-- The command given to `os.system`. /repo/src/tfc/utils/TFCUtils.py 1776–1778, 1783–1785. -/
def dumpCommand (user : Bool) (pid : ℕ) (abs : Str) : Str :=
  if user then "(criu dump --unpriviledged -t ".toList ++ digits pid ++ " -D ".toList ++ abs ++ " --shell-job --leave-running &) &".toList
  else "(sudo criu dump -t ".toList ++ digits pid ++ " -D ".toList ++ abs ++ " --shell-job --leave-running &) &".toList

/-- The command that is printed for the restart. /repo/src/tfc/utils/TFCUtils.py 1779–1781, 1786–1788. -/
def restoreCommand (abs : Str) : Str := "sudo criu restore -D ".toList ++ abs ++ " --shell-job".toList

/-- `criuCheckpoint`: the file system afterwards, the command that is run and the command that is printed. /repo/src/tfc/utils/TFCUtils.py 1749–1788. -/
def criuCheckpoint (fs : FS B) (cwd : Str) (pid : ℕ) (dir : Str) (user : Bool) : Except Err (FS B × Str × Str) := do
  let fs ← fs.ensure (pathStr dir)
  .ok (fs, dumpCommand user pid (absPath cwd dir), restoreCommand (absPath cwd dir))

/-- `savePickle`: the object is written to `fileName + ".pickle"`. `open` does not look at the name. /repo/src/tfc/utils/MakePlot.py 273–281. -/
def savePickle (fs : FS B) (fileName : Str) (fig : B) : Except Err (FS B) :=
  fs.write (fileName ++ ".pickle".toList) ⟨"pickle".toList, fig⟩

/-- `saveAll`. /repo/src/tfc/utils/MakePlot.py 283–301. -/
def saveAll (fs : FS B) (fileName : Str) (fileType : Option Str) (fig : B) : Except Err (FS B) := do
  let fs ← mplSave fs fileName fileType fig
  savePickle fs fileName fig

/-- Removing a file. /repo/src/tfc/utils/Html.py 105. -/
def remove (fs : FS B) (p : Str) : FS B := { fs with files := fun q => if q = p then none else fs.files q }

/-- `graphviz` makes the directories of the file it writes. /repo/src/tfc/utils/Html.py 105. -/
def makeParents (fs : FS B) (outFile : Str) : Except Err (FS B) := if dirname outFile = [] then .ok fs else fs.ensureAll (dirname outFile)

/-- `self.dot.render(outFile, format=f, cleanup=True, view=False)` after the documentation of `graphviz`: the directories are made, the source is written
under the name `outFile`, rendered to `outFile + "." + f`, and removed. /repo/src/tfc/utils/Html.py 105. -/
def renderOne (fs : FS B) (outFile : Str) (graph : B) (f : Str) : Except Err (FS B) := do
  let fs ← makeParents fs outFile
  let fs ← fs.write outFile ⟨"gv".toList, graph⟩
  let fs ← fs.write (outFile ++ '.' :: f) ⟨f, graph⟩
  .ok (remove fs outFile)

/-- `Dot.Render`. /repo/src/tfc/utils/Html.py 95–105. -/
def render (fs : FS B) (outFile : Str) (graph : B) : List Str → Except Err (FS B)
  | [] => .ok fs
  | f :: formats => do
      let fs ← renderOne fs outFile graph f
      render fs outFile graph formats

end Verif.Model.Checkpoint
