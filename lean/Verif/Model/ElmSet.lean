import Verif.Model.NElmCC
import Verif.Model.NBasisPy
import Verif.Model.Mtfc

/-!
# Setting and reading the weights and biases of ELM objects

Compiled backend: BF.cc 594–645, 1333–1366 and the pybind properties BF_Py.cc 164–192, 283–316. Python backend: BF_Py.py
627–688, 1274–1334. `exit(EXIT_FAILURE)` (the C++ setters on a wrong size) ends the Python process and is the value `exit`.
-/

namespace Verif.Model

open Verif.Mem Verif.Py Verif.Np Verif.Spec

/-- One assignment to a property of an ELM object: `obj.w = a` or `obj.b = a`.
BF_Py.cc 164–192, 283–316; BF_Py.py 652–688, 1299–1334. -/
inductive SetOp (A : Type)
  | w (a : A)
  | b (a : A)

/-! ## numpy arrays of any layout -/

/-- A numpy array (of doubles, if nothing else is said): the memory block it lives in, the position of its first element in
it, shape and strides (counted in elements). The argument types `py::array_t<double>` and `py::array_t<int>`, BF_Py.cc 9, 31,
178, 192. -/
structure NdArr (α : Type := ℝ) where
  mem : Buf α
  off : ℕ
  shape : List ℕ
  strides : List ℤ

/-- `a.size`. BF_Py.cc 178, 192. -/
def NdArr.size {α : Type} (a : NdArr α) : ℕ := a.shape.prod

/-- Distance in memory from the first element to element number `k` (counted in C order, i.e. last axis fastest).
numpy memory layout; needed for BF_Py.cc 178, 192. -/
def strideOffset : List ℕ → List ℤ → ℕ → ℤ
  | _ :: ss, st :: sts, k => st * ((k / ss.prod : ℕ) : ℤ) + strideOffset ss sts (k % ss.prod)
  | _, _, _ => 0

/-- Element number `k` (in C order) of the array: `a.ravel()[k]`. numpy memory layout; needed for BF_Py.cc 178, 192. -/
def NdArr.entry {α : Type} (a : NdArr α) (k : ℕ) : Option α :=
  let p := (a.off : ℤ) + strideOffset a.shape a.strides k
  if 0 ≤ p ∧ p < a.mem.size then a.mem.cell p.toNat else none

/-- `a.data()`: a bare pointer to the first element; the strides are forgotten. BF_Py.cc 178, 192, 296. -/
def NdArr.data {α : Type} (a : NdArr α) : Buf α := a.mem.drop a.off

/-- Read element number `k`. numpy memory layout; needed for BF_Py.cc 311. -/
def NdArr.get {α : Type} (a : NdArr α) (k : ℕ) : Except Fault α :=
  match a.entry k with
  | some v => .ok v
  | none => .error .oobRead

/-- The argument conversion `py::array_t<double, py::array::c_style | py::array::forcecast>`: a contiguous copy. (An array
which already is contiguous is not copied by pybind; its content is the same.) BF_Py.cc 311. -/
def NdArr.cStyle {α : Type} (a : NdArr α) : Except Fault (Buf α) :=
  loop 0 a.size (fun k buf => do
    let v ← a.get k
    buf.write k v) (alloc a.size)

/-! ## Compiled backend -/

namespace CC

/-- The data members of an object of a univariate ELM class (BF.h 277–317). -/
structure Elm where
  act : Activation
  x0 : ℝ
  xf : ℝ
  nC : List ℤ
  m : ℕ
  w : Buf ℝ
  b : Buf ℝ

/-- The object as a `BasisFunc`: its `Hint` reads the members `w` and `b`.
BF.h 277–317 (compiled); BF_Py.py 592–688 (Python). -/
noncomputable def Elm.base (e : Elm) : BasisFunc ℝ := elmNew e.act e.w e.b e.x0 e.xf e.nC e.m

/-- `ELM::setW`, BF.cc 612–619. -/
def Elm.setW (e : Elm) (arrIn : Buf ℝ) (nIn : ℕ) : Except Err Elm :=
  if nIn ≠ e.m then .error .exit
  else do
    let w ← Py.liftCC (memcpy e.w arrIn e.m)
    .ok { e with w := w }

/-- `ELM::setB`, BF.cc 621–628. -/
def Elm.setB (e : Elm) (arrIn : Buf ℝ) (nIn : ℕ) : Except Err Elm :=
  if nIn ≠ e.m then .error .exit
  else do
    let b ← Py.liftCC (memcpy e.b arrIn e.m)
    .ok { e with b := b }

/-- `ELM::getW`, BF.cc 630–636: a copy. -/
def Elm.getW (e : Elm) : Except Fault (ℕ × Buf ℝ) := do
  let out ← memcpy (alloc e.m) e.w e.m
  .ok (e.m, out)

/-- `ELM::getB`, BF.cc 638–644: a copy. -/
def Elm.getB (e : Elm) : Except Fault (ℕ × Buf ℝ) := do
  let out ← memcpy (alloc e.m) e.b e.m
  .ok (e.m, out)

/-- The property setters `elm.w = a` and `elm.b = a`, BF_Py.cc 178 and 192: the argument type is `py::array_t<double>`, so an
array of doubles of any layout is passed on as it is. -/
def Elm.assignW (e : Elm) (a : NdArr) : Except Err Elm := e.setW a.data a.size

/-- See `Elm.assignW`. BF_Py.cc 178. -/
def Elm.assignB (e : Elm) (a : NdArr) : Except Err Elm := e.setB a.data a.size

/-- One assignment. BF_Py.cc 164–192. -/
def Elm.assign (e : Elm) : SetOp NdArr → Except Err Elm
  | .w a => e.assignW a
  | .b a => e.assignB a

/-- `nELM::setW`, BF.cc 1334–1341. -/
def NElm.setW (e : NElm ℝ) (arrIn : Buf ℝ) (dimIn nIn : ℕ) : Except Err (NElm ℝ) :=
  if nIn ≠ e.m ∨ dimIn ≠ e.dim then .error .exit
  else do
    let w ← Py.liftCC (memcpy e.w arrIn (e.m * e.dim))
    .ok { e with w := w }

/-- `nELM::setB`, BF.cc 1343–1350. -/
def NElm.setB (e : NElm ℝ) (arrIn : Buf ℝ) (nIn : ℕ) : Except Err (NElm ℝ) :=
  if nIn ≠ e.m then .error .exit
  else do
    let b ← Py.liftCC (memcpy e.b arrIn e.m)
    .ok { e with b := b }

/-- `nELM::getW`, BF.cc 1352–1359. -/
def NElm.getW (e : NElm ℝ) : Except Fault (ℕ × ℕ × Buf ℝ) := do
  let out ← memcpy (alloc (e.m * e.dim)) e.w (e.m * e.dim)
  .ok (e.dim, e.m, out)

/-- `nELM::getB`, BF.cc 1361–1367. -/
def NElm.getB (e : NElm ℝ) : Except Fault (ℕ × Buf ℝ) := do
  let out ← memcpy (alloc e.m) e.b e.m
  .ok (e.m, out)

/-- The property setter `nelm.w = a`, BF_Py.cc 311–316: the argument type asks for a contiguous array. -/
def NElm.assignW (e : NElm ℝ) (a : NdArr) : Except Err (NElm ℝ) :=
  match a.shape with
  | [r, c] => do
    let buf ← Py.liftCC a.cStyle
    e.setW buf r c
  | _ => .error .valueError

/-- The property setter `nelm.b = a`, BF_Py.cc 296: as `Elm.assignB`. -/
def NElm.assignB (e : NElm ℝ) (a : NdArr) : Except Err (NElm ℝ) := e.setB a.data a.size

/-- One assignment. BF_Py.cc 283–316. -/
def NElm.assign (e : NElm ℝ) : SetOp NdArr → Except Err (NElm ℝ)
  | .w a => e.assignW a
  | .b a => e.assignB a

end CC

/-! ## Python backend -/

namespace PyBF

/-- An array of the Python backend: shape and the elements in C order. Here arrays are values: that the Python setters keep a
reference to the caller's array (so that later in-place changes of it are seen by the object) is not modelled.
BF_Py.py 628–688. -/
structure Arr where
  shape : List ℕ
  vals : ℕ → ℝ

/-- `a.size`. BF_Py.py 652–688. -/
def Arr.size (a : Arr) : ℕ := a.shape.prod

/-- `a.reshape(shape)`; a shape of another size is a `ValueError`. BF_Py.py 652–688. -/
def Arr.reshape (a : Arr) (shape : List ℕ) : Except Err Arr :=
  if shape.prod = a.size then .ok { a with shape := shape } else .error .valueError

/-- The attributes of a univariate ELM object (BF_Py.py 597–626). -/
structure Elm where
  act : Activation
  x0 : ℝ
  xf : ℝ
  nC : List ℤ
  m : ℕ
  w : Arr
  b : Arr

/-- The object as a `BasisFunc`: `_Hint` reads `self._w` and `self._b`. BF.h 277–317 (compiled); BF_Py.py 592–688 (Python). -/
noncomputable def Elm.base (e : Elm) : BasisFunc ℝ := elmInit e.act e.w.vals e.b.vals e.x0 e.xf e.nC e.m

/-- `if x.shape != shape: x = x.reshape(shape)`. BF_Py.py 652–688, 1299–1334. -/
def Arr.toShape (a : Arr) (shape : List ℕ) : Except Err Arr := if a.shape ≠ shape then a.reshape shape else .ok a

/-- The setter of `ELM.w`, BF_Py.py 652–669. -/
def Elm.assignW (e : Elm) (val : Arr) : Except Err Elm :=
  if val.size = e.m then do
    let w ← val.toShape [1, e.m]
    .ok { e with w := w }
  else .error .valueError

/-- The setter of `ELM.b`, BF_Py.py 671–688. -/
def Elm.assignB (e : Elm) (val : Arr) : Except Err Elm :=
  if val.size = e.m then do
    let b ← val.toShape [1, e.m]
    .ok { e with b := b }
  else .error .valueError

/-- One assignment whose exceptions, if any, are caught by the caller. BF_Py.py 652–688. -/
def Elm.tryAssign (e : Elm) (op : SetOp Arr) : Elm :=
  match op with
  | .w a => match e.assignW a with
    | .ok e' => e'
    | .error _ => e
  | .b a => match e.assignB a with
    | .ok e' => e'
    | .error _ => e

/-- An `nELM` object with its arrays (BF_Py.py 1219–1272); `base` are the other attributes. -/
structure NElmObj where
  base : NElm
  w : Arr
  b : Arr

/-- The object with the current weights and biases: `_nHint` reads `self._w` and `self._b`. BF_Py.py 1336–1369. -/
def NElmObj.current (e : NElmObj) : NElm :=
  { e.base with w := fun l k => e.w.vals (l * e.base.m + k), b := e.b.vals }

/-- The setter of `nELM.w`, BF_Py.py 1298–1315. -/
def NElmObj.assignW (e : NElmObj) (val : Arr) : Except Err NElmObj :=
  if val.size = e.base.m * e.base.dim then do
    let w ← val.toShape [e.base.dim, e.base.m]
    .ok { e with w := w }
  else .error .valueError

/-- The setter of `nELM.b`, BF_Py.py 1317–1334. -/
def NElmObj.assignB (e : NElmObj) (val : Arr) : Except Err NElmObj :=
  if val.size = e.base.m then do
    let b ← val.toShape [1, e.base.m]
    .ok { e with b := b }
  else .error .valueError

/-- One assignment whose exceptions, if any, are caught by the caller. BF_Py.py 1299–1334. -/
def NElmObj.tryAssign (e : NElmObj) (op : SetOp Arr) : NElmObj :=
  match op with
  | .w a => match e.assignW a with
    | .ok e' => e'
    | .error _ => e
  | .b a => match e.assignB a with
    | .ok e' => e'
    | .error _ => e

end PyBF

end Verif.Model
