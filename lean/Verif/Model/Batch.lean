import Verif.Model.Mtfc
import Verif.Model.ElmSet

/-!
# Model of the batching rules and of the shapes of the primitive `H`: utfc.py 298–356, mtfc.py 546–610

`jax.vmap` replaces every array by a larger one with one more axis and calls the rule `H_batch` with the larger arrays and the
position of the new axis in each of them (`None` for an argument that does not depend on the mapped variable). The rule
returns an array and the position of the mapped axis in it.
-/

namespace Verif.Model.Py

open Verif.Py Verif.Np Verif.Spec Verif.Mem

/-- A matrix as an array with two axes. What `H_impl` returns, utfc.py 298–299, mtfc.py 546–547. -/
def arrOfMat (A : Mat ℝ) : PyBF.Arr := ⟨[A.rows, A.cols], fun i => A.at_ (i / A.cols) (i % A.cols)⟩

/-- `H_impl`, utfc.py 298–299, for an array of any shape. Compiled classes refuse everything but one axis (BF_Py.cc 113–115).
For the Python classes only one axis, and a single column (which `np.expand_dims` at BF_Py.py 81 leaves as it is), are
modelled; what happens for other shapes depends on the class and is not modelled (`valueError`). -/
noncomputable def Utfc.implArr (self : Utfc) (X : PyBF.Arr) (d : ℕ) (full : Bool) : Except Err PyBF.Arr :=
  match self.backend, X.shape with
  | _, [n] => (self.Hjax n X.vals d full).map arrOfMat
  | .python, [n, 1] => (self.Hjax n X.vals d full).map arrOfMat
  | _, _ => .error .valueError

/-- `dim1` of `H_abstract_eval` and `H_xla`, utfc.py 305–308 and 326–329. -/
def Utfc.dim1 (self : Utfc) (full : Bool) : ℕ := if full then self.deg + 1 else self.deg + 1 - self.nC.length

/-- `H_abstract_eval`, utfc.py 304–313: the shape announced for points of shape `s`. -/
def Utfc.abstractShape (self : Utfc) (s : List ℕ) (full : Bool) : List ℕ :=
  match s with
  | [] => [self.dim1 full]
  | n :: _ => [n, self.dim1 full]

/-- What a compiled program receives from the custom call. utfc.py 320–352. -/
def fromXla (shape : List ℕ) (r : Except Fault (Buf ℝ)) : Except Err PyBF.Arr :=
  match r with
  | .error _ => .error .crash
  | .ok F =>
    if (List.range shape.prod).all (fun i => (F.cell i).isSome) then .ok ⟨shape, fun i => (F.cell i).getD 0⟩
    else .error .crash

/-- A compiled (JIT) evaluation for the compiled backend: `H_xla`, utfc.py 320–352, and the custom call it describes. The
operand is the array of points in C order, of whatever shape. -/
noncomputable def Utfc.jitArr (self : Utfc) (X : PyBF.Arr) (d : ℕ) (full : Bool) : Except Err PyBF.Arr :=
  match X.shape with
  | [] => .error .indexError
  | dim0 :: _ => fromXla [dim0, self.dim1 full]
      ((CC.uniNew self.cls self.x0 self.xf self.nC (self.deg + 1)).xla (alloc (dim0 * self.dim1 full))
        (Buf.ofFn X.size X.vals) d full dim0 (self.dim1 full))

/-- `np.array(x)` for the tuple of coordinates: they must have one shape; and `basisClass.H` wants one axis for each
(BF_Py.cc 239–241). Python classes: only one axis is modelled. -/
noncomputable def Mtfc.implArr (self : Mtfc) (X : List PyBF.Arr) (d : List ℕ) (full : Bool) : Except Err PyBF.Arr :=
  match X with
  | [] => .error .valueError
  | x :: _ =>
    if X.all (fun y => y.shape == x.shape) then
      match x.shape with
      | [n] => (self.Hjax n (fun j k => (X.getD k ⟨[], fun _ => 0⟩).vals j) d full).map arrOfMat
      | _ => .error .valueError
    else .error .valueError

/-- `H_batch`, utfc.py 355–356 and mtfc.py 609–610. -/
def H_batch (bind : List PyBF.Arr → Except Err PyBF.Arr) (vec : List PyBF.Arr) (batch : List (Option ℕ)) :
    Except Err (PyBF.Arr × Option ℕ) :=
  (bind vec).map fun r => (r, (batch.head?).join)

/-- The rule of a `utfc` object applied to its only argument; `jit` chooses the compiled evaluation. utfc.py 355–358. -/
noncomputable def Utfc.vmap (self : Utfc) (jit : Bool) (X : PyBF.Arr) (axis : ℕ) (d : ℕ) (full : Bool) :
    Except Err (PyBF.Arr × Option ℕ) :=
  H_batch (fun vec => match vec with
    | [X] => if jit then self.jitArr X d full else self.implArr X d full
    | _ => .error .typeError) [X] [some axis]

/-- The rule of an `mtfc` object, run eagerly. mtfc.py 609–612. -/
noncomputable def Mtfc.vmap (self : Mtfc) (X : List PyBF.Arr) (axes : List (Option ℕ)) (d : List ℕ) (full : Bool) :
    Except Err (PyBF.Arr × Option ℕ) :=
  H_batch (fun vec => self.implArr vec d full) X axes

end Verif.Model.Py
