import Verif.Model.ElmSet
import Verif.Model.UniCC

/-!
# Constructors and `H` of the basis classes as seen from Python

Compiled backend: the pybind11 layer /repo/src/tfc/utils/BF_Py.cc 8–85, 111–130, 233–257. Python backend: what the constructors
and `H` of the n-dimensional classes do with the shapes of their arguments (/repo/src/tfc/utils/BF_Py.py 903–915, 1029–1032,
1242–1259).

An argument declared as `py::array_t<T>` (without `c_style`) receives an array of element type `T` as it is, whatever its layout;
arrays of other element types are converted by numpy first and are then again such an argument. Derivative orders are natural
numbers.
-/

namespace Verif.Model.Bind

open Verif.Mem Verif.Py Verif.Np Verif.Spec Verif.Model.Py

/-! ## Compiled backend -/

/-- `memcpy(nC, nCin, n * sizeof(int))`: the object's own copy of the removed indices, which the model of the object keeps as
a list. BF.cc 28–29 and 1289–1290. -/
def ints (p : Buf ℤ) (n : ℕ) : Except Fault (List ℤ) :=
  loop 0 n (fun i l => do
    let v ← p.read i
    .ok (l ++ [v])) []

/-- The constructors of the univariate classes, `add1DInit`, BF_Py.cc 8–28. -/
noncomputable def newUni (cls : UniClass) (x0 xf : ℝ) (nC : NdArr ℤ) (m : ℕ) : Except Err (CC.BasisFunc ℝ) :=
  if nC.shape.length ≠ 1 then .error .valueError
  else do
    let l ← liftCC (ints nC.data nC.size)
    .ok (CC.uniNew cls x0 xf l m)

/-- The constructors of the n-dimensional tensor-product classes, `addNdInit`, BF_Py.cc 30–57. The size of `xf` is handed over
but never looked at (BF.cc 1013–1062). -/
noncomputable def newNd (f : NFamily) (x0 xf : NdArr) (nC : NdArr ℤ) (m : ℕ) : Except Err (CC.NBasisFunc ℝ) :=
  if x0.shape.length ≠ 1 then .error .valueError
  else if xf.shape.length ≠ 1 then .error .valueError
  else
    match nC.shape with
    | [ncDim0, ncDim1] => liftCC (CC.nNew f x0.data x0.size xf.data nC.data ncDim0 ncDim1 m)
    | _ => .error .valueError

/-- The constructors of the n-dimensional ELM classes, `addNdElmInit`, BF_Py.cc 59–85; the weights and biases the C++
constructor draws are parameters. The block for the `nC.size` removed indices has `dim * nC.size` cells (BF.cc 1289), too few
for `dim = 0`. -/
noncomputable def newNElm (a : Activation) (w b : Buf ℝ) (x0 xf : NdArr) (nC : NdArr ℤ) (m : ℕ) : Except Err (CC.NElm ℝ) :=
  if x0.shape.length ≠ 1 then .error .valueError
  else if xf.shape.length ≠ 1 then .error .valueError
  else if nC.shape.length ≠ 1 then .error .valueError
  else do
    let l ← liftCC (ints nC.data nC.size)
    if x0.size * nC.size < nC.size then .error .crash
    else liftCC (CC.NElm.new a w b x0.data x0.size xf.data l m)

/-- `H(x, d, full)` of the univariate classes, BF_Py.cc 111–130: `x` is made contiguous. -/
noncomputable def callUni (bf : CC.BasisFunc ℝ) (x : NdArr) (d : ℕ) (full : Bool) : Except Err (ℕ × ℕ × Buf ℝ) :=
  if x.shape.length ≠ 1 then .error .valueError
  else do
    let xb ← liftCC x.cStyle
    liftCC (bf.H xb x.size d full)

/-- `H(x, d, full)` of the n-dimensional classes, BF_Py.cc 233–257: `x` and `d` are made contiguous; `h` is the C++ method `H`.
The number of rows of `x` is handed over but never looked at (BF.cc 1074–1088). -/
def callNd (h : Buf ℝ → ℕ → Buf ℕ → ℕ → Bool → Except Fault (ℕ × ℕ × Buf ℝ)) (x : NdArr) (d : NdArr ℕ) (full : Bool) :
    Except Err (ℕ × ℕ × Buf ℝ) :=
  match x.shape with
  | [_, n] =>
    match d.shape with
    | [r] => do
      let xb ← liftCC x.cStyle
      let db ← liftCC d.cStyle
      liftCC (h xb n db r full)
    | _ => .error .valueError
  | _ => .error .valueError

/-- Assignment to the attribute `c` of an n-dimensional object, BF_Py.cc 220–230: the value is checked and then dropped. -/
def setC (bf : CC.NBasisFunc ℝ) (c : NdArr) : Except Err (CC.NBasisFunc ℝ) :=
  match c.shape with
  | [k] => if k ≠ bf.dim then .error .valueError else .ok bf
  | _ => .error .valueError

/-! ## Python backend -/

/-- The constructors `nCP`, `nLeP`, `nFS`, BF_Py.py 903–919: `dim` is the number of rows of `nC`; `reshape((dim, 1))` of an array
with another number of elements is a `ValueError`. `nC.shape[1]` of an array with one axis is an `IndexError`. An `nC` with
more than two axes is not modelled (it is a `ValueError` here). -/
noncomputable def newNdPy (f : NFamily) (x0 xf : NdArr) (nC : NdArr ℤ) (m : ℕ) : Except Err (PyBF.NBasisFunc ℝ) :=
  match nC.shape with
  | [] => .error .indexError
  | [_] => .error .indexError
  | [dim, numC] =>
    if x0.size ≠ dim then .error .valueError
    else if xf.size ≠ dim then .error .valueError
    else PyBF.nInit f (fun k => (x0.entry k).getD 0) (fun k => (xf.entry k).getD 0)
      (fun k g => (nC.entry (k * numC + g)).getD 0) dim numC m
  | _ => .error .valueError

/-- `H(x, d, full)` of the n-dimensional classes, BF_Py.py 1028–1040, on numpy arrays: `x.shape[1]` of an array with one axis is
an `IndexError`. Arrays with more than two axes are not modelled (a `ValueError` here). -/
noncomputable def callNdPy (bf : PyBF.NBasisFunc ℝ) (x : NdArr) (d : NdArr ℕ) (full : Bool) : Except Err (Mat ℝ) :=
  match x.shape with
  | [] => .error .indexError
  | [_] => .error .indexError
  | [r, n] =>
    match d.shape with
    | [q] => bf.H r n (fun k j => (x.entry (k * n + j)).getD 0) ((List.range q).map fun k => (d.entry k).getD 0) full
    | _ => .error .indexError
  | _ => .error .valueError

end Verif.Model.Bind
