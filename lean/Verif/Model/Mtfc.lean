import Verif.Model.UtfcJax
import Verif.Model.NElmCC
import Verif.Model.NBasisPy
import Verif.Spec.Arrays

/-!
# Model of the class `mtfc`: /repo/src/tfc/mtfc.py lines 77–639

Simplifications: exact reals; the entries of `n` are natural numbers; `x0`, `xf` are `None` or flat sequences; warnings are
dropped. A degenerate domain and a dimension with a single Chebyshev point give infinities or NaNs in the code, which the
exact reals do not have: nothing is claimed about them. JAX is modelled by the callables registered with it, as for `utfc`.
The random ELM weights and biases are parameters.
-/

namespace Verif.Model.Py

open Verif.Py Verif.Np Verif.Spec Verif.Mem

/-! ## The removed functions -/

/-- One entry of a list `nC`: an integer, or a list or (flattened) array of integers. mtfc.py 243–264. -/
inductive NCEntry
  | int (v : ℤ)
  | arr (l : List ℤ)
  deriving DecidableEq, Repr

/-- The types of `nC` distinguished in mtfc.py 200–240: an integer, a one-dimensional array, an array with two axes (given by
its number of columns and its rows), a list. -/
inductive MNCArg
  | int (k : ℤ)
  | array1 (l : List ℤ)
  | array2 (cols : ℕ) (rows : List (List ℤ))
  | list (l : List NCEntry)
  deriving DecidableEq, Repr

/-- `nCk = np.array([nC[k]]).flatten()` or `np.array(nC[k]).flatten()`, mtfc.py 243–246 and 261–264. -/
def NCEntry.flat : NCEntry → List ℤ
  | .int v => [v]
  | .arr l => l

/-- `maxk`, mtfc.py 247–250. -/
def maxk (nCk : List ℤ) : ℤ :=
  match nCk with
  | [v] => v
  | l => l.length

/-- The loop computing `nCmax`, mtfc.py 241–252. -/
def nCmaxOf (l : List NCEntry) : ℤ :=
  l.foldl (fun nCmax e => if maxk e.flat > nCmax then maxk e.flat else nCmax) 0

/-- `if j == 1: nCk = onp.arange(nCk[0])`, mtfc.py 266–268. -/
def expandOne (nCk : List ℤ) : List ℤ :=
  match nCk with
  | [v] => arange v
  | l => l

/-- The padding with `-1`, mtfc.py 269–273. -/
def padRow (nCmax : ℤ) (nCk : List ℤ) : List ℤ :=
  if (nCk.length : ℤ) < nCmax then
    if nCk.length = 0 then List.replicate nCmax.toNat (-1)
    else nCk ++ List.replicate (nCmax.toNat - nCk.length) (-1)
  else nCk

/-- One row of the table, mtfc.py 261–274; assigning a row of the wrong length to `onC[k, :]` is a `ValueError`. -/
def tableRow (nCmax : ℤ) (e : NCEntry) : Except Err (List ℤ) :=
  let r := padRow nCmax (expandOne e.flat)
  if r.length = nCmax.toNat then .ok r else .error .valueError

/-- mtfc.py 233–275: the number of columns and the rows of the table. -/
def tableOfList (deg dim : ℕ) (l : List NCEntry) : Except Err (ℕ × List (List ℤ)) :=
  if l.length ≠ dim then .error .exit
  else if nCmaxOf l > deg then .error .exit
  else do
    let rows ← l.mapM (tableRow (nCmaxOf l))
    .ok ((nCmaxOf l).toNat, rows)

/-- The table `self.nC` for the polynomial and Fourier bases, mtfc.py 214–275. -/
def mtfcNC (deg dim : ℕ) (nC : MNCArg) : Except Err (ℕ × List (List ℤ)) :=
  match nC with
  | .int _ => .error .exit
  | .array2 cols rows => if rows.length = dim then .ok (cols, rows) else .error .exit
  | .array1 l => tableOfList deg dim (l.map .int)
  | .list l => tableOfList deg dim l

/-- `self.nC` for the ELM bases, mtfc.py 201–213 (the same code as in `utfc`). Lists and arrays that are not flat lists of
integers are not modelled (`valueError`). -/
def mtfcElmNC (deg : ℕ) (nC : MNCArg) : Except Err (List ℤ) :=
  match nC with
  | .int k => utfcNC deg (.int k)
  | .array1 l => utfcNC deg (.jaxArray l)
  | .array2 _ _ => .error .valueError
  | .list l =>
    if l.all (fun e => match e with | .int _ => true | .arr _ => false) then
      utfcNC deg (.list (l.flatMap NCEntry.flat))
    else .error .valueError

/-! ## The basis object -/

/-- The classes `mtfc` can construct. mtfc.py 286–319. -/
inductive MClass
  | tensor (f : NFamily)
  | elm (a : Activation) (w : ℕ → ℕ → ℝ) (b : ℕ → ℝ)

/-- The chain mtfc.py 286–319. -/
def BasisName.mcls (w : ℕ → ℕ → ℝ) (b : ℕ → ℝ) : BasisName → MClass
  | .cp => .tensor .cp
  | .lep => .tensor .lep
  | .fs => .tensor .fs
  | .elm a => .elm a w b

/-- What `self.basisClass` can be. mtfc.py 286–319. -/
inductive MObj
  | cppTensor (bf : CC.NBasisFunc ℝ)
  | cppElm (e : CC.NElm ℝ)
  | pyTensor (bf : PyBF.NBasisFunc ℝ)
  | pyElm (e : PyBF.NElm)

/-- An exception-free compiled call, seen from Python. The pybind call at mtfc.py 286–319. -/
def liftCC {α : Type} (r : Except Fault α) : Except Err α :=
  match r with
  | .ok a => .ok a
  | .error _ => .error .crash

/-- `BF.<class>(self.x0, self.xf, self.nC, self.deg + 1)`; `tab` is the table (tensor bases), `nCl` the list (ELM bases). -/
noncomputable def MObj.new (backend : Backend) (cls : MClass) (dim : ℕ) (x0 xf : ℕ → ℝ) (numC : ℕ) (tab : ℕ → ℕ → ℤ)
    (nCl : List ℤ) (m : ℕ) : Except Err MObj :=
  match backend, cls with
  | .cpp, .tensor f => (liftCC (CC.nNew f (Buf.ofVec fun k : Fin dim => x0 k) dim (Buf.ofVec fun k : Fin dim => xf k)
      (Buf.ofMat fun (k : Fin dim) (g : Fin numC) => tab k g) dim numC m)).map .cppTensor
  | .cpp, .elm a w b => (liftCC (CC.NElm.new a (Buf.ofMat fun (i : Fin dim) (k : Fin m) => w i k) (Buf.ofFn m b)
      (Buf.ofVec fun k : Fin dim => x0 k) dim (Buf.ofVec fun k : Fin dim => xf k) nCl m)).map .cppElm
  | .python, .tensor f => (PyBF.nInit f x0 xf tab dim numC m).map .pyTensor
  | .python, .elm a w b => .ok (.pyElm (PyBF.NElm.init a w b x0 xf dim nCl m))

/-- `basisClass.c`. mtfc.py 326; BF_Py.cc 214–219, BF_Py.py 962–974. -/
noncomputable def MObj.c : MObj → ℕ → ℝ
  | .cppTensor bf, k => (bf.c.cell k).getD 0
  | .cppElm e, k => (e.c.cell k).getD 0
  | .pyTensor bf, k => bf.c k
  | .pyElm e, k => e.c k

/-- `basisClass.numBasisFuncFull` and `basisClass.numBasisFunc`. mtfc.py 321; BF_Py.cc 231–232, BF_Py.py 977–1004. -/
def MObj.numBasis : MObj → Bool → ℤ
  | .cppTensor bf, full => if full then (bf.numBasisFuncFull : ℤ) else (bf.numBasisFunc : ℤ)
  | .cppElm e, full => if full then e.numBasisFuncFull else e.numBasisFunc
  | .pyTensor bf, full => if full then (bf.numBasisFuncFull : ℤ) else (bf.numBasisFunc : ℤ)
  | .pyElm e, full => if full then (e.m : ℤ) else (e.m : ℤ) - e.numC

/-- `self.basisClass.H(np.array(x), d, full)` (`H_impl`, mtfc.py 546–547) for `dim` arrays of `n` points each: `xs j k` is
coordinate `k` of point `j`; `d` is a tuple. -/
noncomputable def MObj.H (o : MObj) (dim n : ℕ) (xs : ℕ → ℕ → ℝ) (d : List ℕ) (full : Bool) : Except Err (Mat ℝ) :=
  match o with
  | .cppTensor bf => fromCC (bf.H (Buf.ofMat fun (k : Fin dim) (j : Fin n) => xs j k) n (Buf.ofList d) d.length full)
  | .cppElm e => fromCC (e.H (Buf.ofMat fun (k : Fin dim) (j : Fin n) => xs j k) n (Buf.ofList d) d.length full)
  | .pyTensor bf => bf.H dim n (fun k j => xs j k) d full
  | .pyElm e => e.H dim n (fun k j => xs j k) (.tuple d) full

/-! ## The grid -/

/-- The points of one dimension: mtfc.py 335–339 (Chebyshev, Legendre) and 347–349. -/
noncomputable def dimPoints (basis : BasisName) (x00 : ℝ) (nk : ℕ) : List ℝ :=
  match basis with
  | .cp | .lep =>
    let j := nk - 1
    (linspace (0 * x00) j nk).map fun I => Real.cos (Real.pi * ((j : ℝ) - I) / (j : ℝ))
  | b => linspace b.zRange.1 b.zRange.2 nk

/-- `onp.array([onp.hstack([dark] * nProd).flatten()] * nStack).flatten()` for the column `dark` (shape `(n[k], 1)`) of the
points `p`: stacking `nProd` copies side by side and flattening repeats every point `nProd` times. `np.hstack([])` is a
`ValueError`. mtfc.py 333–341, 345–351. -/
def gridRow {α : Type} (n : List ℕ) (k : ℕ) (p : List α) : Except Err (List α) :=
  let nProd := (n.drop (k + 1)).prod
  let nStack := (n.take k).prod
  if nProd = 0 then .error .valueError
  else .ok (List.replicate nStack (p.flatMap fun v => List.replicate nProd v)).flatten

/-- `self.z`, mtfc.py 329–352. -/
noncomputable def mtfcZ (basis : BasisName) (x00 : ℝ) (n : List ℕ) : Except Err (List (List ℝ)) :=
  (List.range n.length).mapM fun k => gridRow n k (dimPoints basis x00 (n.getD k 0))

/-! ## The object -/

/-- The attributes set by `mtfc.__init__`. mtfc.py 77–359. -/
structure Mtfc where
  n : List ℕ
  N : ℕ
  deg : ℕ
  dim : ℕ
  basis : BasisName
  x0 : ℕ → ℝ
  xf : ℕ → ℝ
  numC : ℕ
  tab : ℕ → ℕ → ℤ
  nCl : List ℤ
  obj : MObj
  z : List (List ℝ)
  x : List (List ℝ)

/-- The entries of a sequence as a function. The arrays made of `x0` and `xf`, mtfc.py 124–185. -/
def vecOf (l : List ℝ) (k : ℕ) : ℝ := l.getD k 0

/-- `self.x0` (and `self.xf`), mtfc.py 124–198. -/
def mtfcEnd (dim : ℕ) (x0 : Option (List ℝ)) : Except Err (List ℝ) :=
  match x0 with
  | none => .ok (List.replicate dim 0)
  | some l => if l.length = dim then .ok l else .error .exit

/-- The removed functions of both kinds of bases: `(numC, table, list)`. mtfc.py 200–275. -/
def mtfcRemoved (deg dim : ℕ) (bn : BasisName) (nC : MNCArg) : Except Err (ℕ × List (List ℤ) × List ℤ) :=
  match bn with
  | .elm _ => do
    let l ← mtfcElmNC deg nC
    .ok (0, [], l)
  | _ => do
    let t ← mtfcNC deg dim nC
    .ok (t.1, t.2, [])

/-- The first entry of the argument `x0` used in mtfc.py 338: for `None` the subscription is a `TypeError`. -/
def x0First (bn : BasisName) (dim : ℕ) (x0 : Option (List ℝ)) : Except Err ℝ :=
  match bn, x0 with
  | .cp, none => if dim = 0 then .ok 0 else .error .typeError
  | .lep, none => if dim = 0 then .ok 0 else .error .typeError
  | _, none => .ok 0
  | _, some l => .ok (l.getD 0 0)

/-- `mtfc.__init__`, mtfc.py 77–359. The name of the basis is looked up first (in the code the name decides between the two
treatments of `nC`, an unknown name being treated like a non-ELM one and rejected later: the outcome is an exit in both cases
unless `nC` itself is rejected with another error). -/
noncomputable def mtfcInit (n : List ℕ) (nC : MNCArg) (deg dim : ℕ) (basis : String) (x0 xf : Option (List ℝ))
    (backend : String) (w : ℕ → ℕ → ℝ) (b : ℕ → ℝ) : Except Err Mtfc :=
  if n.length ≠ dim then .error .exit
  else do
    let x0l ← mtfcEnd dim x0
    let xfl ← mtfcEnd dim xf
    match BasisName.parse basis, Backend.parse backend with
    | some bn, some be => do
      let r ← mtfcRemoved deg dim bn nC
      let tab := fun k g => (r.2.1.getD k []).getD g 0
      let obj ← MObj.new be (bn.mcls w b) dim (vecOf x0l) (vecOf xfl) r.1 tab r.2.2 (deg + 1)
      let x00 ← x0First bn dim x0
      let z ← mtfcZ bn x00 n
      let x := (List.range dim).map fun k => (z.getD k []).map fun z => (z - bn.zRange.1) / obj.c k + vecOf x0l k
      .ok { n, N := n.prod, deg, dim, basis := bn, x0 := vecOf x0l, xf := vecOf xfl, numC := r.1, tab, nCl := r.2.2, obj,
            z, x }
    | _, _ => .error .exit

/-! ## The methods -/

/-- `self._Hjax(*x, d=d, full=full)` run eagerly. mtfc.py 542–547. -/
noncomputable def Mtfc.Hjax (self : Mtfc) (n : ℕ) (xs : ℕ → ℕ → ℝ) (d : List ℕ) (full : Bool) : Except Err (Mat ℝ) :=
  self.obj.H self.dim n xs d full

/-- `tuple(a if k == p else 0 for k in range(self.dim))`. -/
def unitTuple (dim a p : ℕ) : List ℕ := (List.range dim).map fun k => if k = p then a else 0

/-- `d = [0 for _ in range(self.dim)]; d[0] = a; d[1] = b` (an `IndexError` for fewer than two dimensions). -/
def pairTuple (dim a b : ℕ) : Except Err (List ℕ) :=
  if dim < 2 then .error .indexError else .ok (((List.replicate dim 0).set 0 a).set 1 b)

/-- `mtfc.H`, mtfc.py 361–379. -/
noncomputable def Mtfc.H (self : Mtfc) (n : ℕ) (xs : ℕ → ℕ → ℝ) (full : Bool) :=
  self.Hjax n xs (List.replicate self.dim 0) full
/-- `mtfc.Hx`, mtfc.py 381–399. -/
noncomputable def Mtfc.Hx (self : Mtfc) (n : ℕ) (xs : ℕ → ℕ → ℝ) (full : Bool) :=
  self.Hjax n xs (unitTuple self.dim 1 0) full
/-- `mtfc.Hx2`, mtfc.py 401–419. -/
noncomputable def Mtfc.Hx2 (self : Mtfc) (n : ℕ) (xs : ℕ → ℕ → ℝ) (full : Bool) :=
  self.Hjax n xs (unitTuple self.dim 2 0) full
/-- `mtfc.Hy2`, mtfc.py 421–439. -/
noncomputable def Mtfc.Hy2 (self : Mtfc) (n : ℕ) (xs : ℕ → ℕ → ℝ) (full : Bool) :=
  self.Hjax n xs (unitTuple self.dim 2 1) full
/-- `mtfc.Hx2y`, mtfc.py 441–462. -/
noncomputable def Mtfc.Hx2y (self : Mtfc) (n : ℕ) (xs : ℕ → ℕ → ℝ) (full : Bool) : Except Err (Mat ℝ) := do
  let d ← pairTuple self.dim 2 1
  self.Hjax n xs d full
/-- `mtfc.Hy`, mtfc.py 464–482. -/
noncomputable def Mtfc.Hy (self : Mtfc) (n : ℕ) (xs : ℕ → ℕ → ℝ) (full : Bool) :=
  self.Hjax n xs (unitTuple self.dim 1 1) full
/-- `mtfc.Hxy`, mtfc.py 484–505. -/
noncomputable def Mtfc.Hxy (self : Mtfc) (n : ℕ) (xs : ℕ → ℕ → ℝ) (full : Bool) : Except Err (Mat ℝ) := do
  let d ← pairTuple self.dim 1 1
  self.Hjax n xs d full
/-- `mtfc.Hz`, mtfc.py 507–525. -/
noncomputable def Mtfc.Hz (self : Mtfc) (n : ℕ) (xs : ℕ → ℕ → ℝ) (full : Bool) :=
  self.Hjax n xs (unitTuple self.dim 1 2) full

/-- A tangent handed to the rule: a symbolic zero (an instance of `ad.Zero`) or an array with the shape of the points.
mtfc.py 615–635. -/
inductive Tangent
  | zero
  | arr (t : ℕ → ℝ)

/-- `A + B`; arrays of different shape are a `ValueError` here (numpy would broadcast axes of length 1). -/
def addMat (A B : Mat ℝ) : Except Err (Mat ℝ) :=
  if A.rows = B.rows ∧ A.cols = B.cols then .ok ⟨A.rows, A.cols, fun i j => A.at_ i j + B.at_ i j⟩ else .error .valueError

/-- `tuple(d[j] + 1 if k == j else d[j] for j in range(len(d)))`, mtfc.py 628. -/
def bump (d : List ℕ) (k : ℕ) : List ℕ := (List.range d.length).map fun j => if k = j then d.getD j 0 + 1 else d.getD j 0

/-- One pass of the loop over the dimensions, mtfc.py 625–634, for points given as one-dimensional arrays and concrete
(not traced) tangents. -/
noncomputable def Mtfc.jvpStep (self : Mtfc) (n : ℕ) (xs : ℕ → ℕ → ℝ) (tans : ℕ → Tangent) (d : List ℕ) (full : Bool)
    (out : Mat ℝ) (k : ℕ) : Except Err (Mat ℝ) :=
  match tans k with
  | .zero => .ok out
  | .arr t =>
    open scoped Classical in
    if ∃ j < n, t j ≠ 0 then do
      let A ← self.Hjax n xs (bump d k) full
      let B ← Mat.scaleRows A n t
      addMat out B
    else .ok out

/-- `H_jvp`, mtfc.py 615–635. -/
noncomputable def Mtfc.H_jvp (self : Mtfc) (n : ℕ) (xs : ℕ → ℕ → ℝ) (tans : ℕ → Tangent) (d : List ℕ) (full : Bool) :
    Except Err (Mat ℝ × Mat ℝ) := do
  let out ← Mat.zeros n (self.obj.numBasis full)
  let out ← (List.range self.dim).foldlM (self.jvpStep n xs tans d full) out
  let P ← self.Hjax n xs d full
  .ok (P, out)

end Verif.Model.Py
