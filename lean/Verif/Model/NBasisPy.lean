import Verif.Model.BasisPy
import Verif.Spec.Multi

/-!
# Model of the n-dimensional classes of the Python backend: /repo/src/tfc/utils/BF_Py.py lines 869–1627

Simplifications: the numbers are of any type `K` with the operations that are used (exact real numbers for the Fourier series and the ELMs); `x0`, `xf` are vectors of length `dim` (the code reshapes them to
`(dim, 1)`); the table `nC` is an array of shape `(dim, numC)`; the arrays `vec` are functions of the row number; an
assignment of an array of the wrong shape to `T[:, :, k]` is a `ValueError` (numpy would broadcast axes of length 1).
-/

namespace Verif.Model.PyBF

open Verif.Py Verif.Np Verif.Spec

/-- The attributes of an `nBasisFunc` object; `hint m N z d` is the inherited `_Hint`. BF_Py.py 869–919. -/
structure NBasisFunc (K : Type) where
  m : ℕ
  nC : ℕ → ℕ → ℤ
  dim : ℕ
  numC : ℕ
  z0 : K
  x0 : ℕ → K
  c : ℕ → K
  hint : ℕ → ℕ → (ℕ → K) → ℕ → Except Err (Mat K)
  numBasisFunc : ℕ
  numBasisFuncFull : ℕ

/-- `np.sum(vec)`. BF_Py.py 949, 954, 1096, 1104. -/
def npSum (dim : ℕ) (vec : ℕ → ℕ) : ℕ := ((List.range dim).map vec).sum

/-- `np.all(np.any(vec == self._nC, axis=1))`. -/
def allRemoved (dim numC : ℕ) (nC : ℕ → ℕ → ℤ) (vec : ℕ → ℕ) : Bool :=
  (List.range dim).all fun k => (List.range numC).any fun g => (vec k : ℤ) == nC k g

/-- `_NumBasisFunc(dim, vec, n, full)`, BF_Py.py 921–959. The array `vec` is shared by all calls, so it is part of the
state; `dim` is the recursion depth and `ndim` is `self._dim`. -/
def numBasis (m ndim numC : ℕ) (nC : ℕ → ℕ → ℤ) (full : Bool) : ℕ → (ℕ → ℕ) × ℕ → (ℕ → ℕ) × ℕ
  | dim + 1, s => pfor 0 m (fun x s => numBasis m ndim numC nC full dim (Function.update s.1 (dim + 1) x, s.2)) s
  | 0, s => pfor 0 m (fun x s =>
      let vec := Function.update s.1 0 x
      if full then
        if (npSum ndim vec : ℤ) ≤ (m : ℤ) - 1 then (vec, s.2 + 1) else (vec, s.2)
      else
        if !(allRemoved ndim numC nC vec) && decide ((npSum ndim vec : ℤ) ≤ (m : ℤ) - 1) then (vec, s.2 + 1)
        else (vec, s.2)) s

variable {K : Type} [Zero K] [One K] [Add K] [Sub K] [Mul K] [Div K] [Neg K] [NatCast K] [Pow K ℕ]

/-- `nBasisFunc.__init__`, BF_Py.py 875–919. For `dim = 0` the first `vec[-1] = x` is an `IndexError` (if `m > 0`). -/
def NBasisFunc.init (hint : ℕ → ℕ → (ℕ → K) → ℕ → Except Err (Mat K)) (x0 xf : ℕ → K) (nC : ℕ → ℕ → ℤ) (dim numC : ℕ)
    (m : ℕ) (z0 zf : K) : Except Err (NBasisFunc K) :=
  if dim = 0 then .error .indexError
  else
    let vec : ℕ → ℕ := fun _ => 0
    let r := numBasis m dim numC nC false (dim - 1) (vec, 0)
    let r' := numBasis m dim numC nC true (dim - 1) (r.1, 0)
    .ok { m, nC, dim, numC, z0, x0, c := fun k => (zf - z0) / (xf k - x0 k), hint, numBasisFunc := r.2,
          numBasisFuncFull := r'.2 }

/-- One pass of the loop filling `T`, BF_Py.py 1040; `d[k]` beyond the end of `d` is an `IndexError`. -/
def NBasisFunc.stepT (self : NBasisFunc K) (N : ℕ) (z : ℕ → ℕ → K) (d : List ℕ) (T : ℕ → ℕ → ℕ → K) (k : ℕ) :
    Except Err (ℕ → ℕ → ℕ → K) :=
  match d[k]? with
  | none => .error .indexError
  | some dk => do
    let A ← self.hint self.m N (z k) dk
    if A.rows = N ∧ A.cols = self.m then
      .ok (fun i j l => if l = k then A.at_ i j * self.c k ^ dk else T i j l)
    else .error .valueError

/-- The loop filling `T`, BF_Py.py 1038–1040. -/
def NBasisFunc.fillT (self : NBasisFunc K) (N : ℕ) (z : ℕ → ℕ → K) (d : List ℕ) :
    Except Err (ℕ → ℕ → ℕ → K) :=
  (List.range self.dim).foldlM (self.stepT N z d) (fun _ _ _ => 0)

/-- `MultT(vec)`, BF_Py.py 1043–1061: `tout` starts at one and is multiplied by the chosen column of every dimension. -/
def multT (dim : ℕ) (T : ℕ → ℕ → ℕ → K) (vec : ℕ → ℕ) (i : ℕ) : K :=
  pfor 0 dim (fun k tout => tout * T i (vec k) k) 1

/-- `Recurse(dim, out, vec, n, full)`, BF_Py.py 1063–1111. -/
def recurse (m ndim numC : ℕ) (nC : ℕ → ℕ → ℤ) (full : Bool) (T : ℕ → ℕ → ℕ → K) :
    ℕ → (ℕ → ℕ) × Mat K × ℕ → (ℕ → ℕ) × Mat K × ℕ
  | dim + 1, s => pfor 0 m (fun x s => recurse m ndim numC nC full T dim (Function.update s.1 (dim + 1) x, s.2)) s
  | 0, s => pfor 0 m (fun x s =>
      let vec := Function.update s.1 0 x
      if full then
        if (npSum ndim vec : ℤ) ≤ (m : ℤ) - 1 then
          (vec, s.2.1.setCol s.2.2 (multT ndim T vec), s.2.2 + 1)
        else (vec, s.2)
      else
        if !(allRemoved ndim numC nC vec) && decide ((npSum ndim vec : ℤ) ≤ (m : ℤ) - 1) then
          (vec, s.2.1.setCol s.2.2 (multT ndim T vec), s.2.2 + 1)
        else (vec, s.2)) s

/-- `nBasisFunc.H(x, d, full)`, BF_Py.py 1006–1121, for an array `x` of shape `(xRows, N)`. The error message for a wrong
number of rows refers to the unassigned variable `z`. -/
def NBasisFunc.H (self : NBasisFunc K) (xRows N : ℕ) (x : ℕ → ℕ → K) (d : List ℕ) (full : Bool) :
    Except Err (Mat K) :=
  if xRows ≠ self.dim then .error .unboundLocal
  else do
    let z := fun k j => (x k j - self.x0 k) * self.c k + self.z0
    let T ← self.fillT N z d
    let out ← Mat.zeros N (if full then self.numBasisFuncFull else self.numBasisFunc)
    .ok (recurse self.m self.dim self.numC self.nC full T (self.dim - 1) (fun _ => 0, out, 0)).2.1

/-- `nCP.__init__`, BF_Py.py 1124–1152. -/
def nCP.init (x0 xf : ℕ → K) (nC : ℕ → ℕ → ℤ) (dim numC m : ℕ) : Except Err (NBasisFunc K) :=
  NBasisFunc.init CP.hint x0 xf nC dim numC m (-1) 1

/-- `nLeP.__init__`, BF_Py.py 1155–1183. -/
def nLeP.init (x0 xf : ℕ → K) (nC : ℕ → ℕ → ℤ) (dim numC m : ℕ) : Except Err (NBasisFunc K) :=
  NBasisFunc.init LeP.hint x0 xf nC dim numC m (-1) 1

/-- `nFS.__init__`, BF_Py.py 1186–1211. -/
def nFS.init [Libm K] (x0 xf : ℕ → K) (nC : ℕ → ℕ → ℤ) (dim numC m : ℕ) : Except Err (NBasisFunc K) :=
  NBasisFunc.init FS.hint x0 xf nC dim numC m (-Libm.pi) Libm.pi

/-- The class of a family, by name: `nCP`, `nLeP`, `nFS`, BF_Py.py 1124–1211. -/
noncomputable def nInit (f : NFamily) (x0 xf : ℕ → ℝ) (nC : ℕ → ℕ → ℤ) (dim numC m : ℕ) : Except Err (NBasisFunc ℝ) :=
  match f with
  | .cp => nCP.init x0 xf nC dim numC m
  | .lep => nLeP.init x0 xf nC dim numC m
  | .fs => nFS.init x0 xf nC dim numC m

/-! ## nELM -/

/-- The attributes of an `nELM` object; `w` has shape `(dim, m)`, `b` shape `(1, m)`. -/
structure NElm where
  m : ℕ
  nC : List ℤ
  numC : ℕ
  dim : ℕ
  z0 : ℝ
  x0 : ℕ → ℝ
  c : ℕ → ℝ
  w : ℕ → ℕ → ℝ
  b : ℕ → ℝ
  act : Activation

/-- `nELM.__init__`, BF_Py.py 1219–1272, for given weights and biases. -/
noncomputable def NElm.init (a : Activation) (w : ℕ → ℕ → ℝ) (b : ℕ → ℝ) (x0 xf : ℕ → ℝ) (dim : ℕ) (nC : List ℤ) (m : ℕ) :
    NElm :=
  { m, nC, numC := if nC.any (fun r => r != -1) then nC.length else 0, dim, z0 := 0, x0,
    c := fun k => (1 - 0) / (xf k - x0 k), w, b, act := a }

/-- `np.dot(z, w)` for `z` of shape `(N, dim)`: entry `(i, k)` for the row `z = zi`.
BF_Py.py 1434, 1437, 1464, 1511, 1558, 1606. -/
def npDot (dim : ℕ) (zi : ℕ → ℝ) (w : ℕ → ℕ → ℝ) (k : ℕ) : ℝ :=
  ((List.range dim).map fun l => zi l * w l k).sum

/-- The function `f` of the smooth classes applied to the columns of `z` (`jnp.split`), entry `(i, k)`: `nELMSin` 1464,
`nELMTanh` 1511, `nELMSigmoid` 1558, `nELMSwish` 1605–1607. -/
noncomputable def nElmF (a : Activation) (dim : ℕ) (w : ℕ → ℕ → ℝ) (b : ℕ → ℝ) (args : ℕ → ℕ → ℝ) (ik : ℕ × ℕ) : ℝ :=
  let dot := npDot dim (fun l => args l ik.1) w ik.2
  let b := b ik.2
  match a with
  | .sigmoid => 1 / (1 + Real.exp (-dot - b))
  | .tanh => Real.tanh (dot + b)
  | .sin => Real.sin (dot + b)
  | .swish => (dot + b) / (1 + Real.exp (-(dot + b)))
  | .relu => max 0 (dot + b)

/-- The inner function `Recurse(dark, d, dim, dCurr)` with `left = d - dCurr`: `nELMSin` 1468–1476 and its copies. -/
noncomputable def nElmRecurse (dim : ℕ) : ℕ → ((ℕ → ℕ → ℝ) → ℕ × ℕ → ℝ) → (ℕ → ℕ → ℝ) → ℕ × ℕ → ℝ
  | 0, dark => dark
  | left + 1, dark => nElmRecurse dim left (Jax.egrad dark dim)

/-- `for dim, deriv in enumerate(d)`, starting at dimension `k`: `nELMSin` 1480–1484 and its copies. Returns
`dark(*z) * dark2` as function and factor; `self._c[dim]` beyond the end is an `IndexError`. -/
noncomputable def nElmLoop (self : NElm) : ℕ → List ℕ → ((ℕ → ℕ → ℝ) → ℕ × ℕ → ℝ) → ℝ →
    Except Err (((ℕ → ℕ → ℝ) → ℕ × ℕ → ℝ) × ℝ)
  | _, [], dark, dark2 => .ok (dark, dark2)
  | k, deriv :: d, dark, dark2 =>
    if k < self.dim then nElmLoop self (k + 1) d (nElmRecurse k deriv dark) (dark2 * self.c k ^ deriv)
    else .error .indexError

/-- `_nHint` of the smooth classes, 1440–1627; `z` has shape `(N, dim)`. -/
noncomputable def nElmHint (self : NElm) (N : ℕ) (z : ℕ → ℕ → ℝ) (d : List ℕ) : Except Err (Mat ℝ) := do
  let (dark, dark2) ← nElmLoop self 0 d (nElmF self.act self.dim self.w self.b) 1
  .ok ⟨N, self.m, fun i k => dark (fun l i => z i l) (i, k) * dark2⟩

/-- The orders `d` as handed over: `mtfc` passes a tuple; a numpy array is also possible. BF_Py.py 1006, 1336. -/
inductive Orders
  | tuple (d : List ℕ)
  | array (d : List ℕ)

/-- The entries of `d`. BF_Py.py 1040. -/
def Orders.list : Orders → List ℕ
  | .tuple d => d
  | .array d => d

/-- `nELMReLU._nHint`, BF_Py.py 1402–1437. For a tuple `d == 1` is `False`, and `np.where(False)[0][0]` is an error (an
empty array or, in newer numpy versions, a refused call; `indexError` here). -/
noncomputable def nReluHint (self : NElm) (N : ℕ) (z : ℕ → ℕ → ℝ) (d : Orders) : Except Err (Mat ℝ) :=
  let dorder := d.list.sum
  if dorder > 1 then .ok ⟨N, self.m, fun _ _ => 0⟩
  else if dorder = 1 then
    match d with
    | .tuple _ => .error .indexError
    | .array d =>
      let ind := d.idxOf 1
      if ind < self.dim then
        .ok ⟨N, self.m, fun i k => self.c ind * self.w ind k *
          (if npDot self.dim (z i) self.w k + self.b k > 0 then 1 else 0)⟩
      else .error .indexError
  else .ok ⟨N, self.m, fun i k => max 0 (npDot self.dim (z i) self.w k + self.b k)⟩

/-- `self._nHint(z, d)`: the method of the class of the object. BF_Py.py 1372–1627. -/
noncomputable def NElm.nHint (self : NElm) (N : ℕ) (z : ℕ → ℕ → ℝ) (d : Orders) : Except Err (Mat ℝ) :=
  match self.act with
  | .relu => nReluHint self N z d
  | _ => nElmHint self N z d.list

/-- `nELM.H(x, d, full)`, BF_Py.py 1336–1369. -/
noncomputable def NElm.H (self : NElm) (xRows N : ℕ) (x : ℕ → ℕ → ℝ) (d : Orders) (full : Bool) :
    Except Err (Mat ℝ) :=
  if xRows ≠ self.dim then .error .unboundLocal
  else do
    let z := fun j k => (x k j - self.x0 k) * self.c k + self.z0
    let F ← self.nHint N z d
    if !full && decide (self.numC > 0) then F.delete self.nC else .ok F

end Verif.Model.PyBF
