import Verif.Model.ElmCC
import Verif.Spec.Multi

/-!
# Model of the compiled n-dimensional tensor-product bases: /repo/src/tfc/utils/BF.cc lines 1012–1263, BF.h 416–574

Simplifications: `double` is any type `K` with the operations that are used (see Model/PolyCC); `int` has no overflow; derivative orders and sizes are natural numbers;
`dim = 0` (which would make the C++ code write `vec[-1]`) is the fault `oobWrite`. The registry part of the constructor is
in `Verif.Model.Registry`.
-/

namespace Verif.Model.CC

open Verif.Mem

/-- `memcpy(dst, src, n * sizeof(α))`. BF.cc 29, 1032, 1035, 1287, 1290. -/
def memcpy {α : Type} (dst src : Buf α) (n : ℕ) : Except Fault (Buf α) :=
  loop 0 n (fun i dst => do
    let v ← src.read i
    dst.write i v) dst

section Counting

/-- The loop over `g` with `flag1` and `break`: is `vec[j]` none of the entries of row `j` of `nC`?
BF.cc 1173–1180 (and 1236–1243). -/
def freeDim (numC : ℕ) (nC : Buf ℤ) (vec : Buf ℕ) (j : ℕ) : Except Fault Bool :=
  loop 0 numC (fun g flag1 =>
    if flag1 = false then .ok false
    else do
      let v ← vec.read j
      let r ← nC.read (j * numC + g)
      if (v : ℤ) = r then .ok false else .ok true) true

/-- The loop over `j` computing `flag`, BF.cc 1172–1183 (and 1235–1246). -/
def anyFree (dim numC : ℕ) (nC : Buf ℤ) (vec : Buf ℕ) : Except Fault Bool :=
  loop 0 dim (fun j flag => do
    let flag1 ← freeDim numC nC vec j
    if flag1 then .ok true else .ok flag) false

/-- `for (j = 0; j < dim; j++) sum += vec[j]`, BF.cc 1164–1165 etc. -/
def sumVec (dim : ℕ) (vec : Buf ℕ) : Except Fault ℕ :=
  loop 0 dim (fun j sum => do
    let v ← vec.read j
    .ok (sum + v)) 0

/-- `nBasisFunc::NumBasisFunc`, BF.cc 1148–1196. The state is the pair of `vec` and `count`. -/
def NumBasisFunc (dim m numC : ℕ) (nC : Buf ℤ) (full : Bool) :
    ℕ → Buf ℕ × ℕ → Except Fault (Buf ℕ × ℕ)
  | dimCurr + 1, s => loop 0 m (fun k s => do
      let vec ← s.1.write (dimCurr + 1) k
      NumBasisFunc dim m numC nC full dimCurr (vec, s.2)) s
  | 0, s => loop 0 m (fun k s => do
      let vec ← s.1.write 0 k
      if full then do
        let sum ← sumVec dim vec
        if (sum : ℤ) ≤ (m : ℤ) - 1 then .ok (vec, s.2 + 1) else .ok (vec, s.2)
      else do
        let flag ← anyFree dim numC nC vec
        if flag then do
          let sum ← sumVec dim vec
          if (sum : ℤ) ≤ (m : ℤ) - 1 then .ok (vec, s.2 + 1) else .ok (vec, s.2)
        else .ok (vec, s.2)) s

end Counting

variable {K : Type} [Zero K] [One K] [Add K] [Sub K] [Mul K] [Div K] [Neg K] [NatCast K] [Pow K ℕ]

/-- The inner loops `for h … for l … out[h*numBasis+count] *= T[m*in*l + vec[l] + h*m]`, BF.cc 1223–1226 (and 1253–1256). -/
def multiplyColumn (dim m n numBasis : ℕ) (T : Buf K) (vec : Buf ℕ) (count : ℕ) (out : Buf K) :
    Except Fault (Buf K) :=
  loop 0 n (fun h out =>
    loop 0 dim (fun l out => do
      let v ← vec.read l
      let t ← T.read (m * n * l + v + h * m)
      let o ← out.read (h * numBasis + count)
      out.write (h * numBasis + count) (o * t)) out) out

/-- `nBasisFunc::RecurseBasis`, BF.cc 1198–1263. The state is `vec`, `count` and `out`. -/
def RecurseBasis (dim m numC : ℕ) (nC : Buf ℤ) (full : Bool) (n numBasis : ℕ) (T : Buf K) :
    ℕ → Buf ℕ × ℕ × Buf K → Except Fault (Buf ℕ × ℕ × Buf K)
  | dimCurr + 1, s => loop 0 m (fun k s => do
      let vec ← s.1.write (dimCurr + 1) k
      RecurseBasis dim m numC nC full n numBasis T dimCurr (vec, s.2)) s
  | 0, s => loop 0 m (fun k s => do
      let vec ← s.1.write 0 k
      if full then do
        let sum ← sumVec dim vec
        if (sum : ℤ) ≤ (m : ℤ) - 1 then do
          let out ← multiplyColumn dim m n numBasis T vec s.2.1 s.2.2
          .ok (vec, s.2.1 + 1, out)
        else .ok (vec, s.2)
      else do
        let flag ← anyFree dim numC nC vec
        if flag then do
          let sum ← sumVec dim vec
          if (sum : ℤ) ≤ (m : ℤ) - 1 then do
            let out ← multiplyColumn dim m n numBasis T vec s.2.1 s.2.2
            .ok (vec, s.2.1 + 1, out)
          else .ok (vec, s.2)
        else .ok (vec, s.2)) s

/-- The data members of `nBasisFunc` (BF.h 416–438 and the inherited `m`, `nC`, `numC`); `hint` is the virtual function
`Hint`. -/
structure NBasisFunc (K : Type) where
  dim : ℕ
  m : ℕ
  numC : ℕ
  z0 : K
  x0 : Buf K
  nC : Buf ℤ
  c : Buf K
  numBasisFunc : ℕ
  numBasisFuncFull : ℕ
  hint : ℕ → ℕ → Buf K → ℕ → Buf K → Except Fault (Buf K)

/-- `c = new double[dim]; for k: c[k] = (zf - z0) / (xf[k] - x0[k])`, BF.cc 1038–1040 (and 1296–1298). -/
def newC (dim : ℕ) (z0 zf : K) (x0 xf : Buf K) : Except Fault (Buf K) :=
  loop 0 dim (fun k c => do
    let b ← xf.read k
    let a ← x0.read k
    c.write k ((zf - z0) / (b - a))) (alloc dim)

/-- Constructor `nBasisFunc::nBasisFunc`, BF.cc 1013–1062. The calls `NumBasisFunc(dim - 1, …)` share the block `vec`. -/
def NBasisFunc.new (hint : ℕ → ℕ → Buf K → ℕ → Buf K → Except Fault (Buf K))
    (x0in : Buf K) (x0Dim0 : ℕ) (xf : Buf K) (nCin : Buf ℤ) (ncDim0 ncDim1 min : ℕ) (z0in zfin : K) :
    Except Fault (NBasisFunc K) := do
  let dim := x0Dim0
  let numC := ncDim1
  let x0 ← memcpy (alloc dim) x0in dim
  let nC ← memcpy (alloc (dim * numC)) nCin (ncDim0 * ncDim1)
  let c ← newC dim z0in zfin x0 xf
  if dim = 0 then .error .oobWrite
  else do
    let (vec, numBasisFunc) ← NumBasisFunc dim min numC nC false (dim - 1) (alloc dim, 0)
    let (_, numBasisFuncFull) ← NumBasisFunc dim min numC nC true (dim - 1) (vec, 0)
    .ok { dim := dim, m := min, numC := numC, z0 := z0in, x0 := x0, nC := nC, c := c,
          numBasisFunc := numBasisFunc, numBasisFuncFull := numBasisFuncFull, hint := hint }

/-- The mapped points `z[j*n+k] = (x[j*n+k] - x0[j]) * c[j] + z0`, BF.cc 1115–1118 (and 1375–1378). -/
def mapPointsN (dim : ℕ) (x0 c : Buf K) (z0 : K) (x : Buf K) (n : ℕ) : Except Fault (Buf K) :=
  loop 0 dim (fun j z =>
    loop 0 n (fun k z => do
      let xv ← x.read (j * n + k)
      let a ← x0.read j
      let cj ← c.read j
      z.write (j * n + k) ((xv - a) * cj + z0)) z) (alloc (n * dim))

/-- The loop filling `T` with the univariate matrices, BF.cc 1121–1132. The state is `(dark, T)`. -/
def NBasisFunc.fillT (bf : NBasisFunc K) (z : Buf K) (n : ℕ) (d : Buf ℕ) (dDim0 : ℕ) :
    Except Fault (Buf K × Buf K) :=
  loop 0 bf.dim (fun k (s : Buf K × Buf K) => do
    let (dark, dMult) ← (if k ≥ dDim0 then do
        let dark ← bf.hint bf.m 0 (z.drop (k * n)) n s.1
        .ok (dark, 1)
      else do
        let dk ← d.read k
        let dark ← bf.hint bf.m dk (z.drop (k * n)) n s.1
        let ck ← bf.c.read k
        .ok (dark, ck ^ dk) : Except Fault (Buf K × K))
    let T ← loop 0 (n * bf.m) (fun j T => do
      let v ← dark.read j
      T.write (j + k * bf.m * n) (v * dMult)) s.2
    .ok (dark, T)) (alloc (n * bf.m), alloc (n * bf.m * bf.dim))

/-- `nBasisFunc::nHint`, BF.cc 1106–1146. -/
def NBasisFunc.nHint (bf : NBasisFunc K) (x : Buf K) (n : ℕ) (d : Buf ℕ) (dDim0 numBasis : ℕ) (F : Buf K)
    (full : Bool) : Except Fault (Buf K) := do
  let z ← mapPointsN bf.dim bf.x0 bf.c bf.z0 x n
  let (_, T) ← bf.fillT z n d dDim0
  let F ← loop 0 (n * numBasis) (fun k F => F.write k 1) F
  let (_, _, F) ← RecurseBasis bf.dim bf.m bf.numC bf.nC full n numBasis T (bf.dim - 1) (alloc bf.dim, 0, F)
  .ok F

/-- `nBasisFunc::H`, BF.cc 1074–1088. Returns `(*nOut, *mOut, *F)`. -/
def NBasisFunc.H (bf : NBasisFunc K) (x : Buf K) (xDim1 : ℕ) (d : Buf ℕ) (dDim0 : ℕ) (full : Bool) :
    Except Fault (ℕ × ℕ × Buf K) := do
  let numBasis := if full then bf.numBasisFuncFull else bf.numBasisFunc
  let F ← bf.nHint x xDim1 d dDim0 numBasis (alloc (numBasis * xDim1)) full
  .ok (xDim1, numBasis, F)

/-- `nBasisFunc::xla`, BF.cc 1094–1104, with the operands already unpacked (mtfc.py 570–604). -/
def NBasisFunc.xla (bf : NBasisFunc K) (out x : Buf K) (d : Buf ℕ) (dDim0 : ℕ) (full : Bool) (nOut mOut : ℕ) :
    Except Fault (Buf K) :=
  bf.nHint x nOut d dDim0 mOut out full

/-- `nCP`, BF.h 507–526. -/
def nCP.new (x0 : Buf K) (x0Dim0 : ℕ) (xf : Buf K) (nC : Buf ℤ) (ncDim0 ncDim1 m : ℕ) : Except Fault (NBasisFunc K) :=
  NBasisFunc.new CP.hint x0 x0Dim0 xf nC ncDim0 ncDim1 m (-1) 1

/-- `nLeP`, BF.h 531–550. -/
def nLeP.new (x0 : Buf K) (x0Dim0 : ℕ) (xf : Buf K) (nC : Buf ℤ) (ncDim0 ncDim1 m : ℕ) : Except Fault (NBasisFunc K) :=
  NBasisFunc.new LeP.hint x0 x0Dim0 xf nC ncDim0 ncDim1 m (-1) 1

/-- `nFS`, BF.h 555–574. -/
def nFS.new [Libm K] (x0 : Buf K) (x0Dim0 : ℕ) (xf : Buf K) (nC : Buf ℤ) (ncDim0 ncDim1 m : ℕ) : Except Fault (NBasisFunc K) :=
  NBasisFunc.new FS.hint x0 x0Dim0 xf nC ncDim0 ncDim1 m (-Libm.pi) Libm.pi

/-- The class of a family, by name: `BF.nCP`, `BF.nLeP`, `BF.nFS`. BF.h 507–574. -/
noncomputable def nNew : Verif.Spec.NFamily → Buf ℝ → ℕ → Buf ℝ → Buf ℤ → ℕ → ℕ → ℕ → Except Fault (NBasisFunc ℝ)
  | .cp => nCP.new
  | .lep => nLeP.new
  | .fs => nFS.new

end Verif.Model.CC
