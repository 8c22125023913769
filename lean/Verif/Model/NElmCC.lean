import Verif.Model.NBasisCC
import Verif.Libm

/-!
# Model of the compiled n-dimensional ELM bases: /repo/src/tfc/utils/BF.cc lines 1266–1948, BF.h 579–737

Simplifications as in `Verif.Model.NBasisCC`; the (pseudo-random) initial weights and biases are parameters; `nC` is a list
(its block has `dim * numC ≥ numC` cells). A negative number of columns is the fault `badAlloc`. The number type
is a parameter: real numbers for the exact statements, `Verif.Model.Rounded.Fl` for rounded arithmetic.
-/

namespace Verif.Model.CC

open Verif Verif.Mem Verif.Spec

/-- The data members of `nELM` used by the `nElmHint`s: BF.h 579–592 and inherited ones. `w` is `dim × m` in row-major
order. -/
structure NElm (K : Type) where
  dim : ℕ
  m : ℕ
  nC : List ℤ
  numC : ℕ
  z0 : K
  x0 : Buf K
  c : Buf K
  w : Buf K
  b : Buf K
  numBasisFunc : ℤ
  numBasisFuncFull : ℤ
  act : Activation

section
variable {K : Type} [Zero K] [One K] [Add K] [Sub K] [Mul K] [Div K] [Neg K] [NatCast K] [Pow K ℕ] [Libm K] [LibmExp K] [Max K] [DecidableEq K]

/-- Constructor `nELM::nELM`, BF.cc 1266–1327, with weights and biases given; `z0in = 0.`, `zfin = 1.` (BF.h 602–603). -/
def NElm.new (a : Activation) (w b : Buf K) (x0in : Buf K) (x0Dim0 : ℕ) (xf : Buf K) (nCin : List ℤ)
    (min : ℕ) : Except Fault (NElm K) := do
  let dim := x0Dim0
  let x0 ← memcpy (alloc dim) x0in dim
  let c ← newC dim 0 1 x0 xf
  let flag := nCin.all (fun r => r == -1)
  let numC := if flag then 0 else nCin.length
  .ok { dim := dim, m := min, nC := nCin, numC := numC, z0 := 0, x0 := x0, c := c, w := w, b := b,
        numBasisFunc := (min : ℤ) - numC, numBasisFuncFull := min, act := a }

/-- `for (i = 0; i < dDim0; i++) { dark1 += d[i]; dark2 *= pow(c[i], d[i]); }`, BF.cc 1425–1428 etc. -/
def NElm.orders (e : NElm K) (d : Buf ℕ) (dDim0 : ℕ) : Except Fault (ℕ × K) :=
  loop 0 dDim0 (fun i (s : ℕ × K) => do
    let di ← d.read i
    let ci ← e.c.read i
    .ok (s.1 + di, s.2 * ci ^ di)) (0, 1)

/-- `dark = 1.; for (i = 0; i < dDim0; i++) dark *= pow(w[i * m + k], d[i]);`, BF.cc 1437–1439 etc. -/
def NElm.wPow (e : NElm K) (d : Buf ℕ) (dDim0 k : ℕ) : Except Fault K :=
  loop 0 dDim0 (fun i dark => do
    let wi ← e.w.read (i * e.m + k)
    let di ← d.read i
    .ok (dark * wi ^ di)) 1

/-- `dark = 0.; for (i = 0; i < dim; i++) dark += w[i * m + k] * x[i * in + j];`, BF.cc 1418–1420 etc. -/
def NElm.dot (e : NElm K) (x : Buf K) (n j k : ℕ) : Except Fault K :=
  loop 0 e.dim (fun i dark => do
    let wi ← e.w.read (i * e.m + k)
    let xi ← x.read (i * n + j)
    .ok (dark + wi * xi)) 0

/-- The `switch (dark1)` of `nELMSigmoid::nElmHint`, BF.cc 1430–1540: the new value of a cell, without the factor
`dark2 * dark`, from the old value `t`. Orders without a `case` leave the cell as it is. -/
def nELMSigmoid.switch : ℕ → Option (K → K)
  | 0 => none
  | 1 => some fun t => t - t ^ 2
  | 2 => some fun t => t - 3 * t ^ 2 + 2 * t ^ 3
  | 3 => some fun t => t - 7 * t ^ 2 + 12 * t ^ 3 - 6 * t ^ 4
  | 4 => some fun t => t - 15 * t ^ 2 + 50 * t ^ 3 - 60 * t ^ 4 + 24 * t ^ 5
  | 5 => some fun t => t - 31 * t ^ 2 + 180 * t ^ 3 - 390 * t ^ 4 + 360 * t ^ 5 - 120 * t ^ 6
  | 6 => some fun t => t - 63 * t ^ 2 + 602 * t ^ 3 - 2100 * t ^ 4 + 3360 * t ^ 5 - 2520 * t ^ 6 + 720 * t ^ 7
  | 7 => some fun t => t - 127 * t ^ 2 + 1932 * t ^ 3 - 10206 * t ^ 4 + 25200 * t ^ 5 - 31920 * t ^ 6 + 20160 * t ^ 7 - 5040 * t ^ 8
  | 8 => some fun t => t - 255 * t ^ 2 + 6050 * t ^ 3 - 46620 * t ^ 4 + 166824 * t ^ 5 - 317520 * t ^ 6 + 332640 * t ^ 7 - 181440 * t ^ 8 + 40320 * t ^ 9
  | _ => none

/-- `nELMSigmoid::nElmHint`, BF.cc 1411–1542. -/
def nELMSigmoid.hint (e : NElm K) (d : Buf ℕ) (dDim0 : ℕ) (x : Buf K) (n : ℕ) (F : Buf K) :
    Except Fault (Buf K) := do
  let F ← cells n e.m (fun j k _ => do
    let dark ← e.dot x n j k
    let bk ← e.b.read k
    .ok (1 / (1 + LibmExp.exp (-dark - bk)))) F
  let (dark1, dark2) ← e.orders d dDim0
  match nELMSigmoid.switch dark1 with
  | none => .ok F
  | some f => cells n e.m (fun j k F => do
      let dark ← e.wPow d dDim0 k
      let t ← F.read (e.m * j + k)
      .ok (dark2 * dark * f t)) F

/-- The `switch (dark1)` of `nELMTanh::nElmHint`, BF.cc 1563–1664. -/
def nELMTanh.switch : ℕ → Option (K → K)
  | 0 => none
  | 1 => some fun t => 1 - t ^ 2
  | 2 => some fun t => -2 * t + 2 * t ^ 3
  | 3 => some fun t => -2 + 8 * t ^ 2 - 6 * t ^ 4
  | 4 => some fun t => 16 * t - 40 * t ^ 3 + 24 * t ^ 5
  | 5 => some fun t => 16 - 136 * t ^ 2 + 240 * t ^ 4 - 120 * t ^ 6
  | 6 => some fun t => -272 * t + 1232 * t ^ 3 - 1680 * t ^ 5 + 720 * t ^ 7
  | 7 => some fun t => -272 + 3968 * t ^ 2 - 12096 * t ^ 4 + 13440 * t ^ 6 - 5040 * t ^ 8
  | 8 => some fun t => 7936 * t - 56320 * t ^ 3 + 129024 * t ^ 5 - 120960 * t ^ 7 + 40320 * t ^ 9
  | _ => none

/-- `nELMTanh::nElmHint`, BF.cc 1545–1666. -/
def nELMTanh.hint (e : NElm K) (d : Buf ℕ) (dDim0 : ℕ) (x : Buf K) (n : ℕ) (F : Buf K) :
    Except Fault (Buf K) := do
  let F ← cells n e.m (fun j k _ => do
    let dark ← e.dot x n j k
    let bk ← e.b.read k
    .ok (LibmExp.tanh (dark + bk))) F
  let (dark1, dark2) ← e.orders d dDim0
  match nELMTanh.switch dark1 with
  | none => .ok F
  | some f => cells n e.m (fun j k F => do
      let dark ← e.wPow d dDim0 k
      let t ← F.read (e.m * j + k)
      .ok (dark2 * dark * f t)) F

/-- `nELMSin::nElmHint`, BF.cc 1669–1730. -/
def nELMSin.hint (e : NElm K) (d : Buf ℕ) (dDim0 : ℕ) (x : Buf K) (n : ℕ) (F : Buf K) :
    Except Fault (Buf K) := do
  let (dark1, dark2) ← e.orders d dDim0
  let go (f : K → K → K) := cells n e.m (fun j k _ => do
    let dark ← e.wPow d dDim0 k
    let darkw ← e.dot x n j k
    let bk ← e.b.read k
    .ok (f dark (darkw + bk))) F
  if dark1 % 4 = 0 then go (fun dark t => dark2 * dark * Libm.sin t)
  else if dark1 % 4 = 1 then go (fun dark t => dark2 * dark * Libm.cos t)
  else if dark1 % 4 = 2 then go (fun dark t => -dark2 * dark * Libm.sin t)
  else go (fun dark t => -dark2 * dark * Libm.cos t)

/-- The `switch (dark1)` of `nELMSwish::nElmHint`, BF.cc 1768–1899: `s` is `sig[m*j+k]`, `z` is `zint[m*j+k]`. -/
def nELMSwish.switch : ℕ → Option (K → K → K)
  | 1 => some fun s z => s + z * (s - s ^ 2)
  | 2 => some fun s z => 2 * (s - s ^ 2) + z * (s - 3 * s ^ 2 + 2 * s ^ 3)
  | 3 => some fun s z => 3 * (s - 3 * s ^ 2 + 2 * s ^ 3) + z * (s - 7 * s ^ 2 + 12 * s ^ 3 - 6 * s ^ 4)
  | 4 => some fun s z => 4 * (s - 7 * s ^ 2 + 12 * s ^ 3 - 6 * s ^ 4) + z * (s - 15 * s ^ 2 + 50 * s ^ 3 - 60 * s ^ 4 + 24 * s ^ 5)
  | 5 => some fun s z => 5 * (s - 15 * s ^ 2 + 50 * s ^ 3 - 60 * s ^ 4 + 24 * s ^ 5) + z * (s - 31 * s ^ 2 + 180 * s ^ 3 - 390 * s ^ 4 + 360 * s ^ 5 - 120 * s ^ 6)
  | 6 => some fun s z => 6 * (s - 31 * s ^ 2 + 180 * s ^ 3 - 390 * s ^ 4 + 360 * s ^ 5 - 120 * s ^ 6) + z * (s - 63 * s ^ 2 + 602 * s ^ 3 - 2100 * s ^ 4 + 3360 * s ^ 5 - 2520 * s ^ 6 + 720 * s ^ 7)
  | 7 => some fun s z => 7 * (s - 63 * s ^ 2 + 602 * s ^ 3 - 2100 * s ^ 4 + 3360 * s ^ 5 - 2520 * s ^ 6 + 720 * s ^ 7) + z * (s - 127 * s ^ 2 + 1932 * s ^ 3 - 10206 * s ^ 4 + 25200 * s ^ 5 - 31920 * s ^ 6 + 20160 * s ^ 7 - 5040 * s ^ 8)
  | 8 => some fun s z => 8 * (s - 127 * s ^ 2 + 1932 * s ^ 3 - 10206 * s ^ 4 + 25200 * s ^ 5 - 31920 * s ^ 6 + 20160 * s ^ 7 - 5040 * s ^ 8) + z * (s - 255 * s ^ 2 + 6050 * s ^ 3 - 46620 * s ^ 4 + 166824 * s ^ 5 - 317520 * s ^ 6 + 332640 * s ^ 7 - 181440 * s ^ 8 + 40320 * s ^ 9)
  | _ => none

/-- `nELMSwish::nElmHint`, BF.cc 1733–1904. As for the univariate class, the temporaries `zint` and `sig` are filled one
after the other instead of in one loop nest. -/
def nELMSwish.hint (e : NElm K) (d : Buf ℕ) (dDim0 : ℕ) (x : Buf K) (n : ℕ) (F : Buf K) :
    Except Fault (Buf K) := do
  let (dark1, dark2) ← e.orders d dDim0
  if dark1 = 0 then
    cells n e.m (fun j k _ => do
      let dark ← e.dot x n j k
      let bk ← e.b.read k
      .ok ((dark + bk) * 1 / (1 + LibmExp.exp (-dark - bk)))) F
  else do
    let zint ← cells n e.m (fun j k _ => do
      let dark ← e.dot x n j k
      let bk ← e.b.read k
      .ok (dark + bk)) (alloc (n * e.m))
    let sig ← cells n e.m (fun j k _ => do
      let z ← zint.read (e.m * j + k)
      .ok (1 / (1 + LibmExp.exp (-z)))) (alloc (n * e.m))
    match nELMSwish.switch dark1 with
    | none => .ok F
    | some f => cells n e.m (fun j k _ => do
        let dark ← e.wPow d dDim0 k
        let s ← sig.read (e.m * j + k)
        let z ← zint.read (e.m * j + k)
        .ok (dark2 * dark * f s z)) F

/-- The first loop of `nELMReLU::nElmHint`, BF.cc 1912–1920: `(h, dark1)` (as one option: `h = -1` is `none`) and
`zeroFlag`; once `zeroFlag` is set the loop has been left. -/
def nELMReLU.scan (e : NElm K) (d : Buf ℕ) (dDim0 : ℕ) : Except Fault (Option (ℕ × K) × Bool) :=
  loop 0 dDim0 (fun i (s : Option (ℕ × K) × Bool) =>
    if s.2 then .ok s
    else do
      let di ← d.read i
      if di > 1 ∨ (di = 1 ∧ s.1.isSome) then .ok (s.1, true)
      else if di = 1 then do
        let ci ← e.c.read i
        .ok (some (i, ci), false)
      else .ok s) (none, false)

/-- The middle part of `nELMReLU::nElmHint`, BF.cc 1922–1936. -/
def nELMReLU.value (e : NElm K) (zeroFlag : Bool) (x : Buf K) (n : ℕ) (F : Buf K) : Except Fault (Buf K) :=
  if zeroFlag then cells n e.m (fun _ _ _ => .ok 0) F
  else cells n e.m (fun j k _ => do
    let dark ← e.dot x n j k
    let bk ← e.b.read k
    .ok (max 0 (dark + bk))) F

/-- The last part of `nELMReLU::nElmHint`, BF.cc 1938–1947. -/
def nELMReLU.slope (e : NElm K) (h : Option (ℕ × K)) (n : ℕ) (F : Buf K) : Except Fault (Buf K) :=
  match h with
  | none => .ok F
  | some (h, dark1) => cells n e.m (fun j k F => do
      let t ← F.read (e.m * j + k)
      if t ≠ 0 then do
        let wh ← e.w.read (h * e.m + k)
        .ok (dark1 * wh)
      else .ok t) F

/-- `nELMReLU::nElmHint`, BF.cc 1907–1948. -/
def nELMReLU.hint (e : NElm K) (d : Buf ℕ) (dDim0 : ℕ) (x : Buf K) (n : ℕ) (F : Buf K) :
    Except Fault (Buf K) := do
  let (h, zeroFlag) ← nELMReLU.scan e d dDim0
  let F ← nELMReLU.value e zeroFlag x n F
  nELMReLU.slope e h n F

/-- The virtual `nElmHint`. BF.h 579–737. -/
def NElm.elmHint (e : NElm K) : Buf ℕ → ℕ → Buf K → ℕ → Buf K → Except Fault (Buf K) :=
  match e.act with
  | .relu => nELMReLU.hint e
  | .sigmoid => nELMSigmoid.hint e
  | .tanh => nELMTanh.hint e
  | .sin => nELMSin.hint e
  | .swish => nELMSwish.hint e

/-- The loop over `k` with `flag`/`break`, BF.cc 1391–1396: is column `j` one of the `numC` listed ones? -/
def NElm.removed (e : NElm K) (j : ℕ) : Bool := (e.nC.take e.numC).any (fun r => (j : ℤ) == r)

/-- `nELM::nHint`, BF.cc 1369–1408. The C++ counter `i` starts at -1; the model carries `i + 1`. -/
def NElm.nHint (e : NElm K) (x : Buf K) (n : ℕ) (d : Buf ℕ) (dDim0 numBasis : ℕ) (F : Buf K) (full : Bool) :
    Except Fault (Buf K) := do
  let z ← mapPointsN e.dim e.x0 e.c e.z0 x n
  if e.numC = 0 ∨ full = true then e.elmHint d dDim0 z n F
  else do
    let dark ← e.elmHint d dDim0 z n (alloc (e.m * n))
    let (_, F) ← loop 0 e.m (fun j (s : ℕ × Buf K) =>
      if e.removed j then .ok s
      else do
        let i := s.1
        let F ← loop 0 n (fun k F => do
          let v ← dark.read (e.m * k + j)
          F.write (numBasis * k + i) v) s.2
        .ok (i + 1, F)) (0, F)
    .ok F

/-- `nBasisFunc::H` on an `nELM` object, BF.cc 1074–1088. -/
def NElm.H (e : NElm K) (x : Buf K) (xDim1 : ℕ) (d : Buf ℕ) (dDim0 : ℕ) (full : Bool) :
    Except Fault (ℕ × ℕ × Buf K) := do
  let numBasis := if full then e.numBasisFuncFull else e.numBasisFunc
  if numBasis < 0 then .error .badAlloc
  else do
    let F ← e.nHint x xDim1 d dDim0 numBasis.toNat (alloc (numBasis.toNat * xDim1)) full
    .ok (xDim1, numBasis.toNat, F)

/-- `nBasisFunc::xla` on an `nELM` object, BF.cc 1094–1104. -/
def NElm.xla (e : NElm K) (out x : Buf K) (d : Buf ℕ) (dDim0 : ℕ) (full : Bool) (nOut mOut : ℕ) :
    Except Fault (Buf K) :=
  e.nHint x nOut d dDim0 mOut out full

end

end Verif.Model.CC
