import Verif.Model.BasisFuncCC
import Verif.Spec.Trig
import Verif.Libm
import Mathlib.Analysis.SpecialFunctions.Exp
import Mathlib.Analysis.SpecialFunctions.Trigonometric.Basic

/-!
# Model of the compiled Fourier and ELM bases: /repo/src/tfc/utils/BF.cc lines 522–1010

The library functions are the classes `Libm` and `LibmExp`. `w`, `b` are the weight and bias blocks of the object.
-/

namespace Verif.Model.CC

open Verif.Mem Verif.Spec

/-! ## FS -/

section
variable {K : Type} [Zero K] [One K] [Add K] [Sub K] [Mul K] [Div K] [Neg K] [NatCast K] [Pow K ℕ] [Libm K]

/-- `for (j = 1; j < m; j++) for (k = 0; k < nOut; k++) { g = ceil(j/2.); if (j % 2 == 0) dark[m*k+j] = even(g, x[k]);
else dark[m*k+j] = odd(g, x[k]); }` — the loop nest occurring five times in `FS::Hint`, BF.cc 530–539, 544–553,
555–564, 566–575, 577–586. `ceil(j/2.)` is `(j+1)/2` for natural numbers. -/
def FS.fill (m : ℕ) (x : Buf K) (nOut : ℕ) (even odd : ℕ → K → K) (dark : Buf K) :
    Except Fault (Buf K) :=
  loop 1 m (fun j dark =>
    loop 0 nOut (fun k dark => do
      let g := (j + 1) / 2
      let xk ← x.read k
      if j % 2 = 0 then dark.write (m * k + j) (even g xk)
      else dark.write (m * k + j) (odd g xk)) dark) dark

/-- `FS::Hint`, BF.cc 524–590. -/
def FS.hint (m d : ℕ) (x : Buf K) (nOut : ℕ) (dark : Buf K) : Except Fault (Buf K) :=
  if d = 0 then do
    let dark ← loop 0 nOut (fun k dark => dark.write (m * k) 1) dark
    FS.fill m x nOut (fun g x => Libm.cos ((g : K) * x)) (fun g x => Libm.sin ((g : K) * x)) dark
  else do
    let dark ← loop 0 nOut (fun k dark => dark.write (m * k) 0) dark
    if d % 4 = 0 then
      FS.fill m x nOut (fun g x => (g : K) ^ d * Libm.cos ((g : K) * x)) (fun g x => (g : K) ^ d * Libm.sin ((g : K) * x)) dark
    else if d % 4 = 1 then
      FS.fill m x nOut (fun g x => -(g : K) ^ d * Libm.sin ((g : K) * x)) (fun g x => (g : K) ^ d * Libm.cos ((g : K) * x)) dark
    else if d % 4 = 2 then
      FS.fill m x nOut (fun g x => -(g : K) ^ d * Libm.cos ((g : K) * x)) (fun g x => -(g : K) ^ d * Libm.sin ((g : K) * x)) dark
    else
      FS.fill m x nOut (fun g x => (g : K) ^ d * Libm.sin ((g : K) * x)) (fun g x => -(g : K) ^ d * Libm.cos ((g : K) * x)) dark

/-- `FS(x0, xf, …) : BasisFunc(x0, xf, nCin, ncDim0, min, -M_PI, M_PI)`, BF.h 250–251. -/
def FS.new (x0 xf : K) (nC : List ℤ) (m : ℕ) : BasisFunc K :=
  BasisFunc.new FS.hint x0 xf nC m (-Libm.pi) (some Libm.pi)

end

/-! ## ELM -/

section
variable {K : Type} [Zero K] [One K] [Add K] [Sub K] [Mul K] [Div K] [Neg K] [NatCast K] [Pow K ℕ] [Libm K] [LibmExp K] [Max K] [LE K] [DecidableLE K]

/-- `for (j…nOut) for (k…m) dark[m*j+k] = f(j, k, dark)` — the loop nest of every ELM `Hint`. Inside BF.cc 647–1010. -/
def cells (n m : ℕ) (f : ℕ → ℕ → Buf K → Except Fault K) (dark : Buf K) : Except Fault (Buf K) :=
  loop 0 n (fun j dark => loop 0 m (fun k dark => do
    let v ← f j k dark
    dark.write (m * j + k) v) dark) dark

/-- `ELMReLU::Hint`, BF.cc 647–676. -/
def ELMReLU.hint (w b : Buf K) (m d : ℕ) (x : Buf K) (nOut : ℕ) (dark : Buf K) :
    Except Fault (Buf K) :=
  if d = 0 then
    cells nOut m (fun j k _ => do
      let wk ← w.read k
      let xj ← x.read j
      let bk ← b.read k
      .ok (max 0 (wk * xj + bk))) dark
  else if d = 1 then
    cells nOut m (fun j k _ => do
      let wk ← w.read k
      let xj ← x.read j
      let bk ← b.read k
      if wk * xj + bk ≤ 0 then .ok 0 else .ok wk) dark
  else
    cells nOut m (fun _ _ _ => .ok 0) dark

/-- The `switch (d)` of `ELMSigmoid::Hint`, BF.cc 687–763: the new value of a cell from `w[k]` and the old value `t`
(the sigmoid). Orders without a `case` leave the cell as it is. -/
def ELMSigmoid.switch : ℕ → Option (K → K → K)
  | 0 => none
  | 1 => some fun wk t => wk * (t - t ^ 2)
  | 2 => some fun wk t => wk ^ 2 * (t - 3 * t ^ 2 + 2 * t ^ 3)
  | 3 => some fun wk t => wk ^ 3 * (t - 7 * t ^ 2 + 12 * t ^ 3 - 6 * t ^ 4)
  | 4 => some fun wk t => wk ^ 4 * (t - 15 * t ^ 2 + 50 * t ^ 3 - 60 * t ^ 4 + 24 * t ^ 5)
  | 5 => some fun wk t => wk ^ 5 * (t - 31 * t ^ 2 + 180 * t ^ 3 - 390 * t ^ 4 + 360 * t ^ 5 - 120 * t ^ 6)
  | 6 => some fun wk t => wk ^ 6 * (t - 63 * t ^ 2 + 602 * t ^ 3 - 2100 * t ^ 4 + 3360 * t ^ 5 - 2520 * t ^ 6 + 720 * t ^ 7)
  | 7 => some fun wk t => wk ^ 7 * (t - 127 * t ^ 2 + 1932 * t ^ 3 - 10206 * t ^ 4 + 25200 * t ^ 5 - 31920 * t ^ 6 + 20160 * t ^ 7 - 5040 * t ^ 8)
  | 8 => some fun wk t => wk ^ 8 * (t - 255 * t ^ 2 + 6050 * t ^ 3 - 46620 * t ^ 4 + 166824 * t ^ 5 - 317520 * t ^ 6 + 332640 * t ^ 7 - 181440 * t ^ 8 + 40320 * t ^ 9)
  | _ => none

/-- `ELMSigmoid::Hint`, BF.cc 679–765. -/
def ELMSigmoid.hint (w b : Buf K) (m d : ℕ) (x : Buf K) (nOut : ℕ) (dark : Buf K) :
    Except Fault (Buf K) := do
  let dark ← cells nOut m (fun j k _ => do
    let wk ← w.read k
    let xj ← x.read j
    let bk ← b.read k
    .ok (1 / (1 + LibmExp.exp (-wk * xj - bk)))) dark
  match ELMSigmoid.switch d with
  | none => .ok dark
  | some f => cells nOut m (fun j k dark => do
      let wk ← w.read k
      let t ← dark.read (m * j + k)
      .ok (f wk t)) dark

/-- The `switch (d)` of `ELMTanh::Hint`, BF.cc 777–844. -/
def ELMTanh.switch : ℕ → Option (K → K → K)
  | 0 => none
  | 1 => some fun wk t => wk * (1 - t ^ 2)
  | 2 => some fun wk t => wk ^ 2 * (-2 * t + 2 * t ^ 3)
  | 3 => some fun wk t => wk ^ 3 * (-2 + 8 * t ^ 2 - 6 * t ^ 4)
  | 4 => some fun wk t => wk ^ 4 * (16 * t - 40 * t ^ 3 + 24 * t ^ 5)
  | 5 => some fun wk t => wk ^ 5 * (16 - 136 * t ^ 2 + 240 * t ^ 4 - 120 * t ^ 6)
  | 6 => some fun wk t => wk ^ 6 * (-272 * t + 1232 * t ^ 3 - 1680 * t ^ 5 + 720 * t ^ 7)
  | 7 => some fun wk t => wk ^ 7 * (-272 + 3968 * t ^ 2 - 12096 * t ^ 4 + 13440 * t ^ 6 - 5040 * t ^ 8)
  | 8 => some fun wk t => wk ^ 8 * (7936 * t - 56320 * t ^ 3 + 129024 * t ^ 5 - 120960 * t ^ 7 + 40320 * t ^ 9)
  | _ => none

/-- `ELMTanh::Hint`, BF.cc 769–846. -/
def ELMTanh.hint (w b : Buf K) (m d : ℕ) (x : Buf K) (nOut : ℕ) (dark : Buf K) :
    Except Fault (Buf K) := do
  let dark ← cells nOut m (fun j k _ => do
    let wk ← w.read k
    let xj ← x.read j
    let bk ← b.read k
    .ok (LibmExp.tanh (wk * xj + bk))) dark
  match ELMTanh.switch d with
  | none => .ok dark
  | some f => cells nOut m (fun j k dark => do
      let wk ← w.read k
      let t ← dark.read (m * j + k)
      .ok (f wk t)) dark

/-- `ELMSin::Hint`, BF.cc 850–879. -/
def ELMSin.hint (w b : Buf K) (m d : ℕ) (x : Buf K) (nOut : ℕ) (dark : Buf K) :
    Except Fault (Buf K) :=
  let go (f : K → K → K) := cells nOut m (fun j k _ => do
    let wk ← w.read k
    let xj ← x.read j
    let bk ← b.read k
    .ok (f wk (wk * xj + bk))) dark
  if d % 4 = 0 then go (fun wk t => wk ^ d * Libm.sin t)
  else if d % 4 = 1 then go (fun wk t => wk ^ d * Libm.cos t)
  else if d % 4 = 2 then go (fun wk t => -wk ^ d * Libm.sin t)
  else go (fun wk t => -wk ^ d * Libm.cos t)

/-- The `switch (d)` of `ELMSwish::Hint`, BF.cc 901–1003: `s` is `sig[m*j+k]`, `z` is `zint[m*j+k]`. -/
def ELMSwish.switch : ℕ → Option (K → K → K → K)
  | 1 => some fun wk s z => wk * (s + z * (s - s ^ 2))
  | 2 => some fun wk s z => wk ^ 2 * (2 * (s - s ^ 2) + z * (s - 3 * s ^ 2 + 2 * s ^ 3))
  | 3 => some fun wk s z => wk ^ 3 * (3 * (s - 3 * s ^ 2 + 2 * s ^ 3) + z * (s - 7 * s ^ 2 + 12 * s ^ 3 - 6 * s ^ 4))
  | 4 => some fun wk s z => wk ^ 4 * (4 * (s - 7 * s ^ 2 + 12 * s ^ 3 - 6 * s ^ 4) + z * (s - 15 * s ^ 2 + 50 * s ^ 3 - 60 * s ^ 4 + 24 * s ^ 5))
  | 5 => some fun wk s z => wk ^ 5 * (5 * (s - 15 * s ^ 2 + 50 * s ^ 3 - 60 * s ^ 4 + 24 * s ^ 5) + z * (s - 31 * s ^ 2 + 180 * s ^ 3 - 390 * s ^ 4 + 360 * s ^ 5 - 120 * s ^ 6))
  | 6 => some fun wk s z => wk ^ 6 * (6 * (s - 31 * s ^ 2 + 180 * s ^ 3 - 390 * s ^ 4 + 360 * s ^ 5 - 120 * s ^ 6) + z * (s - 63 * s ^ 2 + 602 * s ^ 3 - 2100 * s ^ 4 + 3360 * s ^ 5 - 2520 * s ^ 6 + 720 * s ^ 7))
  | 7 => some fun wk s z => wk ^ 7 * (7 * (s - 63 * s ^ 2 + 602 * s ^ 3 - 2100 * s ^ 4 + 3360 * s ^ 5 - 2520 * s ^ 6 + 720 * s ^ 7) + z * (s - 127 * s ^ 2 + 1932 * s ^ 3 - 10206 * s ^ 4 + 25200 * s ^ 5 - 31920 * s ^ 6 + 20160 * s ^ 7 - 5040 * s ^ 8))
  | 8 => some fun wk s z => wk ^ 8 * (8 * (s - 127 * s ^ 2 + 1932 * s ^ 3 - 10206 * s ^ 4 + 25200 * s ^ 5 - 31920 * s ^ 6 + 20160 * s ^ 7 - 5040 * s ^ 8) + z * (s - 255 * s ^ 2 + 6050 * s ^ 3 - 46620 * s ^ 4 + 166824 * s ^ 5 - 317520 * s ^ 6 + 332640 * s ^ 7 - 181440 * s ^ 8 + 40320 * s ^ 9))
  | _ => none

/-- `ELMSwish::Hint`, BF.cc 883–1010. The two temporaries are filled in one loop nest in the code; the model fills them
one after the other (they are independent of each other except that `sig` reads the just written `zint`). -/
def ELMSwish.hint (w b : Buf K) (m d : ℕ) (x : Buf K) (nOut : ℕ) (dark : Buf K) :
    Except Fault (Buf K) :=
  if d = 0 then
    cells nOut m (fun j k _ => do
      let wk ← w.read k
      let xj ← x.read j
      let bk ← b.read k
      .ok ((wk * xj + bk) * 1 / (1 + LibmExp.exp (-wk * xj - bk)))) dark
  else do
    let zint ← cells nOut m (fun j k _ => do
      let wk ← w.read k
      let xj ← x.read j
      let bk ← b.read k
      .ok (wk * xj + bk)) (alloc (nOut * m))
    let sig ← cells nOut m (fun j k _ => do
      let z ← zint.read (m * j + k)
      .ok (1 / (1 + LibmExp.exp (-z)))) (alloc (nOut * m))
    match ELMSwish.switch d with
    | none => .ok dark
    | some f => cells nOut m (fun j k _ => do
        let wk ← w.read k
        let s ← sig.read (m * j + k)
        let z ← zint.read (m * j + k)
        .ok (f wk s z)) dark

/-- The virtual `Hint` of each ELM class. BF.cc 647–1010. -/
def elmHint : Activation → Buf K → Buf K → ℕ → ℕ → Buf K → ℕ → Buf K → Except Fault (Buf K)
  | .relu => ELMReLU.hint
  | .sigmoid => ELMSigmoid.hint
  | .tanh => ELMTanh.hint
  | .sin => ELMSin.hint
  | .swish => ELMSwish.hint

/-- `ELM::ELM`, BF.cc 594–605, with the (pseudo-random) weights and biases as parameters: basis domain `[0, 1]`. -/
def elmNew (a : Activation) (w b : Buf K) (x0 xf : K) (nC : List ℤ) (m : ℕ) : BasisFunc K :=
  BasisFunc.new (elmHint a w b) x0 xf nC m 0 (some 1)

end

end Verif.Model.CC
