import Verif.Mem
import Verif.Model.PolyCC
import Verif.Spec.Poly
import Mathlib.Algebra.Field.Defs
import Mathlib.Algebra.Order.Ring.Int

/-!
# Model of the parent class of the compiled univariate bases: /repo/src/tfc/utils/BF.cc lines 24–144

Simplifications: `double` is any type `K` with the operations that are used (see Model/PolyCC); C++ `int` has no overflow; `zf == DBL_MAX` ("no upper end of the
basis domain") is `zf = none`; the virtual `Hint` is a field of the structure; a `malloc` of a negative number of
columns is the fault `badAlloc`.
-/

namespace Verif.Model.CC

open Verif.Mem

variable {K : Type} [Zero K] [One K] [Add K] [Sub K] [Mul K] [Div K] [Neg K] [NatCast K] [Pow K ℕ]

/-- The data members of `BasisFunc` (BF.h 20–46) used by `H`; `hint` is the virtual function `Hint`
(arguments `m`, `d`, `x`, `nOut`, `dark`). `numC` is `nC.length`. -/
structure BasisFunc (K : Type) where
  z0 : K
  x0 : K
  c : K
  nC : List ℤ
  m : ℕ
  hint : ℕ → ℕ → Buf K → ℕ → Buf K → Except Fault (Buf K)

/-- Constructor `BasisFunc::BasisFunc`, BF.cc 25–53 (registry part: see `Verif.Model.Registry`). -/
def BasisFunc.new (hint : ℕ → ℕ → Buf K → ℕ → Buf K → Except Fault (Buf K))
    (x0in xf : K) (nCin : List ℤ) (min : ℕ) (z0in : K) (zf : Option K) : BasisFunc K :=
  match zf with
  | none => { z0 := z0in, x0 := 0, c := 1, nC := nCin, m := min, hint := hint }
  | some zf => { z0 := z0in, x0 := x0in, c := (zf - z0in) / (xf - x0in), nC := nCin, m := min, hint := hint }

/-- The `numC` loop with `flag`/`break`: is column `j` listed in `nC`?  BF.cc 76–82. -/
def BasisFunc.removed (bf : BasisFunc K) (j : ℕ) : Bool := bf.nC.any (fun r => (j : ℤ) == r)

/-- The mapped points: `z = new double[n]; for k: z[k] = (x[k] - x0) * c + z0`, BF.cc 64–67. -/
def BasisFunc.mapPoints (bf : BasisFunc K) (x : Buf K) (n : ℕ) : Except Fault (Buf K) :=
  loop 0 n (fun k z => do
    let xk ← x.read k
    z.write k ((xk - bf.x0) * bf.c + bf.z0)) (alloc n)

/-- The copying loops of `H` and `xla` (BF.cc 72–95 and 118–141): from `dark` (`n × m`) to `F`, skipping the removed
columns when `full` is false. The C++ counter `i` starts at -1 and is incremented before use; the model carries `i + 1`. -/
def BasisFunc.copyOut (bf : BasisFunc K) (n mOut : ℕ) (full : Bool) (dMult : K) (dark F : Buf K) :
    Except Fault (Buf K) :=
  if full = false then do
    let (_, F) ← loop 0 bf.m (fun j (s : ℕ × Buf K) =>
      if bf.removed j then .ok s
      else do
        let i := s.1
        let F ← loop 0 n (fun k F => do
          let v ← dark.read (bf.m * k + j)
          F.write (mOut * k + i) (v * dMult)) s.2
        .ok (i + 1, F)) (0, F)
    .ok F
  else
    loop 0 bf.m (fun j F =>
      loop 0 n (fun k F => do
        let v ← dark.read (bf.m * k + j)
        F.write (bf.m * k + j) (v * dMult)) F) F

/-- `BasisFunc::H`, BF.cc 57–98. Returns `(*nOut, *mOut, *F)`. -/
def BasisFunc.H (bf : BasisFunc K) (x : Buf K) (n d : ℕ) (full : Bool) :
    Except Fault (ℕ × ℕ × Buf K) := do
  let mOut : ℤ := if full then (bf.m : ℤ) else (bf.m : ℤ) - (bf.nC.length : ℤ)
  let dMult := bf.c ^ d
  let z ← bf.mapPoints x n
  if mOut < 0 then .error .badAlloc
  else do
    let F := alloc (mOut.toNat * n)
    let dark ← bf.hint bf.m d z n (alloc (n * bf.m))
    let F ← bf.copyOut n mOut.toNat full dMult dark F
    .ok (n, mOut.toNat, F)

/-- `BasisFunc::xla`, BF.cc 100–144, with the operands already unpacked: `out` is the output buffer handed over by XLA,
`n` = operand `dim0`, `mOut` = operand `dim1` (see utfc.py 320–352). -/
def BasisFunc.xla (bf : BasisFunc K) (out x : Buf K) (d : ℕ) (full : Bool) (n mOut : ℕ) :
    Except Fault (Buf K) := do
  let dMult := bf.c ^ d
  let z ← bf.mapPoints x n
  let dark ← bf.hint bf.m d z n (alloc (n * bf.m))
  bf.copyOut n mOut full dMult dark out

/-! ### Concrete classes -/

/-- `CP(double x0, double xf, …) : BasisFunc(x0, xf, nCin, ncDim0, min, -1., 1.)`, BF.h 139–140. -/
def CP.new (x0 xf : K) (nC : List ℤ) (m : ℕ) : BasisFunc K :=
  BasisFunc.new CP.hint x0 xf nC m (-1) (some 1)

/-- `LeP`, BF.h 170–171. -/
def LeP.new (x0 xf : K) (nC : List ℤ) (m : ℕ) : BasisFunc K :=
  BasisFunc.new LeP.hint x0 xf nC m (-1) (some 1)

/-- `LaP`, BF.h 193–194 (default arguments `z0in = 0., zf = DBL_MAX`, BF.h 65). -/
def LaP.new (x0 xf : K) (nC : List ℤ) (m : ℕ) : BasisFunc K :=
  BasisFunc.new LaP.hint x0 xf nC m 0 none

/-- `HoPpro`, BF.h 212–213. -/
def HoPpro.new (x0 xf : K) (nC : List ℤ) (m : ℕ) : BasisFunc K :=
  BasisFunc.new HoPpro.hint x0 xf nC m 0 none

/-- `HoPphy`, BF.h 231–232. -/
def HoPphy.new (x0 xf : K) (nC : List ℤ) (m : ℕ) : BasisFunc K :=
  BasisFunc.new HoPphy.hint x0 xf nC m 0 none

/-- The class of a family, by name: `BF.CP`, `BF.LeP`, `BF.LaP`, `BF.HoPpro`, `BF.HoPphy` (BF.h 136–242). -/
def polyNew : Verif.Spec.PolyFamily → K → K → List ℤ → ℕ → BasisFunc K
  | .cp => CP.new
  | .lep => LeP.new
  | .lap => LaP.new
  | .hopPro => HoPpro.new
  | .hopPhy => HoPphy.new

end Verif.Model.CC
