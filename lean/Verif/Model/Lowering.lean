import Verif.Model.Registry
import Verif.Spec.Ieee
import Verif.Spec.Arrays

/-!
# How a compiled computation passes its arguments: utfc.py 320–352, mtfc.py 547, 570–606, BF.cc 8–11, 100–106, 1094–1104

`H_xla` describes a call of `xlaWrapper` with the addresses of some byte arrays (the operands) and of a byte array for the result. XLA executes the call as described: every
operand is stored contiguously, and the array for the result has the number of bytes of the announced type. The C++ code reads the operands by `reinterpret_cast`.
-/

namespace Verif.Model.CC

open Verif.Mem Verif.Spec

/-- The `w` bytes of a number, least significant first. What `mlir.ir_constant` stores, utfc.py 339–344, mtfc.py 583–589. -/
def toBytes : ℕ → ℕ → List ℕ
  | 0, _ => []
  | w + 1, v => v % 256 :: toBytes w (v / 256)

/-- The bytes of an array, in C order. The operand `x`, utfc.py 340. -/
def arrayBytes (a : TypedArray) : List ℕ := a.bits.flatMap (toBytes a.ty.width)

/-- `mlir.ir_constant(np.int32(v))` for a natural number; `none`: `np.int32` raises `OverflowError`. utfc.py 339–344. -/
def int32 (v : ℕ) : Option (List ℕ) := if v < 2 ^ 31 then some (toBytes 4 v) else none

/-- `mlir.ir_constant(np.bool(full))`, one byte. utfc.py 342. -/
def boolByte (b : Bool) : List ℕ := [if b then 1 else 0]

/-- A described custom call: the bytes of the result and the operands. utfc.py 335–348. -/
structure CustomCall where
  outBytes : ℕ
  operands : List (List ℕ)

/-- `H_xla` of `utfc`, utfc.py 320–350, for a one-dimensional array of points: `dim0` is its length, the result has shape `(dim0, dim1)` and the element type of `x`. -/
def lowerUni (identifier dim1 : ℕ) (x : TypedArray) (d : ℕ) (full : Bool) : Option CustomCall := do
  let dim0 := x.size
  let a0 ← int32 identifier
  let a2 ← int32 d
  let a4 ← int32 dim0
  let a5 ← int32 dim1
  some ⟨dim0 * dim1 * x.ty.width, [a0, arrayBytes x, a2, boolByte full, a4, a5]⟩

/-- `H_xla` of `mtfc`, mtfc.py 570–604, for one-dimensional arrays of coordinates: `dim0` is the length of the first. `ConcatenateOp` joins arrays of one element type
(for several types the verifier of MLIR raises, here `none`); nothing asks for equal lengths. `np.int32(d)` is an array with one element for each order. -/
def lowerMulti (identifier dim dim1 : ℕ) (x : List TypedArray) (d : List ℕ) (full : Bool) : Option CustomCall :=
  match x with
  | [] => none
  | x0 :: _ =>
    if x.all (fun y => y.ty == x0.ty) then do
      let dim0 := x0.size
      let a0 ← int32 identifier
      let a2 ← d.mapM int32
      let a3 ← int32 dim
      let a5 ← int32 dim0
      let a6 ← int32 dim1
      some ⟨dim0 * dim1 * x0.ty.width, [a0, x.flatMap arrayBytes, a2.flatten, a3, boolByte full, a5, a6]⟩
    else none

/-- `np.array(x)` in the eager `H_impl` of `mtfc`, mtfc.py 547: the arrays of coordinates become the rows of a matrix of real numbers;
`ValueError` when their lengths differ. Element types of numbers beyond the range of `double` are left out. -/
noncomputable def stackPoints (x : List TypedArray) : Except Verif.Py.Err (List (List ℝ)) :=
  if x.all (fun y => y.size == (x.headD y).size) then .ok (x.map fun y => y.bits.map y.ty.value) else .error .valueError

/-- The `w` bytes at byte offset `off` of an operand. The casts in BF.cc 9, 101–106, 1095–1101. -/
def readBytes (b : List ℕ) (off w : ℕ) : Except Fault ℕ :=
  if off + w ≤ b.length then .ok (ofBytes ((b.drop off).take w)) else .error .oobRead

/-- `in[k]`; fewer operands than `k + 1` are an access beyond the array of addresses. BF.cc 9, 102–106, 1096–1101. -/
def operand (ins : List (List ℕ)) (k : ℕ) : Except Fault (List ℕ) :=
  match ins[k]? with
  | some b => .ok b
  | none => .error .oobRead

/-- `(reinterpret_cast<int *>(in[k]))[0]`; the values are used as counts, orders and indices, and are natural numbers here (a negative one would be 0). BF.cc 9, 103, 105, 106. -/
def readInt (ins : List (List ℕ)) (k : ℕ) : Except Fault ℕ := do
  let b ← operand ins k
  let v ← readBytes b 0 4
  .ok (signed 4 v).toNat

/-- `(reinterpret_cast<bool *>(in[k]))[0]`. BF.cc 104, 1099. -/
def readBool (ins : List (List ℕ)) (k : ℕ) : Except Fault Bool := do
  let b ← operand ins k
  let v ← readBytes b 0 1
  .ok (v != 0)

/-- `reinterpret_cast<double *>(in[k])`: element `j` are the bytes from `8 j` on; the last bytes of an operand whose length is no multiple of 8 cannot be read as a `double`
without reading beyond it. BF.cc 102, 1096. -/
noncomputable def asDoubles (b : List ℕ) : Buf ℝ := Buf.ofFn (b.length / 8) fun j => float64 (ofBytes ((b.drop (8 * j)).take 8))

/-- `reinterpret_cast<int *>(in[2])`, the orders. BF.cc 1097. -/
def asInts (b : List ℕ) : Buf ℕ := Buf.ofFn (b.length / 4) fun j => (signed 4 (ofBytes ((b.drop (4 * j)).take 4))).toNat

/-- The first lines of `BasisFunc::xla`, BF.cc 101–106. The block for the result has room for `outBytes / 8` doubles. -/
noncomputable def unpackUni (c : CustomCall) : Except Fault XlaArgs := do
  let x ← operand c.operands 1
  let d ← readInt c.operands 2
  let full ← readBool c.operands 3
  let n ← readInt c.operands 4
  let mOut ← readInt c.operands 5
  .ok (.uni (alloc (c.outBytes / 8)) (asDoubles x) d full n mOut)

/-- The first lines of `nBasisFunc::xla`, BF.cc 1095–1101. -/
noncomputable def unpackMulti (c : CustomCall) : Except Fault XlaArgs := do
  let x ← operand c.operands 1
  let d ← operand c.operands 2
  let dDim0 ← readInt c.operands 3
  let full ← readBool c.operands 4
  let nOut ← readInt c.operands 5
  let mOut ← readInt c.operands 6
  .ok (.nd (alloc (c.outBytes / 8)) (asDoubles x) (asInts d) dDim0 full nOut mOut)

/-- The method `xla` of an object applied to the described call: the virtual function is chosen by the class of the object. BF.cc 100–144, 1094–1104. -/
noncomputable def CObj.rawXla (o : CObj) (c : CustomCall) : Except Fault (Buf ℝ) :=
  match o with
  | .uni _ | .elm _ => do
    let a ← unpackUni c
    o.xla a
  | .nd _ | .nelm _ => do
    let a ← unpackMulti c
    o.xla a

/-- `xlaWrapper(out, in)`, BF.cc 8–11. -/
noncomputable def Proc.rawCall (p : Proc) (c : CustomCall) : Except Fault (Buf ℝ) := do
  let N ← readInt c.operands 0
  match p.container[N]? with
  | none => .error .oobRead
  | some a =>
    match p.heap a with
    | none => .error .uninit
    | some cell => cell.obj.rawXla c

end Verif.Model.CC
