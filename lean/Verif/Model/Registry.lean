import Verif.Model.ElmSet
import Verif.Model.UniCC

/-!
# The registry of compiled basis objects

BF.cc 3–11: the static members `nIdentifier` and `BasisFuncContainer` and the function `xlaWrapper` called by compiled (XLA)
code; the constructors `BasisFunc` BF.cc 44–46, `nBasisFunc` 1053–1055, `nELM` 1311–1313 (the derived classes call exactly one of
these; the empty constructors BF.h 101 and 468 register nothing); the destructors BF.cc 55, 608, 1064, 1329, which leave the
container alone.
-/

namespace Verif.Model.CC

open Verif.Mem Verif.Py Verif.Spec

/-- A C++ object, by class. BF.h 20–737. -/
inductive CObj
  | uni (bf : BasisFunc ℝ)
  | elm (e : Elm)
  | nd (bf : NBasisFunc ℝ)
  | nelm (e : NElm ℝ)

/-- The operands of a compiled call after the identifier, already unpacked (BF.cc 100–144, 1094–1104). A call carries the
operands of the kind of primitive (`utfc` or `mtfc`) that made it. -/
inductive XlaArgs
  | uni (out x : Buf ℝ) (d : ℕ) (full : Bool) (n mOut : ℕ)
  | nd (out x : Buf ℝ) (d : Buf ℕ) (dDim0 : ℕ) (full : Bool) (nOut mOut : ℕ)

/-- The virtual method `xla`. Operands of the other kind are misread by the C++ code; this is the fault `oobRead`.
BF.cc 100–144, 1094–1104. -/
noncomputable def CObj.xla : CObj → XlaArgs → Except Fault (Buf ℝ)
  | .uni bf, .uni out x d full n mOut => bf.xla out x d full n mOut
  | .elm e, .uni out x d full n mOut => e.base.xla out x d full n mOut
  | .nd bf, .nd out x d dDim0 full nOut mOut => bf.xla out x d dDim0 full nOut mOut
  | .nelm e, .nd out x d dDim0 full nOut mOut => e.xla out x d dDim0 full nOut mOut
  | _, _ => .error .oobRead

/-- The constructor arguments. The values `rand()` yields for weights and biases are the parameters `w`, `b`.
BF.cc 25–53, 594–605, 1013–1062, 1266–1327. -/
inductive Ctor
  | uni (cls : UniClass) (x0 xf : ℝ) (nC : List ℤ) (m : ℕ)
  | elm (a : Activation) (w b : ℕ → ℝ) (x0 xf : ℝ) (nC : List ℤ) (m : ℕ)
  | nd (f : NFamily) (x0 : Buf ℝ) (x0Dim0 : ℕ) (xf : Buf ℝ) (nC : Buf ℤ) (ncDim0 ncDim1 m : ℕ)
  | nelm (a : Activation) (w b x0 : Buf ℝ) (x0Dim0 : ℕ) (xf : Buf ℝ) (nC : List ℤ) (m : ℕ)

/-- The constructors, without the registration. BF.cc 25–53, 594–605, 1013–1062, 1266–1327. -/
noncomputable def Ctor.build : Ctor → Except Fault CObj
  | .uni cls x0 xf nC m => .ok (.uni (uniNew cls x0 xf nC m))
  | .elm a w b x0 xf nC m => .ok (.elm ⟨a, x0, xf, nC, m, Buf.ofFn m w, Buf.ofFn m b⟩)
  | .nd f x0 x0Dim0 xf nC ncDim0 ncDim1 m => do
    let bf ← nNew f x0 x0Dim0 xf nC ncDim0 ncDim1 m
    .ok (.nd bf)
  | .nelm a w b x0 x0Dim0 xf nC m => do
    let e ← NElm.new a w b x0 x0Dim0 xf nC m
    .ok (.nelm e)

/-- `obj.w = a`. Objects without this property raise `AttributeError`. BF_Py.cc 192, 311–316. -/
def CObj.assignW : CObj → NdArr → Except Err CObj
  | .elm e, a => do
    let e ← e.assignW a
    .ok (.elm e)
  | .nelm e, a => do
    let e ← e.assignW a
    .ok (.nelm e)
  | _, _ => .error .attributeError

/-- `obj.b = a`. BF_Py.cc 178, 296. -/
def CObj.assignB : CObj → NdArr → Except Err CObj
  | .elm e, a => do
    let e ← e.assignB a
    .ok (.elm e)
  | .nelm e, a => do
    let e ← e.assignB a
    .ok (.nelm e)
  | _, _ => .error .attributeError

/-- A live object in memory: the member `identifier` and the rest. BF.h 42. -/
structure Cell where
  identifier : ℕ
  obj : CObj

/-- The state of the process: the static members, the memory (address ↦ live object) and the Python wrapper objects
(numbered in order of creation; `none` after destruction), each holding the address of its C++ object. BF.cc 4–5, BF.h 55–58. -/
structure Proc where
  nIdentifier : ℕ
  container : List ℕ
  heap : ℕ → Option Cell
  wrappers : List (Option ℕ)

/-- Process start: BF.cc 4–5. -/
def Proc.init : Proc := ⟨0, [], fun _ => none, []⟩

/-- What Python code can do to basis objects. `addr` is the address the allocator returned; `h` numbers the wrapper.
BF_Py.cc 8–95, 164–192, 283–316. -/
inductive Op
  | create (addr : ℕ) (c : Ctor)
  | destroy (h : ℕ)
  | assignW (h : ℕ) (a : NdArr)
  | assignB (h : ℕ) (a : NdArr)
  | assignIdentifier (h : ℕ) (v : ℕ)

/-- The address behind wrapper `h` and the object there. pybind11 holder (`std::make_unique`, BF_Py.cc 13, 41, 70). -/
def Proc.deref (p : Proc) (h : ℕ) : Except Err (ℕ × Cell) :=
  match p.wrappers[h]? with
  | some (some a) =>
    match p.heap a with
    | some cell => .ok (a, cell)
    | none => .error .crash
  | _ => .error .nameError

/-- Overwrite the object at an address. No code of its own: assignment to a member of an object of BF.h 20–737. -/
def Proc.store (p : Proc) (a : ℕ) (c : Option Cell) : Proc := { p with heap := Function.update p.heap a c }

/-- Construction. An allocator never returns the address of a live object; a history in which it does is stopped (`crash`).
BF.cc 44–46, 1053–1055, 1311–1313. -/
noncomputable def Proc.create (p : Proc) (addr : ℕ) (c : Ctor) : Except Err Proc :=
  if (p.heap addr).isSome then .error .crash
  else do
    let obj ← Py.liftCC c.build
    let cell : Cell := ⟨p.nIdentifier, obj⟩
    .ok { nIdentifier := p.nIdentifier + 1, container := p.container ++ [addr],
          heap := Function.update p.heap addr (some cell), wrappers := p.wrappers ++ [some addr] }

/-- One operation. Calls do not change the state and are not operations, see `Proc.call`. BF_Py.cc 8–95, 164–192, 283–316. -/
noncomputable def Proc.step (p : Proc) : Op → Except Err Proc
  | .create addr c => p.create addr c
  | .destroy h => do
    let (a, _) ← p.deref h
    .ok { p.store a none with wrappers := p.wrappers.set h none }
  | .assignW h arr => do
    let (a, cell) ← p.deref h
    let obj ← cell.obj.assignW arr
    .ok (p.store a (some { cell with obj := obj }))
  | .assignB h arr => do
    let (a, cell) ← p.deref h
    let obj ← cell.obj.assignB arr
    .ok (p.store a (some { cell with obj := obj }))
  | .assignIdentifier h v => do
    let (a, cell) ← p.deref h
    .ok (p.store a (some { cell with identifier := v }))

/-- A history of operations. An exception (or exit) ends it. BF_Py.cc 87–332. -/
noncomputable def Proc.run (p : Proc) (ops : List Op) : Except Err Proc := ops.foldlM Proc.step p

/-- `xlaWrapper`, BF.cc 8–11: `BasisFuncContainer[N]->xla(out, in)`. An index beyond the vector and a pointer to a destroyed
object are memory faults. -/
noncomputable def Proc.call (p : Proc) (N : ℕ) (args : XlaArgs) : Except Fault (Buf ℝ) :=
  match p.container[N]? with
  | none => .error .oobRead
  | some a =>
    match p.heap a with
    | none => .error .uninit
    | some cell => cell.obj.xla args

end Verif.Model.CC
