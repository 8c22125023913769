import Mathlib.Logic.Function.Basic
import Mathlib.Data.Nat.Notation

/-!
# The heap blocks of the compiled basis objects

C++: /repo/src/tfc/utils/BF.cc, /repo/src/tfc/utils/BF.h; Python: the pybind wrappers of /repo/src/tfc/utils/BF_Py.cc.

The other models of BF.cc say what the blocks contain. This one says which blocks exist: every `new`, `malloc`, `delete[]` and
`free` of the file, in the order in which the functions execute them, and every access to a block. Contents, sizes and
the arithmetic are left out; allocation never fails.
-/

namespace Verif.Model.Life

/-- How a block was obtained. BF.cc uses `new T[n]` and `malloc`; the former must be given back with `delete[]`, the latter
with `free`. For instance BF.cc 63, 69. -/
inductive Kind
  | newArr | malloc
  deriving DecidableEq, Repr

/-- Errors of memory management. `badFree`: giving back a block that is not live (twice, or never obtained). `mismatch`:
`delete[]` of a `malloc` block or `free` of a `new[]` block. `useAfterFree`: access to a block that is not live.
What the C++ standard leaves undefined for BF.cc 55–1902. -/
inductive MemError
  | badFree | mismatch | useAfterFree
  deriving DecidableEq, Repr

/-- The heap: block names from `next` on have not been handed out yet. Any allocator under BF.cc 28–1740. -/
structure Heap where
  next : ℕ
  live : ℕ → Option Kind

/-- The heap at the start of the process, before BF.cc 28 runs for the first time. -/
def Heap.empty : Heap := ⟨0, fun _ => none⟩

/-- Programs that work on the heap: the functions of BF.cc 25–1902. -/
abbrev HeapM (α : Type) : Type := Heap → Except MemError (α × Heap)

/-- One statement after another, as in BF.cc 28–30. -/
def seq {α β : Type} (p : HeapM α) (q : α → HeapM β) : HeapM β := fun h =>
  match p h with
  | .error e => .error e
  | .ok (a, h') => q a h'

/-- No statement; BF.cc 181, for instance. -/
def ret {α : Type} (a : α) : HeapM α := fun h => .ok (a, h)

@[inherit_doc seq] notation:55 p:56 " >>>= " q:55 => seq p q
@[inherit_doc seq] notation:55 p:56 " ;; " q:55 => seq p (fun _ => q)

/-- A new block. `new T[n]` (BF.cc 28, 63, …) and `malloc` (BF.cc 69, 632, …). -/
def obtain_ (k : Kind) : HeapM ℕ := fun h =>
  .ok (h.next, ⟨h.next + 1, Function.update h.live h.next (some k)⟩)

/-- Giving a block back. `delete[]` (BF.cc 55, 96, …) and `free` (BF_Py.cc 126). -/
def giveBack (k : Kind) (p : ℕ) : HeapM Unit := fun h =>
  match h.live p with
  | none => .error .badFree
  | some k' => if k' = k then .ok ((), ⟨h.next, Function.update h.live p none⟩) else .error .mismatch

/-- Reading from or writing to a block, as in BF.cc 67. -/
def use (p : ℕ) : HeapM Unit := fun h =>
  match h.live p with
  | none => .error .useAfterFree
  | some _ => .ok ((), h)

/-- The one-dimensional classes, as far as their heap behaviour differs: `CP`, `LeP`, `LaP`, `HoPpro`, `HoPphy` (BF.cc
171–520), `FS` (BF.cc 524–590), the ELM classes other than swish (BF.cc 647–880), `ELMSwish` (BF.cc 883–1010). -/
inductive Uni
  | poly | fs | elm | swish
  deriving DecidableEq, Repr

/-- The n-dimensional classes: `nCP`, `nLeP` (BF.h 507–550), `nFS` (BF.h 555–575), the `nELM` classes other than swish and
`nELMSwish` (BF.h 652–739). -/
inductive Multi
  | poly | fs | elm | swish
  deriving DecidableEq, Repr

/-- `RecurseDeriv`, BF.cc 212–237, 281–308, 352–379, 424–449, 494–520, with `k = d - dCurr` levels to go: one temporary per
level, given back before the next level starts. `F` is the block that is differentiated, `x` the points. -/
def recurseDeriv (x F : ℕ) : ℕ → HeapM Unit
  | 0 => ret ()
  | k + 1 =>
    obtain_ .newArr >>>= fun dark =>
    use F ;; use dark ;; use x ;;
    giveBack .newArr dark ;;
    recurseDeriv x F k

/-- `Hint` of the polynomial classes: for degrees 0 and 1 the entries are written directly (BF.cc 175–199), above that
`RecurseDeriv` is called (BF.cc 200–208). -/
def polyHint (m d x dark : ℕ) : HeapM Unit :=
  if m ≤ 2 then use x ;; use dark else use x ;; use dark ;; recurseDeriv x dark d

/-- `FS::Hint`, BF.cc 524–590: no temporaries. -/
def fsHint (x dark : ℕ) : HeapM Unit := use x ;; use dark

/-- `Hint` of the ELM classes other than swish, BF.cc 647–880: reads the weights and biases, no temporaries. -/
def elmHint (w b x dark : ℕ) : HeapM Unit := use w ;; use b ;; use x ;; use dark

/-- `ELMSwish::Hint`, BF.cc 883–1010: two temporaries for every order, also for order 0, where they are not used. -/
def swishHint (d w b x dark : ℕ) : HeapM Unit :=
  obtain_ .newArr >>>= fun sig =>
  obtain_ .newArr >>>= fun zint =>
  (if d = 0 then elmHint w b x dark else use w ;; use b ;; use x ;; use zint ;; use sig ;; use dark) ;;
  giveBack .newArr sig ;;
  giveBack .newArr zint

/-- A one-dimensional object: its class, `m`, and the blocks of its fields `nC` (BF.h 33) and, for the ELM classes, `w`, `b`
(BF.h 280–283). -/
structure Obj1 where
  cls : Uni
  m : ℕ
  nC : ℕ
  w : ℕ
  b : ℕ

/-- `Hint` of the class of the object. BF.h 114. -/
def Obj1.hint (o : Obj1) (d x dark : ℕ) : HeapM Unit :=
  match o.cls with
  | .poly => polyHint o.m d x dark
  | .fs => fsHint x dark
  | .elm => elmHint o.w o.b x dark
  | .swish => swishHint d o.w o.b x dark

/-- Whether the class has the fields `w` and `b`. BF.h 277, 322–402. -/
def Uni.isElm : Uni → Bool
  | .poly | .fs => false
  | .elm | .swish => true

/-- The constructors: `BasisFunc`, BF.cc 25–53, followed for the ELM classes by `ELM`, BF.cc 594–605. -/
def Obj1.new (cls : Uni) (m : ℕ) : HeapM Obj1 :=
  obtain_ .newArr >>>= fun nC =>
  use nC ;;
  if cls.isElm then
    obtain_ .newArr >>>= fun w =>
    obtain_ .newArr >>>= fun b =>
    use w ;; use b ;; ret ⟨cls, m, nC, w, b⟩
  else ret ⟨cls, m, nC, 0, 0⟩

/-- The destructors: `~ELM` (BF.cc 607–610) for the ELM classes, then `~BasisFunc` (BF.cc 55). -/
def Obj1.delete (o : Obj1) : HeapM Unit :=
  (if o.cls.isElm then giveBack .newArr o.b ;; giveBack .newArr o.w else ret ()) ;;
  giveBack .newArr o.nC

/-- The copy of the columns at the end of `H` and `xla`; `nC` is read only if functions are removed. BF.cc 72–95, 118–141. -/
def Obj1.copyOut (o : Obj1) (full : Bool) (dark : ℕ) : HeapM Unit :=
  if full then use dark else use o.nC ;; use dark

/-- `BasisFunc::H`, BF.cc 57–98: two temporaries, and the block `F` that is returned. -/
def Obj1.H (o : Obj1) (d : ℕ) (full : Bool) : HeapM ℕ :=
  obtain_ .newArr >>>= fun dark =>
  obtain_ .newArr >>>= fun z =>
  use z ;;
  obtain_ .malloc >>>= fun F =>
  o.hint d z dark ;;
  o.copyOut full dark ;; use F ;;
  giveBack .newArr dark ;;
  giveBack .newArr z ;;
  ret F

/-- `BasisFunc::xla`, BF.cc 100–144: like `H`, the values go to a buffer that belongs to XLA. -/
def Obj1.xla (o : Obj1) (d : ℕ) (full : Bool) : HeapM Unit :=
  obtain_ .newArr >>>= fun dark =>
  obtain_ .newArr >>>= fun z =>
  use z ;;
  o.hint d z dark ;;
  o.copyOut full dark ;;
  giveBack .newArr dark ;;
  giveBack .newArr z

/-- `ELM::getW`, `ELM::getB`, BF.cc 630–644: a copy in a block that is returned. Also `nELM::getW`, `getB`, BF.cc 1352–1367. -/
def copyField (p : ℕ) : HeapM ℕ :=
  obtain_ .malloc >>>= fun F => use p ;; use F ;; ret F

/-- An n-dimensional object: class, `m`, `dim`, `numC`, the blocks of the fields `x0`, `nC`, `c` (BF.h 33, 426–429) and, for the
ELM classes, `w`, `b` (BF.h 588–592). -/
structure ObjN where
  cls : Multi
  m : ℕ
  dim : ℕ
  numC : ℕ
  x0 : ℕ
  nC : ℕ
  c : ℕ
  w : ℕ
  b : ℕ

/-- Whether the class derives from `nELM`. BF.h 579, 652–739. -/
def Multi.isElm : Multi → Bool
  | .poly | .fs => false
  | .elm | .swish => true

/-- The constructors: `nBasisFunc`, BF.cc 1013–1062, for the tensor-product classes (with the temporary `vec`), and `nELM`, BF.cc
1266–1327, which calls the empty constructors of its bases (BF.h 101, 468). -/
def ObjN.new (cls : Multi) (m dim numC : ℕ) : HeapM ObjN :=
  obtain_ .newArr >>>= fun x0 =>
  use x0 ;;
  obtain_ .newArr >>>= fun nC =>
  use nC ;;
  obtain_ .newArr >>>= fun c =>
  use x0 ;; use c ;;
  if cls.isElm then
    use nC ;;
    obtain_ .newArr >>>= fun w =>
    obtain_ .newArr >>>= fun b =>
    use w ;; use b ;; ret ⟨cls, m, dim, numC, x0, nC, c, w, b⟩
  else
    obtain_ .newArr >>>= fun vec =>
    use vec ;; use nC ;;
    giveBack .newArr vec ;;
    ret ⟨cls, m, dim, numC, x0, nC, c, 0, 0⟩

/-- The destructors: `~nELM` (BF.cc 1329–1332) for the ELM classes, then `~nBasisFunc` (BF.cc 1064), which gives back `c`, then
`~BasisFunc` (BF.cc 55), which gives back `nC`. None of them gives back `x0`. -/
def ObjN.delete (o : ObjN) : HeapM Unit :=
  (if o.cls.isElm then giveBack .newArr o.b ;; giveBack .newArr o.w else ret ()) ;;
  giveBack .newArr o.c ;;
  giveBack .newArr o.nC

/-- `Hint` of the one-dimensional parent class of a tensor-product class. BF.h 518–525, 542–549, 566–573. -/
def ObjN.hint (o : ObjN) (d x dark : ℕ) : HeapM Unit :=
  match o.cls with
  | .poly => polyHint o.m d x dark
  | _ => fsHint x dark

/-- The loop over the dimensions, BF.cc 1121–1132, from dimension `k` on; orders that are not given count as 0. -/
def ObjN.dims (o : ObjN) (d : List ℕ) (z dark T : ℕ) : ℕ → ℕ → HeapM Unit
  | _, 0 => ret ()
  | k, r + 1 =>
    o.hint (d.getD k 0) z dark ;;
    use o.c ;; use dark ;; use T ;;
    o.dims d z dark T (k + 1) r

/-- Access to the block `F` if it is one of the blocks of this program (in `xla` it belongs to XLA). BF.cc 1134, 1091. -/
def useOut : Option ℕ → HeapM Unit
  | none => ret ()
  | some p => use p

/-- `nBasisFunc::nHint`, BF.cc 1106–1146. -/
def ObjN.tensorHint (o : ObjN) (d : List ℕ) (full : Bool) (F : Option ℕ) : HeapM Unit :=
  obtain_ .newArr >>>= fun dark =>
  obtain_ .newArr >>>= fun T =>
  obtain_ .newArr >>>= fun z =>
  use o.x0 ;; use o.c ;; use z ;;
  o.dims d z dark T 0 o.dim ;;
  useOut F ;;
  obtain_ .newArr >>>= fun vec =>
  use vec ;; (if full then ret () else use o.nC) ;; use T ;; useOut F ;;
  giveBack .newArr vec ;;
  giveBack .newArr dark ;;
  giveBack .newArr T ;;
  giveBack .newArr z

/-- `nElmHint`: BF.cc 1411–1730 and 1907–1948 (no temporaries), BF.cc 1733–1904 (`nELMSwish`, two temporaries). `F` is the block
written to. -/
def ObjN.elmHint (o : ObjN) (z : ℕ) (F : Option ℕ) : HeapM Unit :=
  match o.cls with
  | .swish =>
    obtain_ .newArr >>>= fun sig =>
    obtain_ .newArr >>>= fun zint =>
    use o.c ;; use o.w ;; use o.b ;; use z ;; use zint ;; use sig ;; useOut F ;;
    giveBack .newArr sig ;;
    giveBack .newArr zint
  | _ => use o.c ;; use o.w ;; use o.b ;; use z ;; useOut F

/-- `nELM::nHint`, BF.cc 1369–1408. -/
def ObjN.elmNHint (o : ObjN) (full : Bool) (F : Option ℕ) : HeapM Unit :=
  obtain_ .newArr >>>= fun z =>
  use o.x0 ;; use o.c ;; use z ;;
  (if o.numC = 0 ∨ full = true then o.elmHint z F
   else
    obtain_ .newArr >>>= fun dark =>
    o.elmHint z (some dark) ;;
    use o.nC ;; use dark ;; useOut F ;;
    giveBack .newArr dark) ;;
  giveBack .newArr z

/-- The virtual call `nHint` of `nBasisFunc::H` and `nBasisFunc::xla`. BF.h 494. -/
def ObjN.nHint (o : ObjN) (d : List ℕ) (full : Bool) (F : Option ℕ) : HeapM Unit :=
  if o.cls.isElm then o.elmNHint full F else o.tensorHint d full F

/-- `nBasisFunc::H`, BF.cc 1074–1088. -/
def ObjN.H (o : ObjN) (d : List ℕ) (full : Bool) : HeapM ℕ :=
  obtain_ .malloc >>>= fun F => o.nHint d full (some F) ;; ret F

/-- `nBasisFunc::xla`, BF.cc 1094–1104. -/
def ObjN.xla (o : ObjN) (d : List ℕ) (full : Bool) : HeapM Unit := o.nHint d full none

/-- An object of either sort. BF.h 20, 416. -/
inductive Obj
  | uni (o : Obj1)
  | multi (o : ObjN)

/-- A Python object that wraps a compiled object: `ref` says whether the program still holds a reference to it, `alive` whether
the destructor has not run yet. pybind11 holds the object in a `unique_ptr` (BF_Py.cc 13, 41, 70). -/
structure Entry where
  obj : Obj
  ref : Bool
  alive : Bool

/-- An array returned to Python: either it owns a block through a capsule (BF_Py.cc 123–129, 172–176, 186–190, 250–256,
290–294, 305–309), or it is a view
of the field `c` of an n-dimensional object that it keeps alive (BF_Py.cc 216–219). -/
inductive Res
  | owns (p : ℕ)
  | view (i : ℕ)
  deriving DecidableEq

/-- The process: the heap, the Python objects and the arrays they returned, numbered in the order of their creation. The state
around BF_Py.cc 87–332. -/
structure World where
  heap : Heap
  nObj : ℕ
  objs : ℕ → Option Entry
  nRes : ℕ
  res : ℕ → Option Res

/-- Before the first object: the module of BF_Py.cc 87 has just been imported. -/
def World.start : World := ⟨.empty, 0, fun _ => none, 0, fun _ => none⟩

/-- What a Python program can do with the module. Objects and arrays are named by their numbers. `useArr` reads a returned
array, `callXla` runs a compiled computation that refers to object `i`. BF_Py.cc 8–332. -/
inductive Op
  | newUni (cls : Uni) (m : ℕ)
  | newMulti (cls : Multi) (m dim numC : ℕ)
  | callH (i : ℕ) (d : List ℕ) (full : Bool)
  | callXla (i : ℕ) (d : List ℕ) (full : Bool)
  | getW (i : ℕ)
  | getB (i : ℕ)
  | setW (i : ℕ)
  | setB (i : ℕ)
  | getC (i : ℕ)
  | useArr (r : ℕ)
  | dropArr (r : ℕ)
  | dropObj (i : ℕ)

/-- A new Python object. BF_Py.cc 9–14, 31–43, 60–71. -/
def World.addObj (w : World) (h : Heap) (o : Obj) : World :=
  { w with heap := h, nObj := w.nObj + 1, objs := Function.update w.objs w.nObj (some ⟨o, true, true⟩) }

/-- A new array. BF_Py.cc 129, 256. -/
def World.addRes (w : World) (h : Heap) (r : Res) : World :=
  { w with heap := h, nRes := w.nRes + 1, res := Function.update w.res w.nRes (some r) }

/-- The object `i`, if the program still has a reference to it. BF_Py.cc 113, 235: `self`. -/
def World.get (w : World) (i : ℕ) : Option Obj :=
  match w.objs i with
  | some ⟨o, true, true⟩ => some o
  | _ => none

/-- The matrix of one object. One-dimensional objects take a single order (BF_Py.cc 113), n-dimensional ones a list (BF_Py.cc
235–238). -/
def Obj.H (o : Obj) (d : List ℕ) (full : Bool) : HeapM ℕ :=
  match o with
  | .uni o => o.H (d.getD 0 0) full
  | .multi o => o.H d full

/-- The virtual call `xla` of the wrapper. BF.cc 10. -/
def Obj.xla (o : Obj) (d : List ℕ) (full : Bool) : HeapM Unit :=
  match o with
  | .uni o => o.xla (d.getD 0 0) full
  | .multi o => o.xla d full

/-- The destructor of the class. BF.h 68. -/
def Obj.delete : Obj → HeapM Unit
  | .uni o => o.delete
  | .multi o => o.delete

/-- The block of `w`, for the classes that have one. BF.h 280, 589. -/
def Obj.wBlock : Obj → Option ℕ
  | .uni o => if o.cls.isElm then some o.w else none
  | .multi o => if o.cls.isElm then some o.w else none

/-- The block of `b`, for the classes that have one. BF.h 283, 592. -/
def Obj.bBlock : Obj → Option ℕ
  | .uni o => if o.cls.isElm then some o.b else none
  | .multi o => if o.cls.isElm then some o.b else none

/-- The block of the array `c` of the n-dimensional classes. BF.h 426. -/
def Obj.cBlock : Obj → Option ℕ
  | .uni _ => none
  | .multi o => some o.c

/-- A program that returns a block, which becomes an array that owns it. BF_Py.cc 118–129. -/
def World.returning (w : World) (p : HeapM ℕ) : Except MemError World :=
  match p w.heap with
  | .error e => .error e
  | .ok (F, h) => .ok (w.addRes h (.owns F))

/-- A program that returns nothing. BF_Py.cc 178. -/
def World.running (w : World) (p : HeapM Unit) : Except MemError World :=
  match p w.heap with
  | .error e => .error e
  | .ok (_, h) => .ok { w with heap := h }

/-- A getter that copies a field; objects without the field raise `AttributeError`, which leaves the state unchanged. BF_Py.cc
165–177, 179–191, 283–295, 297–310. -/
def World.copying (w : World) (p : Option ℕ) : Except MemError World :=
  match p with
  | none => .ok w
  | some p => w.returning (copyField p)

/-- A setter: the values are copied into the existing block. BF.cc 612–628, 1334–1350. (A wrong size ends the process.) -/
def World.writing (w : World) (p : Option ℕ) : Except MemError World :=
  match p with
  | none => .ok w
  | some p => w.running (use p)

/-- Python runs the destructor of object `i` once there is no reference left, neither in the program nor in a view.
BF_Py.cc 218: the view holds `py::cast(self)`. -/
noncomputable def World.collect (w : World) (i : ℕ) : Except MemError World := by
  classical exact
  match w.objs i with
  | some ⟨o, false, true⟩ =>
    if ∃ r, w.res r = some (.view i) then .ok w
    else
      match o.delete w.heap with
      | .error e => .error e
      | .ok (_, h) => .ok { w with heap := h, objs := Function.update w.objs i (some ⟨o, false, false⟩) }
  | _ => .ok w

/-- Reading the data of an array. BF_Py.cc 129, 218. -/
def World.readRes (w : World) (r : Res) : Except MemError World :=
  match r with
  | .owns p => w.running (use p)
  | .view i =>
    match w.objs i with
    | some ⟨.multi o, _, _⟩ => w.running (use o.c)
    | _ => .ok w

/-- The capsule of an array that owns its block frees it (BF_Py.cc 124–127); dropping a view may be the end of its object. -/
noncomputable def World.dropRes (w : World) (r : ℕ) (x : Res) : Except MemError World :=
  match x with
  | .owns p =>
    match giveBack .malloc p w.heap with
    | .error e => .error e
    | .ok (_, h) => .ok { w with heap := h, res := Function.update w.res r none }
  | .view i => World.collect { w with res := Function.update w.res r none } i

/-- An operation on an object the program still refers to; a Python program has no way to name another one. BF_Py.cc 113. -/
def World.onObj (w : World) (i : ℕ) (f : Obj → Except MemError World) : Except MemError World :=
  match w.get i with
  | none => .ok w
  | some o => f o

/-- The getter of `c`: a view, for the n-dimensional classes. BF_Py.cc 214–219. (The one-dimensional classes return a number, BF_Py.cc
92.) -/
def World.viewC (w : World) (i : ℕ) (o : Obj) : Except MemError World :=
  match o with
  | .uni _ => .ok w
  | .multi _ => .ok (w.addRes w.heap (.view i))

/-- `xlaWrapper`, BF.cc 8–11. A compiled computation calls it with the number it was compiled with (utfc.py 339), whether or not
the program still has the object. The pointer is looked up in `BasisFuncContainer`, in which every constructor appends a pointer
(BF.cc 44, 1053, 1311) and no destructor removes one (BF.cc 55), so that a number without a live object leads to an access
through a dangling pointer. (A number that was never given out leads beyond the end of the vector; it counts as the same error.) -/
def World.xlaWrapper (w : World) (i : ℕ) (d : List ℕ) (full : Bool) : Except MemError World :=
  match w.objs i with
  | some ⟨o, _, true⟩ => w.running (o.xla d full)
  | _ => .error .useAfterFree

/-- One operation. BF_Py.cc 8–332. -/
noncomputable def World.step (w : World) : Op → Except MemError World
  | .newUni cls m =>
    match Obj1.new cls m w.heap with
    | .error e => .error e
    | .ok (o, h) => .ok (w.addObj h (.uni o))
  | .newMulti cls m dim numC =>
    match ObjN.new cls m dim numC w.heap with
    | .error e => .error e
    | .ok (o, h) => .ok (w.addObj h (.multi o))
  | .callH i d full => w.onObj i fun o => w.returning (o.H d full)
  | .callXla i d full => w.xlaWrapper i d full
  | .getW i => w.onObj i fun o => w.copying o.wBlock
  | .getB i => w.onObj i fun o => w.copying o.bBlock
  | .setW i => w.onObj i fun o => w.writing o.wBlock
  | .setB i => w.onObj i fun o => w.writing o.bBlock
  | .getC i => w.onObj i fun o => w.viewC i o
  | .useArr r =>
    match w.res r with
    | none => .ok w
    | some x => w.readRes x
  | .dropArr r =>
    match w.res r with
    | none => .ok w
    | some x => w.dropRes r x
  | .dropObj i => w.onObj i fun o =>
      World.collect { w with objs := Function.update w.objs i (some ⟨o, false, true⟩) } i

/-- A whole program. BF_Py.cc 8–332. -/
noncomputable def World.run (w : World) : List Op → Except MemError World
  | [] => .ok w
  | op :: ops =>
    match w.step op with
    | .error e => .error e
    | .ok w' => w'.run ops

end Verif.Model.Life
