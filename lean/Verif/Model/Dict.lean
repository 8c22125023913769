import Verif.Py
import Mathlib.Algebra.BigOperators.Group.List.Basic
import Mathlib.Data.List.Basic
import Mathlib.Logic.Function.Basic

/-!
# Model of `TFCDict` and `TFCDictRobust`: /repo/src/tfc/utils/TFCUtils.py 326–739

The two classes are textually the same except for the places marked by a `match` on `DictClass`.

Arrays: `jax.numpy` arrays are immutable values; numpy (`onp`) arrays are mutable objects, so a value of that kind is a reference
into a heap. `x += y` on two numpy arrays changes the array `x` refers to; if one of the two is a JAX array the result is a
new JAX array (a numpy array gives way to the JAX array's higher `__array_priority__`).

Simplifications: values are arrays (no numbers or tracers); arrays of different shapes are not broadcast but refused
(`typeError`); arrays holding entries of an arbitrary type `K`.
-/

namespace Verif.Model.Dict

open Verif.Py

/-- Which of the two classes: `TFCDict` or `TFCDictRobust`. TFCUtils.py 326, 535. -/
inductive DictClass
  | plain
  | robust
  deriving DecidableEq

/-- The content of an array: shape and entries in C order.
numpy/JAX arrays, the values of the dictionaries of TFCUtils.py 326–739. -/
structure Arr (K : Type) where
  shape : List ℕ
  data : List K

variable {Key K : Type} [DecidableEq Key]

/-- `a.flatten()`. Used at TFCUtils.py 416, 450, 497, 521, 568, 599, 615, 657. -/
def Arr.flatten (a : Arr K) : Arr K := ⟨[a.data.length], a.data⟩

/-- An array object: a JAX array, or a reference to a numpy array. `np` is jax.numpy and `onp` numpy, TFCUtils.py 12, 14. -/
inductive Val (K : Type)
  | jax (a : Arr K)
  | np (r : ℕ)

/-- The numpy arrays. See `Val`; no code of its own, numpy semantics (TFCUtils.py 357–360 accepts both kinds). -/
abbrev Heap (K : Type) := ℕ → Arr K

/-- The present content of an array object. Used wherever TFCUtils.py 326–739 reads `self[key]`. -/
def Val.arr (h : Heap K) : Val K → Arr K
  | .jax a => a
  | .np r => h r

/-- `isinstance(value, np.ndarray) or isinstance(value, onp.ndarray)`, TFCUtils.py 357–360 and 559; only the first of these in
TFCDictRobust, 560. -/
def isArray : DictClass → Val K → Bool
  | .plain, _ => true
  | .robust, .jax _ => true
  | .robust, .np _ => false

/-! ### `OrderedDict` -/

/-- `d[k]`. `OrderedDict.__getitem__`, used at TFCUtils.py 369, 448. -/
def lookup (items : List (Key × Val K)) (k : Key) : Except Err (Val K) :=
  match items.find? (fun p => p.1 = k) with
  | some p => .ok p.2
  | none => .error .keyError

/-- `d[k] = v`: an existing key keeps its place, a new one comes last.
`OrderedDict.__setitem__`, used at TFCUtils.py 448, 452. -/
def odSet : List (Key × Val K) → Key → Val K → List (Key × Val K)
  | [], k, v => [(k, v)]
  | p :: items, k, v => if p.1 = k then (k, v) :: items else p :: odSet items k v

/-- `OrderedDict.update`. Called at TFCUtils.py 386 and 585. -/
def odUpdate (items kvs : List (Key × Val K)) : List (Key × Val K) :=
  kvs.foldl (fun items p => odSet items p.1 p.2) items

/-! ### The classes -/

/-- A `TFCDict` or `TFCDictRobust` object: the dictionary and the attributes `_keys` (whose length is `_nKeys`) and `_slices`;
`some (a, b)` is `slice(a, b, 1)`. -/
structure TDict (Key K : Type) where
  items : List (Key × Val K)
  keys : List Key
  slices : List (Option (ℕ × ℕ))

/-- `self[key].shape[0]`, TFCUtils.py 369; `self[key].flatten().shape[0]`, 568. -/
def arrLen (cls : DictClass) (a : Arr K) : Except Err ℕ :=
  match cls with
  | .plain =>
    match a.shape with
    | n :: _ => .ok n
    | [] => .error .indexError
  | .robust => .ok a.data.length

/-- The loop of `getSlices`, TFCUtils.py 367–371 and 566–570. -/
def slicesFrom (cls : DictClass) (h : Heap K) (items : List (Key × Val K)) : ℕ → List Key →
    Except Err (List (Option (ℕ × ℕ)))
  | _, [] => .ok []
  | start, k :: ks => do
    let v ← lookup items k
    let n ← arrLen cls (v.arr h)
    let rest ← slicesFrom cls h items (start + n) ks
    .ok (some (start, start + n) :: rest)

/-- `getSlices`, TFCUtils.py 353–375 and 555–574. -/
def getSlices (cls : DictClass) (h : Heap K) (items : List (Key × Val K)) (keys : List Key) :
    Except Err (List (Option (ℕ × ℕ))) :=
  if items.all (fun p => isArray cls p.2) then slicesFrom cls h items 0 keys
  else .ok (keys.map fun _ => none)

/-- Setting `_keys`, `_nKeys` and calling `getSlices`: the last three lines of `__init__` and of `update`.
TFCUtils.py 349–351 and 387–389; the Robust class repeats them, 551–553 and 586–588. -/
def refresh (cls : DictClass) (h : Heap K) (items : List (Key × Val K)) : Except Err (TDict Key K) := do
  let keys := items.map (·.1)
  let slices ← getSlices cls h items keys
  .ok ⟨items, keys, slices⟩

/-- `TFCDict(kvs)`, TFCUtils.py 336–351 and 538–553. -/
def TDict.init (cls : DictClass) (h : Heap K) (kvs : List (Key × Val K)) : Except Err (TDict Key K) :=
  refresh cls h (odUpdate [] kvs)

/-- `d.update(kvs)`, TFCUtils.py 377–389 and 576–588. -/
def TDict.update (cls : DictClass) (h : Heap K) (d : TDict Key K) (kvs : List (Key × Val K)) : Except Err (TDict Key K) :=
  refresh cls h (odUpdate d.items kvs)

/-- `d[k] = v`: inherited from `OrderedDict`. Class headers TFCUtils.py 326, 535. -/
def TDict.setItem (d : TDict Key K) (k : Key) (v : Val K) : TDict Key K := { d with items := odSet d.items k v }

/-- `del d[k]`: inherited from `OrderedDict`. Class headers TFCUtils.py 326, 535. -/
def TDict.delItem (d : TDict Key K) (k : Key) : Except Err (TDict Key K) := do
  let _ ← lookup d.items k
  .ok { d with items := d.items.filter fun p => ¬ p.1 = k }

/-- `np.hstack` of one-dimensional arrays; an empty list is refused, arrays of other shapes are not modelled (refused).
Used at TFCUtils.py 400 and 599. -/
def hstack (arrs : List (Arr K)) : Except Err (Arr K) :=
  if arrs = [] then .error .valueError
  else if arrs.all (fun a => a.shape = [a.data.length]) then
    .ok ⟨[(arrs.map (·.data)).flatten.length], (arrs.map (·.data)).flatten⟩
  else .error .valueError

/-- `toArray`, TFCUtils.py 391–400 and 590–599. -/
def TDict.toArray (cls : DictClass) (h : Heap K) (d : TDict Key K) : Except Err (Arr K) :=
  match cls with
  | .plain => hstack (d.items.map fun p => p.2.arr h)
  | .robust => hstack (d.items.map fun p => (p.2.arr h).flatten)

/-- `arr[s]` for a flat array `arr`; a slice takes what is there, `arr[None]` puts an axis in front.
Used at TFCUtils.py 417, 452. -/
def sliceOf (arr : List K) : Option (ℕ × ℕ) → Arr K
  | some (a, b) => ⟨[((arr.drop a).take (b - a)).length], (arr.drop a).take (b - a)⟩
  | none => ⟨[1, arr.length], arr⟩

/-- `a.reshape(shape)`. Used at TFCUtils.py 620, 659, 682, 706, 730. -/
def Arr.reshape (a : Arr K) (shape : List ℕ) : Except Err (Arr K) :=
  if shape.prod = a.data.length then .ok ⟨shape, a.data⟩ else .error .typeError

/-- `o[self._slices[k]]`, in TFCDictRobust followed by `.reshape(self[self._keys[k]].shape)`.
TFCUtils.py 417, 452, 499, 523 and 620, 659, 682, 706, 730. -/
def piece (cls : DictClass) (h : Heap K) (self : TDict Key K) (o : List K) (key : Key) (s : Option (ℕ × ℕ)) :
    Except Err (Arr K) :=
  match cls with
  | .plain => .ok (sliceOf o s)
  | .robust => do
    let v ← lookup self.items key
    (sliceOf o s).reshape (v.arr h).shape

/-- The list comprehension over `range(self._nKeys)` in `toDict`, zipped with the keys. TFCUtils.py 417 and 616–624. -/
def pieces (cls : DictClass) (h : Heap K) (self : TDict Key K) (o : List K) : List Key → List (Option (ℕ × ℕ)) →
    Except Err (List (Key × Val K))
  | key :: keys, s :: slices => do
    let a ← piece cls h self o key s
    let rest ← pieces cls h self o keys slices
    .ok ((key, .jax a) :: rest)
  | _, _ => .ok []

/-- `toDict`, TFCUtils.py 402–417 and 601–624; `arr` is a JAX array. -/
def TDict.toDict (cls : DictClass) (h : Heap K) (d : TDict Key K) (arr : Arr K) : Except Err (TDict Key K) := do
  let kvs ← pieces cls h d arr.flatten.data d.keys d.slices
  TDict.init cls h kvs

/-- `x += y` (or `x -= y`, with `f` the entrywise operation): the new heap and the object `x` is bound to afterwards.
numpy semantics of the statements TFCUtils.py 448, 452. -/
def inplace (f : K → K → K) (h : Heap K) (x y : Val K) : Except Err (Heap K × Val K) :=
  let a := x.arr h
  let b := y.arr h
  if a.shape = b.shape then
    let c : Arr K := ⟨a.shape, List.zipWith f a.data b.data⟩
    match x, y with
    | .np r, .np _ => .ok (Function.update h r c, x)
    | _, _ => .ok (h, .jax c)
  else .error .typeError

/-- `self[key] += o`. TFCUtils.py 448, 452. -/
def stepKey (f : K → K → K) (h : Heap K) (items : List (Key × Val K)) (key : Key) (y : Val K) :
    Except Err (Heap K × List (Key × Val K)) := do
  let x ← lookup items key
  let (h, v) ← inplace f h x y
  .ok (h, odSet items key v)

/-- The loop `for key in self._keys: out[key] += o[key]`, TFCUtils.py 447–448 and its seven copies. -/
def loopDict (f : K → K → K) (o : List (Key × Val K)) : List Key → Heap K × List (Key × Val K) →
    Except Err (Heap K × List (Key × Val K))
  | [], s => .ok s
  | key :: keys, s => do
    let y ← lookup o key
    let s ← stepKey f s.1 s.2 key y
    loopDict f o keys s

/-- The loop `for k in range(self._nKeys): out[self._keys[k]] += o[self._slices[k]]`, TFCUtils.py 451–452 and its copies. The
shape in TFCDictRobust is that of the entry of `self`; it has not been changed yet when it is used. -/
def loopFlat (cls : DictClass) (f : K → K → K) (self : TDict Key K) (o : List K) : List Key → List (Option (ℕ × ℕ)) →
    Heap K × List (Key × Val K) → Except Err (Heap K × List (Key × Val K))
  | key :: keys, sl :: slices, s => do
    let a ← piece cls s.1 self o key sl
    let s ← stepKey f s.1 s.2 key (.jax a)
    loopFlat cls f self o keys slices s
  | _, _, s => .ok s

/-- What stands on the right of `+`, `-`, `+=`, `-=`: a dictionary, a JAX array, a numpy array. TFCUtils.py 446, 449. -/
inductive Operand (Key K : Type)
  | dict (items : List (Key × Val K))
  | jaxArr (a : Arr K)
  | npArr (r : ℕ)

/-- The body common to the eight operators: `isinstance(o, dict)` — `isinstance(o, np.ndarray)` (true for JAX arrays only) — else
nothing happens. `items` is the dictionary changed. TFCUtils.py 446–453, 469–476, 493–500, 517–524, and the copies 653–660, 676–683, 700–707, 724–731. -/
def combine (cls : DictClass) (f : K → K → K) (h : Heap K) (self : TDict Key K) (items : List (Key × Val K)) :
    Operand Key K → Except Err (Heap K × List (Key × Val K))
  | .dict o => loopDict f o self.keys (h, items)
  | .jaxArr a => loopFlat cls f self a.flatten.data self.keys self.slices (h, items)
  | .npArr _ => .ok (h, items)

/-- `d += o` (`f` is `+`) and `d -= o` (`f` is `-`): `__iadd__`, `__isub__`, TFCUtils.py 432–476 and 639–683. Returns the heap and
the changed object. -/
def TDict.iop (cls : DictClass) (f : K → K → K) (h : Heap K) (self : TDict Key K) (o : Operand Key K) :
    Except Err (Heap K × TDict Key K) := do
  let (h, items) ← combine cls f h self self.items o
  .ok (h, { self with items := items })

/-- `d + o` and `d - o`: `__add__`, `__sub__`, TFCUtils.py 478–524 and 685–731: `out = TFCDict(self)`, a new dictionary holding the
same array objects, is changed and returned. -/
def TDict.op (cls : DictClass) (f : K → K → K) (h : Heap K) (self : TDict Key K) (o : Operand Key K) :
    Except Err (Heap K × TDict Key K) := do
  let out ← TDict.init cls h self.items
  let (h, items) ← combine cls f h self out.items o
  .ok (h, { out with items := items })

/-- The registered pytree functions, TFCUtils.py 528–532 and 735–739: flatten. -/
def treeFlatten (d : TDict Key K) : List (Val K) × List Key := (d.items.map (·.2), d.items.map (·.1))

/-- Unflatten. TFCUtils.py 531 and 738. -/
def treeUnflatten (cls : DictClass) (h : Heap K) (keys : List Key) (values : List (Val K)) : Except Err (TDict Key K) :=
  TDict.init cls h (keys.zip values)

end Verif.Model.Dict
