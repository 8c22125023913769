import Verif.Py
import Mathlib.Data.List.Basic
import Mathlib.Data.List.Range

/-!
# Model of `pe` and `pejit`: /repo/src/tfc/utils/TFCUtils.py 206–323

Arguments are values of a type `α`. The tracing machinery of JAX (`trace_to_jaxpr_nounits`, `eval_jaxpr`, `jit`) is not modelled:
the traced function is taken to compute what the function it was traced from computes. Positions are natural numbers (negative
ones, which Python would count from the end, are not modelled).
-/

namespace Verif.Model

open Verif.Py

variable {α R : Type}

/-- `order.insert(0, order.pop(k))`, TFCUtils.py 238. -/
def moveToFront (order : List ℕ) (k : ℕ) : Except Err (List ℕ) :=
  match order[k]? with
  | some x => .ok (x :: order.eraseIdx k)
  | none => .error .indexError

/-- The loop computing `order`, TFCUtils.py 236–238, for `n` arguments. -/
def peOrder (n : ℕ) (constantArgNums : List ℕ) : Except Err (List ℕ) :=
  constantArgNums.foldlM moveToFront (List.range n)

/-- `tuple(args[k] for k in idx)`. TFCUtils.py 240, 251. -/
def takeArgs (args : List α) : List ℕ → Except Err (List α)
  | [] => .ok []
  | k :: ks =>
    match args[k]? with
    | some a => (takeArgs args ks).map (a :: ·)
    | none => .error .indexError

/-- `np.argsort(order)` for a permutation `order` of `0, …, n-1`: the position of each number in it. TFCUtils.py 239. -/
def argsortPerm (n : ℕ) (order : List ℕ) : List ℕ := (List.range n).map fun i => order.idxOf i

/-- `f_removed`, TFCUtils.py 250–291: the traced function `f` (250–252) with its first `num_args_remove` arguments, those of `dark`,
already known. A wrong number of arguments is refused. -/
def fRemoved (n m : ℕ) (order : List ℕ) (dark : List α) (f : List α → Except Err R) (rest : List α) : Except Err R :=
  if m + rest.length = n then do
    let newArgs ← takeArgs (dark.take m ++ rest) (argsortPerm n order)
    f newArgs
  else .error .typeError

/-- `pe(*args, constant_arg_nums=L)(f)`, TFCUtils.py 206–295. -/
def pe (args : List α) (L : List ℕ) (f : List α → Except Err R) : Except Err (List α → Except Err R) := do
  let order ← peOrder args.length L
  let dark ← takeArgs args order
  if L.length > 0 then .ok (fRemoved args.length L.length order dark f)
  else .ok f

/-- `pejit(*args, constant_arg_nums=L)(f)`, TFCUtils.py 298–323: `jit(pe(...)(f))`; `jit` does not change what is computed. -/
def pejit (args : List α) (L : List ℕ) (f : List α → Except Err R) : Except Err (List α → Except Err R) := pe args L f

end Verif.Model
