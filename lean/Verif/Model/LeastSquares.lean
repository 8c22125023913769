import Verif.Model.Dict
import Verif.Model.Pe
import Verif.Np
import Mathlib.Analysis.Calculus.Deriv.Basic
import Mathlib.Data.List.Sort

/-!
# Model of `LS`, `LsClass`, `NLLS`, `NllsClass`: /repo/src/tfc/utils/TFCUtils.py 742–1516

Entries are real numbers. A function traced by JAX sees the arrays in its arguments, not which objects hold them: `View`. Arguments
are one-dimensional arrays, `TFCDict`s or `TFCDictRobust`s. The residual takes the list of all its arguments (the unknowns
first) and returns a one-dimensional array; errors raised by the residual itself, complex numbers (`holomorphic`) and printing
are not modelled. `jax.jacfwd` is the array of partial derivatives (its documented meaning); `np.linalg.pinv` and
`np.linalg.lstsq` are parameters (`LinAlg`). `jit` does not change what is computed.
-/

namespace Verif.Model.LSq

open Verif.Py Verif.Np Verif.Model Verif.Model.Dict

variable {Key : Type} [DecidableEq Key]

/-- The arrays in an argument. The arguments of `res`, TFCUtils.py 853, 855. -/
inductive View (Key : Type)
  | arr (l : List ℝ)
  | dict (cls : DictClass) (kvs : List (Key × Arr ℝ))

/-- A residual: from the list of all arguments, the unknowns first. The argument `res` of TFCUtils.py 766, 889, 1086, 1288. -/
abbrev Residual (Key : Type) := List (View Key) → List ℝ

/-- The library functions for least squares. Called at TFCUtils.py 853, 855, 1220, 1222. -/
structure LinAlg where
  pinv : Mat ℝ → Mat ℝ
  lstsq : Mat ℝ → List ℝ → List ℝ

/-- The argument `method`. TFCUtils.py 852–857. -/
inductive Method
  | pinv
  | lstsq
  | other
  deriving DecidableEq

/-! ### The Jacobian -/

/-- The dictionary with `t` added to entry `e` of the array of key `k`. Needed for `jacfwd` at TFCUtils.py 835, 846, 850. -/
def bump (kvs : List (Key × Arr ℝ)) (k : Key) (e : ℕ) (t : ℝ) : List (Key × Arr ℝ) :=
  kvs.map fun p => if p.1 = k then (p.1, ⟨p.2.shape, p.2.data.modify e (· + t)⟩) else p

/-- `jacfwd(res, 0)(xi, *args)[k]` for a dictionary: the partial derivatives by the entries of the array of `k`, as a matrix. For
TFCDict the array must be one-dimensional (`np.hstack` of arrays with more axes is not modelled, refused); for TFCDictRobust it
is reshaped to a matrix, TFCUtils.py 834–841. -/
noncomputable def dictBlock (res : Residual Key) (cls : DictClass) (kvs : List (Key × Arr ℝ)) (args : List (View Key)) (k : Key) :
    Except Err (Mat ℝ) :=
  match kvs.find? (fun p => p.1 = k) with
  | none => .error .keyError
  | some p =>
    if cls = .plain ∧ p.2.shape ≠ [p.2.data.length] then .error .typeError
    else .ok ⟨(res (.dict cls kvs :: args)).length, p.2.data.length,
      fun i e => deriv (fun t => (res (.dict cls (bump kvs k e t) :: args)).getD i 0) 0⟩

/-- `np.hstack` of a list of matrices. TFCUtils.py 836, 847. -/
def hstackAll : List (Mat ℝ) → Except Err (Mat ℝ)
  | [] => .error .valueError
  | A :: As => As.foldlM (fun A B => A.hstack B) A

/-- The default `J`, TFCUtils.py 830–850 (the same in LsClass 954–976, NLLS 1197–1217, NllsClass 1394–1416). -/
noncomputable def jacobian (res : Residual Key) : List (View Key) → Except Err (Mat ℝ)
  | .arr l :: args => .ok ⟨(res (.arr l :: args)).length, l.length,
      fun i j => deriv (fun t => (res (.arr (l.modify j (· + t)) :: args)).getD i 0) 0⟩
  | .dict cls kvs :: args => do
    let blocks ← (kvs.map (·.1)).mapM (dictBlock res cls kvs args)
    hstackAll blocks
  | [] => .error .typeError

/-! ### The linear solve -/

/-- `np.dot(P, v)`. TFCUtils.py 853, 1220. -/
def dot (P : Mat ℝ) (v : List ℝ) : Except Err (List ℝ) :=
  if P.cols = v.length then .ok ((List.range P.rows).map fun i => ∑ j ∈ Finset.range P.cols, P.at_ i j * v.getD j 0)
  else .error .typeError

/-- The right-hand sides of the lambdas `ls`, TFCUtils.py 853 and 855, `LS`, 1220 and 1222. -/
def solve (lib : LinAlg) (method : Method) (J : Mat ℝ) (r : List ℝ) : Except Err (List ℝ) :=
  match method with
  | .pinv => dot (lib.pinv J) r
  | .lstsq => .ok (lib.lstsq J r)
  | .other => .error .exit

/-- `J(xi, *args)`: the user's function or the default. TFCUtils.py 830–850. -/
noncomputable def evalJ (J : Option (List (View Key) → Mat ℝ)) (res : Residual Key) (all : List (View Key)) :
    Except Err (Mat ℝ) :=
  match J with
  | some J => .ok (J all)
  | none => jacobian res all

/-- The function `ls` of `LS` and `LsClass`, TFCUtils.py 852–857 and 978–984: the solution for `-res`. -/
noncomputable def lsFun (lib : LinAlg) (method : Method) (J : Option (List (View Key) → Mat ℝ)) (res : Residual Key)
    (all : List (View Key)) : Except Err (List ℝ) := do
  let A ← evalJ J res all
  solve lib method A ((res all).map (- ·))

/-- The function `LS` of `NLLS` and `NllsClass`, TFCUtils.py 1219–1224 and 1418–1423: the solution for `res`. -/
noncomputable def nllsFun (lib : LinAlg) (method : Method) (J : Option (List (View Key) → Mat ℝ)) (res : Residual Key)
    (all : List (View Key)) : Except Err (List ℝ) := do
  let A ← evalJ J res all
  solve lib method A (res all)

/-! ### Unknowns: `+=`, `-=`, zeros, ones -/

/-- No numpy arrays. Inside traced code, TFCUtils.py 853–885. -/
def noHeap : Heap ℝ := fun _ => ⟨[], []⟩

/-- The arrays of a dictionary object. TFCUtils.py 326–739. -/
def contents (h : Heap ℝ) (items : List (Key × Val ℝ)) : List (Key × Arr ℝ) := items.map fun p => (p.1, p.2.arr h)

/-- A dictionary object holding JAX arrays. TFCUtils.py 326–739. -/
def jaxItems (kvs : List (Key × Arr ℝ)) : List (Key × Val ℝ) := kvs.map fun p => (p.1, .jax p.2)

/-- `x += y` for one-dimensional arrays of the same length (broadcasting is not modelled, refused). TFCUtils.py 881, 885. -/
def arrOp (f : ℝ → ℝ → ℝ) (x y : List ℝ) : Except Err (List ℝ) :=
  if x.length = y.length then .ok (List.zipWith f x y) else .error .typeError

/-- `xi += dx` or `xi -= dx` inside a traced function, where all arrays are JAX tracers. The dictionary has just been rebuilt from
its leaves (TFCUtils.py 528–532, 735–739). -/
def View.iop (f : ℝ → ℝ → ℝ) (v : View Key) (dx : List ℝ) : Except Err (View Key) :=
  match v with
  | .arr l => (arrOp f l dx).map .arr
  | .dict cls kvs => do
    let d ← treeUnflatten cls noHeap (kvs.map (·.1)) (kvs.map fun p => .jax p.2)
    let (h, d) ← d.iop cls f noHeap (.jaxArr ⟨[dx.length], dx⟩)
    .ok (.dict cls (contents h d.items))

/-- The numpy arrays made by `zerosRobust`, TFCUtils.py 142–161. -/
def zerosHeap (kvs : List (Key × Arr ℝ)) : Heap ℝ := fun r =>
  match kvs[r]? with
  | some p => ⟨p.2.shape, List.replicate p.2.data.length 0⟩
  | none => ⟨[], []⟩

/-- `zerosRobust(zXi)` for a dictionary: `tree_map` rebuilds the dictionary from new numpy arrays of zeros. They are the only numpy
arrays mentioned afterwards, so they get the references 0, 1, …. -/
def zerosDict (cls : DictClass) (kvs : List (Key × Arr ℝ)) : Except Err (TDict Key ℝ) :=
  treeUnflatten cls (zerosHeap kvs) (kvs.map (·.1)) ((List.range kvs.length).map .np)

/-- `zXi = zerosRobust(zXi); zXi += ls(zXi, *args); return zXi`, TFCUtils.py 870, 885–886; with the timer the same with an additional
earlier call of `ls`, 875–880. -/
def addStep (timer : Bool) (ls : List (View Key) → Except Err (List ℝ)) (zXi : View Key) (args : List (View Key)) :
    Except Err (View Key) :=
  match zXi with
  | .arr l => do
    let z := List.replicate l.length 0
    if timer then let _ ← ls (.arr z :: args)
    let dx ← ls (.arr z :: args)
    (arrOp (· + ·) z dx).map .arr
  | .dict cls kvs => do
    let d ← zerosDict cls kvs
    let z := contents (zerosHeap kvs) d.items
    if timer then let _ ← ls (.dict cls z :: args)
    let dx ← ls (.dict cls z :: args)
    let (h, d) ← d.iop cls (· + ·) (zerosHeap kvs) (.jaxArr ⟨[dx.length], dx⟩)
    .ok (.dict cls (contents h d.items))

/-! ### Constant arguments -/

/-- `args.pop(k - 1)`: for `k = 0` this is the last one. -/
def popArg {α : Type} (args : List α) (k : ℕ) : Except Err (List α) :=
  let i := if k = 0 then args.length - 1 else k - 1
  if i < args.length then .ok (args.eraseIdx i) else .error .indexError

/-- `for k in constant_arg_nums: args.pop(k - 1)`, TFCUtils.py 866–867. -/
def popArgs {α : Type} (args : List α) (L : List ℕ) : Except Err (List α) := L.foldlM popArg args

/-- `constant_arg_nums.sort(); constant_arg_nums.reverse()`, TFCUtils.py 864–865: done on the caller's list. -/
def sortReverse (L : List ℕ) : List ℕ := (L.mergeSort (· ≤ ·)).reverse

/-- `LS`, TFCUtils.py 766–886: what it returns (without the measured time), and the caller's list `constant_arg_nums` afterwards. -/
noncomputable def LS (lib : LinAlg) (method : Method) (J : Option (List (View Key) → Mat ℝ)) (timer : Bool) (res : Residual Key)
    (zXi : View Key) (args : List (View Key)) (L : List ℕ) : Except Err (View Key) × List ℕ :=
  let ls := lsFun lib method J res
  if method = .other then (.error .exit, L)
  else if L = [] then (addStep timer ls zXi args, L)
  else
    match pe (zXi :: args) L ls with
    | .error e => (.error e, L)
    | .ok ls =>
      let L := sortReverse L
      match popArgs args L with
      | .error e => (.error e, L)
      | .ok args => (addStep timer ls zXi args, L)

/-! ### `LsClass` -/

/-- An `LsClass` object. TFCUtils.py 889–998. -/
structure LsObj (Key : Type) where
  ls : List (View Key) → Except Err (List ℝ)
  timer : Bool
  compiled : Bool

/-- `LsClass.__init__`, TFCUtils.py 896–998. -/
noncomputable def LsObj.init (lib : LinAlg) (method : Method) (J : Option (List (View Key) → Mat ℝ)) (timer : Bool)
    (res : Residual Key) (zXi : View Key) (args : List (View Key)) (L : List ℕ) : Except Err (LsObj Key) × List ℕ :=
  let ls := lsFun lib method J res
  if method = .other then (.error .exit, L)
  else if L = [] then (.ok ⟨ls, timer, false⟩, L)
  else
    match pe (zXi :: args) L ls with
    | .error e => (.error e, L)
    | .ok ls =>
      let L := sortReverse L
      match popArgs args L with
      | .error e => (.error e, L)
      | .ok _ => (.ok ⟨ls, timer, false⟩, L)

/-- An array or dictionary object outside of traced code. The argument `zXi`, TFCUtils.py 766, 1000. -/
inductive Unk (Key : Type)
  | arr (l : List ℝ)
  | dict (cls : DictClass) (d : TDict Key ℝ)

/-- What traced code sees of it. TFCUtils.py 853–885. -/
def Unk.view (h : Heap ℝ) : Unk Key → View Key
  | .arr l => .arr l
  | .dict cls d => .dict cls (contents h d.items)

/-- `zXi += xi` for a JAX array `xi`. TFCUtils.py 881, 885, 1034, 1039. -/
def Unk.iadd (h : Heap ℝ) (zXi : Unk Key) (xi : List ℝ) : Except Err (Heap ℝ × Unk Key) :=
  match zXi with
  | .arr l => (arrOp (· + ·) l xi).map fun l => (h, .arr l)
  | .dict cls d => (d.iop cls (· + ·) h (.jaxArr ⟨[xi.length], xi⟩)).map fun r => (r.1, .dict cls r.2)

/-- `LsClass.run`, TFCUtils.py 1000–1043: the heap, the returned unknowns (without the measured time) and the object. Without timer
the line `zXi += ls(zXi, *args)` uses a name `ls` that does not exist there. -/
def LsObj.run (o : LsObj Key) (h : Heap ℝ) (zXi : Unk Key) (args : List (View Key)) :
    Except Err (Heap ℝ × Unk Key × LsObj Key) :=
  if o.timer then do
    if !o.compiled then let _ ← o.ls (zXi.view h :: args)
    let xi ← o.ls (zXi.view h :: args)
    let (h, zXi) ← zXi.iadd h xi
    .ok (h, zXi, { o with compiled := true })
  else .error .nameError

/-! ### `NLLS` -/

/-- `lax.while_loop(cond, body, val)`; `none` if it has not ended after `fuel` evaluations of the condition.
Called at TFCUtils.py 1260, 1459. -/
def whileLoop {σ : Type} (cond : σ → Except Err Bool) (body : σ → Except Err σ) : ℕ → σ → Except Err (Option σ)
  | 0, _ => .ok none
  | fuel + 1, s => do
    let c ← cond s
    if c then
      let s ← body s
      whileLoop cond body fuel s
    else .ok (some s)

/-- The dictionary `val` of the loop, TFCUtils.py 1274, 1283. -/
structure NState (Key : Type) where
  xi : View Key
  dxi : List ℝ
  it : ℤ
  args : List (View Key)

/-- `np.max(np.abs(a))`; an empty array is refused. TFCUtils.py 1190–1192. -/
noncomputable def maxAbs : List ℝ → Except Err ℝ
  | [] => .error .valueError
  | a :: l => .ok (l.foldl (fun m x => max m |x|) |a|)

open Classical in
/-- The function `cond` defined in `NLLS`, TFCUtils.py 1186–1195, and in `NllsClass.__init__`, 1383–1392. -/
noncomputable def defaultCond (res : List (View Key) → Except Err (List ℝ)) (tol : ℝ) (maxIter : ℕ) (s : NState Key) :
    Except Err Bool := do
  let r ← res (s.xi :: s.args)
  let r ← maxAbs r
  let d ← maxAbs s.dxi
  .ok (decide (r > tol) && decide (s.it < maxIter) && decide (d > tol))

/-- The function `body` defined in `NLLS`, TFCUtils.py 1254–1258, and in `NllsClass.__init__`, 1453–1457, without the printing. -/
def defaultBody (LS : List (View Key) → Except Err (List ℝ)) (s : NState Key) : Except Err (NState Key) := do
  let dxi ← LS (s.xi :: s.args)
  let xi ← s.xi.iop (· - ·) dxi
  .ok { s with xi := xi, dxi := dxi, it := s.it + 1 }

/-- `np.ones_like(xiInit)` or, for a dictionary, `np.ones_like(xiInit.toArray())`, TFCUtils.py 1262–1265. -/
def onesFor (xi : View Key) : Except Err (List ℝ) :=
  match xi with
  | .arr l => .ok (List.replicate l.length 1)
  | .dict cls kvs => do
    let d ← treeUnflatten cls noHeap (kvs.map (·.1)) (kvs.map fun p => .jax p.2)
    let a ← d.toArray cls noHeap
    .ok (List.replicate a.data.length 1)

/-- The last part of `NLLS`, TFCUtils.py 1260–1285, and the body of `NllsClass.run`, 1485–1516; `warm` says whether the call that only
serves to compile is made. The measured time is left out. -/
def runLoop (cond : NState Key → Except Err Bool) (body : NState Key → Except Err (NState Key)) (warm : Bool) (maxIter : ℕ)
    (xiInit : View Key) (args : List (View Key)) (fuel : ℕ) : Except Err (Option (View Key × ℤ)) := do
  let dxi ← onesFor xiInit
  let w ← if warm then whileLoop cond body fuel ⟨xiInit, dxi, maxIter - 1, args⟩
    else .ok (some ⟨xiInit, dxi, 0, args⟩)
  match w with
  | none => .ok none
  | some _ => do
    let r ← whileLoop cond body fuel ⟨xiInit, dxi, 0, args⟩
    .ok (r.map fun s => (s.xi, s.it))

/-- `NLLS`, TFCUtils.py 1086–1285: the unknowns and the number of iterations, and the caller's list `constant_arg_nums` afterwards. The
user's `cond` is overwritten by the definition of a function of the same name in line 1186. -/
noncomputable def NLLS (lib : LinAlg) (method : Method) (J : Option (List (View Key) → Mat ℝ))
    (_cond : Option (NState Key → Except Err Bool)) (body : Option (NState Key → Except Err (NState Key))) (tol : ℝ)
    (maxIter : ℕ) (timer : Bool) (res : Residual Key) (xiInit : View Key) (args : List (View Key)) (L : List ℕ) (fuel : ℕ) :
    Except Err (Option (View Key × ℤ)) × List ℕ :=
  let resE : List (View Key) → Except Err (List ℝ) := fun all => .ok (res all)
  let ls := nllsFun lib method J res
  if method = .other then (.error .exit, L)
  else if L = [] then
    (runLoop (defaultCond resE tol maxIter) (body.getD (defaultBody ls)) timer maxIter xiInit args fuel, L)
  else
    match pe (xiInit :: args) L ls with
    | .error e => (.error e, L)
    | .ok ls =>
      match pe (xiInit :: args) L resE with
      | .error e => (.error e, L)
      | .ok resE =>
        let L := sortReverse L
        match popArgs args L with
        | .error e => (.error e, L)
        | .ok args =>
          (runLoop (defaultCond resE tol maxIter) (body.getD (defaultBody ls)) timer maxIter xiInit args fuel, L)

/-! ### `NllsClass` -/

/-- An `NllsClass` object. TFCUtils.py 1288–1460. -/
structure NllsObj (Key : Type) where
  cond : NState Key → Except Err Bool
  body : NState Key → Except Err (NState Key)
  timer : Bool
  maxIter : ℕ
  compiled : Bool

/-- `NllsClass.__init__`, TFCUtils.py 1294–1460. -/
noncomputable def NllsObj.init (lib : LinAlg) (method : Method) (J : Option (List (View Key) → Mat ℝ))
    (_cond : Option (NState Key → Except Err Bool)) (body : Option (NState Key → Except Err (NState Key))) (tol : ℝ)
    (maxIter : ℕ) (timer : Bool) (res : Residual Key) (xiInit : View Key) (args : List (View Key)) (L : List ℕ) :
    Except Err (NllsObj Key) × List ℕ :=
  let resE : List (View Key) → Except Err (List ℝ) := fun all => .ok (res all)
  let ls := nllsFun lib method J res
  if method = .other then (.error .exit, L)
  else if L = [] then
    (.ok ⟨defaultCond resE tol maxIter, body.getD (defaultBody ls), timer, maxIter, false⟩, L)
  else
    match pe (xiInit :: args) L ls with
    | .error e => (.error e, L)
    | .ok ls =>
      match pe (xiInit :: args) L resE with
      | .error e => (.error e, L)
      | .ok resE =>
        let L := sortReverse L
        match popArgs args L with
        | .error e => (.error e, L)
        | .ok _ => (.ok ⟨defaultCond resE tol maxIter, body.getD (defaultBody ls), timer, maxIter, false⟩, L)

/-- `NllsClass.run`, TFCUtils.py 1462–1516; `xiInit` is of the same kind (array or dictionary) as in the constructor. -/
def NllsObj.run (o : NllsObj Key) (xiInit : View Key) (args : List (View Key)) (fuel : ℕ) :
    Except Err (Option (View Key × ℤ)) × NllsObj Key :=
  (runLoop o.cond o.body (o.timer && !o.compiled) o.maxIter xiInit args fuel, { o with compiled := true })

end Verif.Model.LSq
