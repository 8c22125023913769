import Verif.Model.NBasisPy

/-!
# Model of /repo/tests/pOP.py, the reference implementations of the basis functions kept with the tests

`X deg N x d` is `X(x, deg, d)` for the `(N,1)` array `x`. As in Model/PolyPy the integer products are computed in `K`, and `Recurse`, which is entered
with `dCurr = 0` and stops at `dCurr == d`, is structural recursion on `left = d - dCurr`.
-/

namespace Verif.Model.Pop

open Verif.Py Verif.Np

variable {K : Type} [Zero K] [One K] [Add K] [Sub K] [Mul K] [Div K] [Neg K] [NatCast K]

/-- The inner function `Recurse` of `CP`, pOP.py 25–36. -/
def CP.recurse (deg N : ℕ) (x : ℕ → K) : (left dCurr : ℕ) → Mat K → Except Err (Mat K)
  | 0, _, dark => .ok dark
  | left + 1, dCurr, dark => do
    let dark2 ←
      (if dCurr = 0 then do
        let a ← Mat.hstack (Mat.column N fun _ => 0) (Mat.column N fun _ => 1)
        let b ← Mat.zeros N ((deg : ℤ) - 1)
        Mat.hstack a b
      else Mat.zeros N ((deg : ℤ) + 1))
    let dark2 := pfor 2 (deg + 1) (fun k dark2 => dark2.setCol k fun i =>
      (2 + 2 * (dCurr : K)) * dark.at_ i (k - 1) + 2 * x i * dark2.at_ i (k - 1) - dark2.at_ i (k - 2)) dark2
    CP.recurse deg N x left (dCurr + 1) dark2

/-- `CP(x,deg,d)`, pOP.py 3–38. -/
def CP (deg N : ℕ) (x : ℕ → K) (d : ℕ) : Except Err (Mat K) :=
  if deg = 0 then
    if d > 0 then .ok (Mat.column N fun _ => 0) else .ok (Mat.column N fun _ => 1)
  else if deg = 1 then
    if d > 1 then Mat.hstack (Mat.column N fun _ => 0) (Mat.column N fun _ => 0)
    else if d > 0 then Mat.hstack (Mat.column N fun _ => 0) (Mat.column N fun _ => 1)
    else Mat.hstack (Mat.column N fun _ => 1) (Mat.column N fun i => x i)
  else do
    let a ← Mat.hstack (Mat.column N fun _ => 1) (Mat.column N fun i => x i)
    let b ← Mat.zeros N ((deg : ℤ) - 1)
    let F ← Mat.hstack a b
    let F := pfor 2 (deg + 1) (fun k F => F.setCol k fun i => 2 * x i * F.at_ i (k - 1) - F.at_ i (k - 2)) F
    CP.recurse deg N x d 0 F

/-- The inner function `Recurse` of `LeP`, pOP.py 62–73. -/
def LeP.recurse (deg N : ℕ) (x : ℕ → K) : (left dCurr : ℕ) → Mat K → Except Err (Mat K)
  | 0, _, dark => .ok dark
  | left + 1, dCurr, dark => do
    let dark2 ←
      (if dCurr = 0 then do
        let a ← Mat.hstack (Mat.column N fun _ => 0) (Mat.column N fun _ => 1)
        let b ← Mat.zeros N ((deg : ℤ) - 1)
        Mat.hstack a b
      else Mat.zeros N ((deg : ℤ) + 1))
    let dark2 := pfor 1 deg (fun k dark2 => dark2.setCol (k + 1) fun i =>
      ((2 * (k : K) + 1) * (((dCurr : K) + 1) * dark.at_ i k + x i * dark2.at_ i k) - (k : K) * dark2.at_ i (k - 1)) / ((k : K) + 1)) dark2
    LeP.recurse deg N x left (dCurr + 1) dark2

/-- `LeP(x,deg,d)`, pOP.py 40–75. -/
def LeP (deg N : ℕ) (x : ℕ → K) (d : ℕ) : Except Err (Mat K) :=
  if deg = 0 then
    if d > 0 then .ok (Mat.column N fun _ => 0) else .ok (Mat.column N fun _ => 1)
  else if deg = 1 then
    if d > 1 then Mat.hstack (Mat.column N fun _ => 0) (Mat.column N fun _ => 0)
    else if d > 0 then Mat.hstack (Mat.column N fun _ => 0) (Mat.column N fun _ => 1)
    else Mat.hstack (Mat.column N fun _ => 1) (Mat.column N fun i => x i)
  else do
    let a ← Mat.hstack (Mat.column N fun _ => 1) (Mat.column N fun i => x i)
    let b ← Mat.zeros N ((deg : ℤ) - 1)
    let F ← Mat.hstack a b
    let F := pfor 1 deg (fun k F => F.setCol (k + 1) fun i => ((2 * (k : K) + 1) * x i * F.at_ i k - (k : K) * F.at_ i (k - 1)) / ((k : K) + 1)) F
    LeP.recurse deg N x d 0 F

/-- The inner function `Recurse` of `LaP`, pOP.py 99–110. -/
def LaP.recurse (deg N : ℕ) (x : ℕ → K) : (left dCurr : ℕ) → Mat K → Except Err (Mat K)
  | 0, _, dark => .ok dark
  | left + 1, dCurr, dark => do
    let dark2 ←
      (if dCurr = 0 then do
        let a ← Mat.hstack (Mat.column N fun _ => 0) (Mat.column N fun _ => -1)
        let b ← Mat.zeros N ((deg : ℤ) - 1)
        Mat.hstack a b
      else Mat.zeros N ((deg : ℤ) + 1))
    let dark2 := pfor 1 deg (fun k dark2 => dark2.setCol (k + 1) fun i =>
      ((2 * (k : K) + 1 - x i) * dark2.at_ i k - ((dCurr : K) + 1) * dark.at_ i k - (k : K) * dark2.at_ i (k - 1)) / ((k : K) + 1)) dark2
    LaP.recurse deg N x left (dCurr + 1) dark2

/-- `LaP(x,deg,d)`, pOP.py 77–112. -/
def LaP (deg N : ℕ) (x : ℕ → K) (d : ℕ) : Except Err (Mat K) :=
  if deg = 0 then
    if d > 0 then .ok (Mat.column N fun _ => 0) else .ok (Mat.column N fun _ => 1)
  else if deg = 1 then
    if d > 1 then Mat.hstack (Mat.column N fun _ => 0) (Mat.column N fun _ => 0)
    else if d > 0 then Mat.hstack (Mat.column N fun _ => 0) (Mat.column N fun _ => -1)
    else Mat.hstack (Mat.column N fun _ => 1) (Mat.column N fun i => 1 - x i)
  else do
    let a ← Mat.hstack (Mat.column N fun _ => 1) (Mat.column N fun i => 1 - x i)
    let b ← Mat.zeros N ((deg : ℤ) - 1)
    let F ← Mat.hstack a b
    let F := pfor 1 deg (fun k F => F.setCol (k + 1) fun i => ((2 * (k : K) + 1 - x i) * F.at_ i k - (k : K) * F.at_ i (k - 1)) / ((k : K) + 1)) F
    LaP.recurse deg N x d 0 F

/-- The inner function `Recurse` of `HoPpro`, pOP.py 136–147. -/
def HoPpro.recurse (deg N : ℕ) (x : ℕ → K) : (left dCurr : ℕ) → Mat K → Except Err (Mat K)
  | 0, _, dark => .ok dark
  | left + 1, dCurr, dark => do
    let dark2 ←
      (if dCurr = 0 then do
        let a ← Mat.hstack (Mat.column N fun _ => 0) (Mat.column N fun _ => 1)
        let b ← Mat.zeros N ((deg : ℤ) - 1)
        Mat.hstack a b
      else Mat.zeros N ((deg : ℤ) + 1))
    let dark2 := pfor 1 deg (fun k dark2 => dark2.setCol (k + 1) fun i =>
      ((dCurr : K) + 1) * dark.at_ i k + x i * dark2.at_ i k - (k : K) * dark2.at_ i (k - 1)) dark2
    HoPpro.recurse deg N x left (dCurr + 1) dark2

/-- `HoPpro(x,deg,d)`, pOP.py 114–149. -/
def HoPpro (deg N : ℕ) (x : ℕ → K) (d : ℕ) : Except Err (Mat K) :=
  if deg = 0 then
    if d > 0 then .ok (Mat.column N fun _ => 0) else .ok (Mat.column N fun _ => 1)
  else if deg = 1 then
    if d > 1 then Mat.hstack (Mat.column N fun _ => 0) (Mat.column N fun _ => 0)
    else if d > 0 then Mat.hstack (Mat.column N fun _ => 0) (Mat.column N fun _ => 1)
    else Mat.hstack (Mat.column N fun _ => 1) (Mat.column N fun i => x i)
  else do
    let a ← Mat.hstack (Mat.column N fun _ => 1) (Mat.column N fun i => x i)
    let b ← Mat.zeros N ((deg : ℤ) - 1)
    let F ← Mat.hstack a b
    let F := pfor 1 deg (fun k F => F.setCol (k + 1) fun i => x i * F.at_ i k - (k : K) * F.at_ i (k - 1)) F
    HoPpro.recurse deg N x d 0 F

/-- The inner function `Recurse` of `HoPphy`, pOP.py 173–184. -/
def HoPphy.recurse (deg N : ℕ) (x : ℕ → K) : (left dCurr : ℕ) → Mat K → Except Err (Mat K)
  | 0, _, dark => .ok dark
  | left + 1, dCurr, dark => do
    let dark2 ←
      (if dCurr = 0 then do
        let a ← Mat.hstack (Mat.column N fun _ => 0) (Mat.column N fun _ => 2 * 1)
        let b ← Mat.zeros N ((deg : ℤ) - 1)
        Mat.hstack a b
      else Mat.zeros N ((deg : ℤ) + 1))
    let dark2 := pfor 1 deg (fun k dark2 => dark2.setCol (k + 1) fun i =>
      2 * ((dCurr : K) + 1) * dark.at_ i k + 2 * x i * dark2.at_ i k - 2 * (k : K) * dark2.at_ i (k - 1)) dark2
    HoPphy.recurse deg N x left (dCurr + 1) dark2

/-- `HoPphy(x,deg,d)`, pOP.py 151–186. -/
def HoPphy (deg N : ℕ) (x : ℕ → K) (d : ℕ) : Except Err (Mat K) :=
  if deg = 0 then
    if d > 0 then .ok (Mat.column N fun _ => 0) else .ok (Mat.column N fun _ => 1)
  else if deg = 1 then
    if d > 1 then Mat.hstack (Mat.column N fun _ => 0) (Mat.column N fun _ => 0)
    else if d > 0 then Mat.hstack (Mat.column N fun _ => 0) (Mat.column N fun _ => 2 * 1)
    else Mat.hstack (Mat.column N fun _ => 1) (Mat.column N fun i => 2 * x i)
  else do
    let a ← Mat.hstack (Mat.column N fun _ => 1) (Mat.column N fun i => 2 * x i)
    let b ← Mat.zeros N ((deg : ℤ) - 1)
    let F ← Mat.hstack a b
    let F := pfor 1 deg (fun k F => F.setCol (k + 1) fun i => 2 * x i * F.at_ i k - 2 * (k : K) * F.at_ i (k - 1)) F
    HoPphy.recurse deg N x d 0 F

variable [Pow K ℕ]

/-- The loop `for k in range(1,deg+1)` of `FS` with its branches, pOP.py 193–198, 202–207, 209–214, 216–221, 223–228; `np.ceil(k/2.)` is
`(k+1)/2` in ℕ. -/
def FS.fill (deg : ℕ) (x : ℕ → K) (even odd : K → K → K) (F : Mat K) : Mat K :=
  pfor 1 (deg + 1) (fun k F =>
    let g : K := (((k + 1) / 2 : ℕ) : K)
    if k % 2 = 0 then F.setCol k (fun i => even g (x i)) else F.setCol k (fun i => odd g (x i))) F

/-- `FS(x,deg,d)`, pOP.py 188–229. -/
def FS [Libm K] (deg N : ℕ) (x : ℕ → K) (d : ℕ) : Except Err (Mat K) := do
  let F ← Mat.zeros N ((deg : ℤ) + 1)
  if d = 0 then
    .ok (FS.fill deg x (fun g x => Libm.cos (g * x)) (fun g x => Libm.sin (g * x)) (F.setCol 0 fun _ => 1))
  else
    let F := F.setCol 0 fun _ => 0
    if d % 4 = 0 then
      .ok (FS.fill deg x (fun g x => g ^ d * Libm.cos (g * x)) (fun g x => g ^ d * Libm.sin (g * x)) F)
    else if d % 4 = 1 then
      .ok (FS.fill deg x (fun g x => -(g ^ d) * Libm.sin (g * x)) (fun g x => g ^ d * Libm.cos (g * x)) F)
    else if d % 4 = 2 then
      .ok (FS.fill deg x (fun g x => -(g ^ d) * Libm.cos (g * x)) (fun g x => -(g ^ d) * Libm.sin (g * x)) F)
    else
      .ok (FS.fill deg x (fun g x => g ^ d * Libm.sin (g * x)) (fun g x => -(g ^ d) * Libm.cos (g * x)) F)

/-! ## Several variables

`nCP`, `nLeP` and `nFS` are copies of each other but for the function called in the loop that fills `T` (269, 319, 369), here `uni`. The array `X` has
shape `(N,dim)` and `nC` has `dim` entries. -/

/-- `np.sum(vec)` for an array of `dim` entries, pOP.py 248, 260. -/
def sumVec (dim : ℕ) (vec : ℕ → ℕ) : ℕ := ((List.range dim).map vec).sum

/-- `any(vec>=nC)`, pOP.py 248, 260. -/
def anyGe (dim : ℕ) (nC : ℕ → ℤ) (vec : ℕ → ℕ) : Bool := (List.range dim).any fun k => decide ((vec k : ℤ) ≥ nC k)

/-- `RecurseBasis(nC,deg,dim,vec,n)`, pOP.py 252–262, 302–312, 352–362; `ndim` is the number of entries of `vec`, which all calls share. -/
def recurseBasis (deg ndim : ℕ) (nC : ℕ → ℤ) : ℕ → (ℕ → ℕ) × ℕ → (ℕ → ℕ) × ℕ
  | dim + 1, s => pfor 0 (deg + 1) (fun x s => recurseBasis deg ndim nC dim (Function.update s.1 (dim + 1) x, s.2)) s
  | 0, s => pfor 0 (deg + 1) (fun x s =>
      let vec := Function.update s.1 0 x
      if anyGe ndim nC vec && decide (sumVec ndim vec ≤ deg) then (vec, s.2 + 1) else (vec, s.2)) s

/-- `MultT(vec)`, pOP.py 234–238, 284–288, 334–338, one row. -/
def multT (dim : ℕ) (T : ℕ → ℕ → ℕ → K) (vec : ℕ → ℕ) (i : ℕ) : K := pfor 0 dim (fun k tout => tout * T i (vec k) k) 1

/-- `Recurse(nC,deg,dim,out,vec,n)`, pOP.py 240–251, 290–301, 340–351. -/
def recurse (deg ndim : ℕ) (nC : ℕ → ℤ) (T : ℕ → ℕ → ℕ → K) : ℕ → (ℕ → ℕ) × Mat K × ℕ → (ℕ → ℕ) × Mat K × ℕ
  | dim + 1, s => pfor 0 (deg + 1) (fun x s => recurse deg ndim nC T dim (Function.update s.1 (dim + 1) x, s.2)) s
  | 0, s => pfor 0 (deg + 1) (fun x s =>
      let vec := Function.update s.1 0 x
      if anyGe ndim nC vec && decide (sumVec ndim vec ≤ deg) then (vec, s.2.1.setCol s.2.2 (multT ndim T vec), s.2.2 + 1) else (vec, s.2)) s

/-- One pass of the loop that fills `T`, pOP.py 268, 269, 318, 319, 368, 369: `d[k]` beyond the end is an `IndexError`, and an array of another shape a
`ValueError`. -/
def stepT (uni : ℕ → ℕ → (ℕ → K) → ℕ → Except Err (Mat K)) (deg N : ℕ) (X : ℕ → ℕ → K) (d : List ℕ) (T : ℕ → ℕ → ℕ → K) (k : ℕ) :
    Except Err (ℕ → ℕ → ℕ → K) :=
  match d[k]? with
  | none => .error .indexError
  | some dk => do
    let A ← uni deg N (fun i => X i k) dk
    if A.rows = N ∧ A.cols = deg + 1 then .ok (fun i j l => if l = k then A.at_ i j else T i j l) else .error .valueError

/-- `nCP(X,deg,d,nC)`, `nLeP`, `nFS`, pOP.py 231–278, 281–328, 331–378. For `dim = 0` the assignment `vec[-1] = x` is an `IndexError`. -/
def nBasis (uni : ℕ → ℕ → (ℕ → K) → ℕ → Except Err (Mat K)) (N dim : ℕ) (X : ℕ → ℕ → K) (deg : ℕ) (d : List ℕ) (nC : ℕ → ℤ) :
    Except Err (Mat K) := do
  let T ← (List.range dim).foldlM (stepT uni deg N X d) (fun _ _ _ => 0)
  if dim = 0 then .error .indexError
  else
    let numBasis := (recurseBasis deg dim nC (dim - 1) (fun _ => 0, 0)).2
    let out ← Mat.zeros N numBasis
    return (recurse deg dim nC T (dim - 1) (fun _ => 0, out, 0)).2.1

end Verif.Model.Pop
