import Verif.Np
import Mathlib.Algebra.Field.Defs
import Mathlib.Data.Nat.Cast.Defs

/-!
# Model of the polynomial bases of the Python backend: /repo/src/tfc/utils/BF_Py.py lines 123–502

`X.hint m N z d` is `X._Hint(z, d)` for an object with `self._m = m` and the `(N,1)` array `z` with entries `z 0, …`.
The number type `K` is any type with the arithmetic operations: a field for exact results, `Fl` (Model/Rounded) for rounded ones.
Simplifications: the integer products `2 + 2 * dCurr` are computed in `K`; `Recurse(dark, d, dCurr)` stops at `dCurr == d` and is always
entered with `dCurr = 0`, so it is written as structural recursion on `left = d - dCurr`.
-/

namespace Verif.Model.PyBF

open Verif.Py Verif.Np

variable {K : Type} [Zero K] [One K] [Add K] [Sub K] [Mul K] [Div K] [Neg K] [NatCast K]

/-! ## CP -/

/-- The inner function `Recurse` of `CP._Hint`, BF_Py.py 189–207. -/
def CP.recurse (m N : ℕ) (z : ℕ → K) : (left dCurr : ℕ) → Mat K → Except Err (Mat K)
  | 0, _, dark => .ok dark
  | left + 1, dCurr, dark => do
    let dark2 ←
      (if dCurr = 0 then do
        let a ← Mat.hstack (Mat.column N fun _ => 0) (Mat.column N fun _ => 1)
        let b ← Mat.zeros N ((m : ℤ) - 2)
        Mat.hstack a b
      else Mat.zeros N m)
    let dark2 := pfor 2 m (fun k dark2 => dark2.setCol k fun i =>
      (2 + 2 * (dCurr : K)) * dark.at_ i (k - 1) + 2 * z i * dark2.at_ i (k - 1) - dark2.at_ i (k - 2)) dark2
    CP.recurse m N z left (dCurr + 1) dark2

/-- `CP._Hint`, BF_Py.py 151–209. -/
def CP.hint (m N : ℕ) (z : ℕ → K) (d : ℕ) : Except Err (Mat K) :=
  if m = 1 then
    if d > 0 then .ok (Mat.column N fun _ => 0) else .ok (Mat.column N fun _ => 1)
  else if m = 2 then
    if d > 1 then Mat.hstack (Mat.column N fun _ => 0) (Mat.column N fun _ => 0)
    else if d > 0 then Mat.hstack (Mat.column N fun _ => 0) (Mat.column N fun _ => 1)
    else Mat.hstack (Mat.column N fun _ => 1) (Mat.column N fun i => z i)
  else do
    let a ← Mat.hstack (Mat.column N fun _ => 1) (Mat.column N fun i => z i)
    let b ← Mat.zeros N ((m : ℤ) - 2)
    let F ← Mat.hstack a b
    let F := pfor 2 m (fun k F => F.setCol k fun i => 2 * z i * F.at_ i (k - 1) - F.at_ i (k - 2)) F
    CP.recurse m N z d 0 F

/-! ## LeP -/

/-- The inner function `Recurse` of `LeP._Hint`, BF_Py.py 280–298. -/
def LeP.recurse (m N : ℕ) (z : ℕ → K) : (left dCurr : ℕ) → Mat K → Except Err (Mat K)
  | 0, _, dark => .ok dark
  | left + 1, dCurr, dark => do
    let dark2 ←
      (if dCurr = 0 then do
        let a ← Mat.hstack (Mat.column N fun _ => 0) (Mat.column N fun _ => 1)
        let b ← Mat.zeros N ((m : ℤ) - 2)
        Mat.hstack a b
      else Mat.zeros N m)
    let dark2 := pfor 1 (m - 1) (fun k dark2 => dark2.setCol (k + 1) fun i =>
      ((2 * (k : K) + 1) * (((dCurr : K) + 1) * dark.at_ i k + z i * dark2.at_ i k) - (k : K) * dark2.at_ i (k - 1)) / ((k : K) + 1)) dark2
    LeP.recurse m N z left (dCurr + 1) dark2

/-- `LeP._Hint`, BF_Py.py 240–300. -/
def LeP.hint (m N : ℕ) (z : ℕ → K) (d : ℕ) : Except Err (Mat K) :=
  if m = 1 then
    if d > 0 then .ok (Mat.column N fun _ => 0) else .ok (Mat.column N fun _ => 1)
  else if m = 2 then
    if d > 1 then Mat.hstack (Mat.column N fun _ => 0) (Mat.column N fun _ => 0)
    else if d > 0 then Mat.hstack (Mat.column N fun _ => 0) (Mat.column N fun _ => 1)
    else Mat.hstack (Mat.column N fun _ => 1) (Mat.column N fun i => z i)
  else do
    let a ← Mat.hstack (Mat.column N fun _ => 1) (Mat.column N fun i => z i)
    let b ← Mat.zeros N ((m : ℤ) - 2)
    let F ← Mat.hstack a b
    let F := pfor 1 (m - 1) (fun k F => F.setCol (k + 1) fun i => ((2 * (k : K) + 1) * z i * F.at_ i k - (k : K) * F.at_ i (k - 1)) / ((k : K) + 1)) F
    LeP.recurse m N z d 0 F

/-! ## LaP -/

/-- The inner function `Recurse` of `LaP._Hint`, BF_Py.py 348–366. -/
def LaP.recurse (m N : ℕ) (z : ℕ → K) : (left dCurr : ℕ) → Mat K → Except Err (Mat K)
  | 0, _, dark => .ok dark
  | left + 1, dCurr, dark => do
    let dark2 ←
      (if dCurr = 0 then do
        let a ← Mat.hstack (Mat.column N fun _ => 0) (Mat.column N fun _ => -1)
        let b ← Mat.zeros N ((m : ℤ) - 2)
        Mat.hstack a b
      else Mat.zeros N m)
    let dark2 := pfor 1 (m - 1) (fun k dark2 => dark2.setCol (k + 1) fun i =>
      ((2 * (k : K) + 1 - z i) * dark2.at_ i k - ((dCurr : K) + 1) * dark.at_ i k - (k : K) * dark2.at_ i (k - 1)) / ((k : K) + 1)) dark2
    LaP.recurse m N z left (dCurr + 1) dark2

/-- `LaP._Hint`, BF_Py.py 308–368. -/
def LaP.hint (m N : ℕ) (z : ℕ → K) (d : ℕ) : Except Err (Mat K) :=
  if m = 1 then
    if d > 0 then .ok (Mat.column N fun _ => 0) else .ok (Mat.column N fun _ => 1)
  else if m = 2 then
    if d > 1 then Mat.hstack (Mat.column N fun _ => 0) (Mat.column N fun _ => 0)
    else if d > 0 then Mat.hstack (Mat.column N fun _ => 0) (Mat.column N fun _ => -1)
    else Mat.hstack (Mat.column N fun _ => 1) (Mat.column N fun i => 1 - z i)
  else do
    let a ← Mat.hstack (Mat.column N fun _ => 1) (Mat.column N fun i => 1 - z i)
    let b ← Mat.zeros N ((m : ℤ) - 2)
    let F ← Mat.hstack a b
    let F := pfor 1 (m - 1) (fun k F => F.setCol (k + 1) fun i => ((2 * (k : K) + 1 - z i) * F.at_ i k - (k : K) * F.at_ i (k - 1)) / ((k : K) + 1)) F
    LaP.recurse m N z d 0 F

/-! ## HoPpro -/

/-- The inner function `Recurse` of `HoPpro._Hint`, BF_Py.py 414–432. -/
def HoPpro.recurse (m N : ℕ) (z : ℕ → K) : (left dCurr : ℕ) → Mat K → Except Err (Mat K)
  | 0, _, dark => .ok dark
  | left + 1, dCurr, dark => do
    let dark2 ←
      (if dCurr = 0 then do
        let a ← Mat.hstack (Mat.column N fun _ => 0) (Mat.column N fun _ => 1)
        let b ← Mat.zeros N ((m : ℤ) - 2)
        Mat.hstack a b
      else Mat.zeros N m)
    let dark2 := pfor 1 (m - 1) (fun k dark2 => dark2.setCol (k + 1) fun i =>
      ((dCurr : K) + 1) * dark.at_ i k + z i * dark2.at_ i k - (k : K) * dark2.at_ i (k - 1)) dark2
    HoPpro.recurse m N z left (dCurr + 1) dark2

/-- `HoPpro._Hint`, BF_Py.py 376–434. -/
def HoPpro.hint (m N : ℕ) (z : ℕ → K) (d : ℕ) : Except Err (Mat K) :=
  if m = 1 then
    if d > 0 then .ok (Mat.column N fun _ => 0) else .ok (Mat.column N fun _ => 1)
  else if m = 2 then
    if d > 1 then Mat.hstack (Mat.column N fun _ => 0) (Mat.column N fun _ => 0)
    else if d > 0 then Mat.hstack (Mat.column N fun _ => 0) (Mat.column N fun _ => 1)
    else Mat.hstack (Mat.column N fun _ => 1) (Mat.column N fun i => z i)
  else do
    let a ← Mat.hstack (Mat.column N fun _ => 1) (Mat.column N fun i => z i)
    let b ← Mat.zeros N ((m : ℤ) - 2)
    let F ← Mat.hstack a b
    let F := pfor 1 (m - 1) (fun k F => F.setCol (k + 1) fun i => z i * F.at_ i k - (k : K) * F.at_ i (k - 1)) F
    HoPpro.recurse m N z d 0 F

/-! ## HoPphy -/

/-- The inner function `Recurse` of `HoPphy._Hint`, BF_Py.py 480–500. -/
def HoPphy.recurse (m N : ℕ) (z : ℕ → K) : (left dCurr : ℕ) → Mat K → Except Err (Mat K)
  | 0, _, dark => .ok dark
  | left + 1, dCurr, dark => do
    let dark2 ←
      (if dCurr = 0 then do
        let a ← Mat.hstack (Mat.column N fun _ => 0) (Mat.column N fun _ => 2 * 1)
        let b ← Mat.zeros N ((m : ℤ) - 2)
        Mat.hstack a b
      else Mat.zeros N m)
    let dark2 := pfor 1 (m - 1) (fun k dark2 => dark2.setCol (k + 1) fun i =>
      2 * ((dCurr : K) + 1) * dark.at_ i k + 2 * z i * dark2.at_ i k - 2 * (k : K) * dark2.at_ i (k - 1)) dark2
    HoPphy.recurse m N z left (dCurr + 1) dark2

/-- `HoPphy._Hint`, BF_Py.py 442–502. -/
def HoPphy.hint (m N : ℕ) (z : ℕ → K) (d : ℕ) : Except Err (Mat K) :=
  if m = 1 then
    if d > 0 then .ok (Mat.column N fun _ => 0) else .ok (Mat.column N fun _ => 1)
  else if m = 2 then
    if d > 1 then Mat.hstack (Mat.column N fun _ => 0) (Mat.column N fun _ => 0)
    else if d > 0 then Mat.hstack (Mat.column N fun _ => 0) (Mat.column N fun _ => 2 * 1)
    else Mat.hstack (Mat.column N fun _ => 1) (Mat.column N fun i => 2 * z i)
  else do
    let a ← Mat.hstack (Mat.column N fun _ => 1) (Mat.column N fun i => 2 * z i)
    let b ← Mat.zeros N ((m : ℤ) - 2)
    let F ← Mat.hstack a b
    let F := pfor 1 (m - 1) (fun k F => F.setCol (k + 1) fun i => 2 * z i * F.at_ i k - 2 * (k : K) * F.at_ i (k - 1)) F
    HoPphy.recurse m N z d 0 F

end Verif.Model.PyBF
