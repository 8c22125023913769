import Verif.Mem
import Mathlib.Algebra.Field.Defs
import Mathlib.Data.Nat.Cast.Defs

/-!
# Model of the compiled polynomial bases: /repo/src/tfc/utils/BF.cc lines 170–520

Each `hint` mirrors `X::Hint(d, x, nOut, dark)` and each `recurseDeriv` mirrors `X::RecurseDeriv`.
`dark`/`F` is the row-major `nOut × m` block; `x` is the block of basis-domain points.
Simplifications: `double` is any type `K` with the operations that are used: the exact statements are about fields, those about rounded
arithmetic (C86, C87) about `Verif.Model.Rounded.Fl`; a literal is the value of its integer; `int deg = m - 1` compared with 0 and 1 is written as `m = 1`,
`m = 2`; `RecurseDeriv(d, dCurr, …)` recurses until `dCurr == d`, written as structural recursion on
`left = d - dCurr` (it is always entered with `dCurr = 0 ≤ d`); the `new`ed copy `dark` of `F` is a value copy
(`memcpy` of the whole block).
-/

namespace Verif.Model.CC

open Verif.Mem

variable {K : Type} [Zero K] [One K] [Add K] [Sub K] [Mul K] [Div K] [Neg K] [NatCast K]

/-! ## CP -/

/-- `CP::RecurseDeriv`, BF.cc 212–237. -/
def CP.recurseDeriv (m : ℕ) (x : Buf K) (nOut : ℕ) :
    (left dCurr : ℕ) → Buf K → Except Fault (Buf K)
  | 0, _, F => .ok F
  | left + 1, dCurr, F => do
    let dark := F
    let F ←
      (if dCurr = 0 then
        loop 0 nOut (fun k F => do
          let F ← F.write (m * k) 0
          F.write (m * k + 1) 1) F
      else if dCurr = 1 then
        loop 0 nOut (fun k F => F.write (m * k + 1) 0) F
      else .ok F)
    let F ← loop 2 m (fun k F =>
      loop 0 nOut (fun j F => do
        let xj ← x.read j
        let e ← dark.read (m * j + k - 1)
        let f1 ← F.read (m * j + k - 1)
        let f2 ← F.read (m * j + k - 2)
        F.write (m * j + k) ((2 + 2 * (dCurr : K)) * e + 2 * xj * f1 - f2)) F) F
    CP.recurseDeriv m x nOut left (dCurr + 1) F

/-- `CP::Hint`, BF.cc 171–210. -/
def CP.hint (m d : ℕ) (x : Buf K) (nOut : ℕ) (dark : Buf K) : Except Fault (Buf K) :=
  if m = 1 then
    if d > 0 then loop 0 nOut (fun k dark => dark.write k 0) dark
    else loop 0 nOut (fun k dark => dark.write k 1) dark
  else if m = 2 then
    if d > 1 then loop 0 (m * nOut) (fun k dark => dark.write k 0) dark
    else if d > 0 then
      loop 0 nOut (fun k dark => do
        let dark ← dark.write (m * k) 0
        dark.write (m * k + 1) 1) dark
    else
      loop 0 nOut (fun k dark => do
        let dark ← dark.write (m * k) 1
        let xk ← x.read k
        dark.write (m * k + 1) (xk)) dark
  else do
    let dark ← loop 0 nOut (fun k dark => do
      let dark ← dark.write (m * k) 1
      let xk ← x.read k
      dark.write (m * k + 1) (xk)) dark
    let dark ← loop 2 m (fun k dark =>
      loop 0 nOut (fun j dark => do
        let xj ← x.read j
        let f1 ← dark.read (m * j + k - 1)
        let f2 ← dark.read (m * j + k - 2)
        dark.write (m * j + k) (2 * xj * f1 - f2)) dark) dark
    CP.recurseDeriv m x nOut d 0 dark

/-! ## LeP -/

/-- `LeP::RecurseDeriv`, BF.cc 281–308. -/
def LeP.recurseDeriv (m : ℕ) (x : Buf K) (nOut : ℕ) :
    (left dCurr : ℕ) → Buf K → Except Fault (Buf K)
  | 0, _, F => .ok F
  | left + 1, dCurr, F => do
    let dark := F
    let F ←
      (if dCurr = 0 then
        loop 0 nOut (fun k F => do
          let F ← F.write (m * k) 0
          F.write (m * k + 1) 1) F
      else if dCurr = 1 then
        loop 0 nOut (fun k F => F.write (m * k + 1) 0) F
      else .ok F)
    let F ← loop 1 (m - 1) (fun k F =>
      loop 0 nOut (fun j F => do
        let xj ← x.read j
        let e ← dark.read (m * j + k)
        let f1 ← F.read (m * j + k)
        let f2 ← F.read (m * j + k - 1)
        F.write (m * j + k + 1) (((2 * (k : K) + 1) * (((dCurr : K) + 1) * e + xj * f1) - (k : K) * f2) / ((k : K) + 1))) F) F
    LeP.recurseDeriv m x nOut left (dCurr + 1) F

/-- `LeP::Hint`, BF.cc 240–279. -/
def LeP.hint (m d : ℕ) (x : Buf K) (nOut : ℕ) (dark : Buf K) : Except Fault (Buf K) :=
  if m = 1 then
    if d > 0 then loop 0 nOut (fun k dark => dark.write k 0) dark
    else loop 0 nOut (fun k dark => dark.write k 1) dark
  else if m = 2 then
    if d > 1 then loop 0 (m * nOut) (fun k dark => dark.write k 0) dark
    else if d > 0 then
      loop 0 nOut (fun k dark => do
        let dark ← dark.write (m * k) 0
        dark.write (m * k + 1) 1) dark
    else
      loop 0 nOut (fun k dark => do
        let dark ← dark.write (m * k) 1
        let xk ← x.read k
        dark.write (m * k + 1) (xk)) dark
  else do
    let dark ← loop 0 nOut (fun k dark => do
      let dark ← dark.write (m * k) 1
      let xk ← x.read k
      dark.write (m * k + 1) (xk)) dark
    let dark ← loop 1 (m - 1) (fun k dark =>
      loop 0 nOut (fun j dark => do
        let xj ← x.read j
        let f1 ← dark.read (m * j + k)
        let f2 ← dark.read (m * j + k - 1)
        dark.write (m * j + k + 1) (((2 * (k : K) + 1) * xj * f1 - (k : K) * f2) / ((k : K) + 1))) dark) dark
    LeP.recurseDeriv m x nOut d 0 dark

/-! ## LaP -/

/-- `LaP::RecurseDeriv`, BF.cc 352–379. -/
def LaP.recurseDeriv (m : ℕ) (x : Buf K) (nOut : ℕ) :
    (left dCurr : ℕ) → Buf K → Except Fault (Buf K)
  | 0, _, F => .ok F
  | left + 1, dCurr, F => do
    let dark := F
    let F ←
      (if dCurr = 0 then
        loop 0 nOut (fun k F => do
          let F ← F.write (m * k) 0
          F.write (m * k + 1) (-1)) F
      else if dCurr = 1 then
        loop 0 nOut (fun k F => F.write (m * k + 1) 0) F
      else .ok F)
    let F ← loop 1 (m - 1) (fun k F =>
      loop 0 nOut (fun j F => do
        let xj ← x.read j
        let e ← dark.read (m * j + k)
        let f1 ← F.read (m * j + k)
        let f2 ← F.read (m * j + k - 1)
        F.write (m * j + k + 1) (((2 * (k : K) + 1 - xj) * f1 - ((dCurr : K) + 1) * e - (k : K) * f2) / ((k : K) + 1))) F) F
    LaP.recurseDeriv m x nOut left (dCurr + 1) F

/-- `LaP::Hint`, BF.cc 311–350. -/
def LaP.hint (m d : ℕ) (x : Buf K) (nOut : ℕ) (dark : Buf K) : Except Fault (Buf K) :=
  if m = 1 then
    if d > 0 then loop 0 nOut (fun k dark => dark.write k 0) dark
    else loop 0 nOut (fun k dark => dark.write k 1) dark
  else if m = 2 then
    if d > 1 then loop 0 (m * nOut) (fun k dark => dark.write k 0) dark
    else if d > 0 then
      loop 0 nOut (fun k dark => do
        let dark ← dark.write (m * k) 0
        dark.write (m * k + 1) (-1)) dark
    else
      loop 0 nOut (fun k dark => do
        let dark ← dark.write (m * k) 1
        let xk ← x.read k
        dark.write (m * k + 1) (1 - xk)) dark
  else do
    let dark ← loop 0 nOut (fun k dark => do
      let dark ← dark.write (m * k) 1
      let xk ← x.read k
      dark.write (m * k + 1) (1 - xk)) dark
    let dark ← loop 1 (m - 1) (fun k dark =>
      loop 0 nOut (fun j dark => do
        let xj ← x.read j
        let f1 ← dark.read (m * j + k)
        let f2 ← dark.read (m * j + k - 1)
        dark.write (m * j + k + 1) (((2 * (k : K) + 1 - xj) * f1 - (k : K) * f2) / ((k : K) + 1))) dark) dark
    LaP.recurseDeriv m x nOut d 0 dark

/-! ## HoPpro -/

/-- `HoPpro::RecurseDeriv`, BF.cc 424–449. -/
def HoPpro.recurseDeriv (m : ℕ) (x : Buf K) (nOut : ℕ) :
    (left dCurr : ℕ) → Buf K → Except Fault (Buf K)
  | 0, _, F => .ok F
  | left + 1, dCurr, F => do
    let dark := F
    let F ←
      (if dCurr = 0 then
        loop 0 nOut (fun k F => do
          let F ← F.write (m * k) 0
          F.write (m * k + 1) 1) F
      else if dCurr = 1 then
        loop 0 nOut (fun k F => F.write (m * k + 1) 0) F
      else .ok F)
    let F ← loop 1 (m - 1) (fun k F =>
      loop 0 nOut (fun j F => do
        let xj ← x.read j
        let e ← dark.read (m * j + k)
        let f1 ← F.read (m * j + k)
        let f2 ← F.read (m * j + k - 1)
        F.write (m * j + k + 1) (((dCurr : K) + 1) * e + xj * f1 - (k : K) * f2)) F) F
    HoPpro.recurseDeriv m x nOut left (dCurr + 1) F

/-- `HoPpro::Hint`, BF.cc 383–422. -/
def HoPpro.hint (m d : ℕ) (x : Buf K) (nOut : ℕ) (dark : Buf K) : Except Fault (Buf K) :=
  if m = 1 then
    if d > 0 then loop 0 nOut (fun k dark => dark.write k 0) dark
    else loop 0 nOut (fun k dark => dark.write k 1) dark
  else if m = 2 then
    if d > 1 then loop 0 (m * nOut) (fun k dark => dark.write k 0) dark
    else if d > 0 then
      loop 0 nOut (fun k dark => do
        let dark ← dark.write (m * k) 0
        dark.write (m * k + 1) 1) dark
    else
      loop 0 nOut (fun k dark => do
        let dark ← dark.write (m * k) 1
        let xk ← x.read k
        dark.write (m * k + 1) (xk)) dark
  else do
    let dark ← loop 0 nOut (fun k dark => do
      let dark ← dark.write (m * k) 1
      let xk ← x.read k
      dark.write (m * k + 1) (xk)) dark
    let dark ← loop 1 (m - 1) (fun k dark =>
      loop 0 nOut (fun j dark => do
        let xj ← x.read j
        let f1 ← dark.read (m * j + k)
        let f2 ← dark.read (m * j + k - 1)
        dark.write (m * j + k + 1) (xj * f1 - (k : K) * f2)) dark) dark
    HoPpro.recurseDeriv m x nOut d 0 dark

/-! ## HoPphy -/

/-- `HoPphy::RecurseDeriv`, BF.cc 494–520. -/
def HoPphy.recurseDeriv (m : ℕ) (x : Buf K) (nOut : ℕ) :
    (left dCurr : ℕ) → Buf K → Except Fault (Buf K)
  | 0, _, F => .ok F
  | left + 1, dCurr, F => do
    let dark := F
    let F ←
      (if dCurr = 0 then
        loop 0 nOut (fun k F => do
          let F ← F.write (m * k) 0
          F.write (m * k + 1) 2) F
      else if dCurr = 1 then
        loop 0 nOut (fun k F => F.write (m * k + 1) 0) F
      else .ok F)
    let F ← loop 1 (m - 1) (fun k F =>
      loop 0 nOut (fun j F => do
        let xj ← x.read j
        let e ← dark.read (m * j + k)
        let f1 ← F.read (m * j + k)
        let f2 ← F.read (m * j + k - 1)
        F.write (m * j + k + 1) (2 * ((dCurr : K) + 1) * e + 2 * xj * f1 - 2 * (k : K) * f2)) F) F
    HoPphy.recurseDeriv m x nOut left (dCurr + 1) F

/-- `HoPphy::Hint`, BF.cc 453–492. -/
def HoPphy.hint (m d : ℕ) (x : Buf K) (nOut : ℕ) (dark : Buf K) : Except Fault (Buf K) :=
  if m = 1 then
    if d > 0 then loop 0 nOut (fun k dark => dark.write k 0) dark
    else loop 0 nOut (fun k dark => dark.write k 1) dark
  else if m = 2 then
    if d > 1 then loop 0 (m * nOut) (fun k dark => dark.write k 0) dark
    else if d > 0 then
      loop 0 nOut (fun k dark => do
        let dark ← dark.write (m * k) 0
        dark.write (m * k + 1) 2) dark
    else
      loop 0 nOut (fun k dark => do
        let dark ← dark.write (m * k) 1
        let xk ← x.read k
        dark.write (m * k + 1) (2 * xk)) dark
  else do
    let dark ← loop 0 nOut (fun k dark => do
      let dark ← dark.write (m * k) 1
      let xk ← x.read k
      dark.write (m * k + 1) (2 * xk)) dark
    let dark ← loop 1 (m - 1) (fun k dark =>
      loop 0 nOut (fun j dark => do
        let xj ← x.read j
        let f1 ← dark.read (m * j + k)
        let f2 ← dark.read (m * j + k - 1)
        dark.write (m * j + k + 1) (2 * xj * f1 - 2 * (k : K) * f2)) dark) dark
    HoPphy.recurseDeriv m x nOut d 0 dark

end Verif.Model.CC
