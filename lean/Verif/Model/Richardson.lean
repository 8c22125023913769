import Verif.Model.Libration
import Mathlib.Analysis.SpecialFunctions.Trigonometric.Basic

/-!
# Model of Richardson's approximation of periodic orbits

T is /repo/examples/Hunter_Johnston_Dissertation/Chapter_4/Example_4_8/util.py (the file in Example_4_9 is the same). Real numbers instead of doubles.
-/

namespace Verif.Model.Py

open Verif.Py

/-- `won` and `primary`, T 76–84 and 206–214. -/
def richSide (mu : ℝ) (Lpt : ℤ) : ℝ × ℝ :=
  if Lpt = 1 then (1, 1 - mu) else if Lpt = 2 then (-1, 1 - mu) else (1, -mu)

/-- `c[N-1]`, T 86–92 and 216–222. -/
noncomputable def richC (mu gamma : ℝ) (Lpt : ℤ) (N : ℕ) : ℝ :=
  let won := (richSide mu Lpt).1
  let primary := (richSide mu Lpt).2
  if Lpt = 3 then (1 / gamma ^ 3) * (1 - mu + (-primary * gamma ^ (N + 1)) / ((1 + gamma) ^ (N + 1)))
  else (1 / gamma ^ 3) * ((won ^ N) * mu + ((-1) ^ N) * (primary * gamma ^ (N + 1)) / ((1 + (-won) * gamma) ^ (N + 1)))

/-- `polylambda`, T 94 and 224. -/
def polyLambda (c2 : ℝ) : List ℝ := [1, 0, c2 - 2, 0, -(c2 - 1) * (1 + 2 * c2)]

/-- The numbers computed before the amplitudes, with the names of the code, T 84–140 and 214–270. -/
structure Rich where
  lam : ℝ
  c2 : ℝ
  c3 : ℝ
  c4 : ℝ
  k : ℝ
  dela : ℝ
  d1 : ℝ
  d2 : ℝ
  a21 : ℝ
  a22 : ℝ
  a23 : ℝ
  a24 : ℝ
  b21 : ℝ
  b22 : ℝ
  d21 : ℝ
  a31 : ℝ
  a32 : ℝ
  b31 : ℝ
  b32 : ℝ
  d31 : ℝ
  d32 : ℝ
  s1 : ℝ
  s2 : ℝ
  l1 : ℝ
  l2 : ℝ
  b33 : ℝ
  b34 : ℝ
  b35 : ℝ

/-- T 103–140, and 233–270 without the lines that are commented out there (`dela`, `l1`, `l2` are not used by `rich3_lyap`); `c2`, `c3`, `c4` are `c[1]`, `c[2]`,
`c[3]`. -/
noncomputable def richCoef (lam c2 c3 c4 : ℝ) : Rich :=
  let k := 2 * lam / (lam ^ 2 + 1 - c2)
  let dela := lam ^ 2 - c2
  let d1 := ((3 * lam ^ 2) / k) * (k * (6 * lam ^ 2 - 1) - 2 * lam)
  let d2 := ((8 * lam ^ 2) / k) * (k * (11 * lam ^ 2 - 1) - 2 * lam)
  let a21 := (3 * c3 * (k ^ 2 - 2)) / (4 * (1 + 2 * c2))
  let a22 := 3 * c3 / (4 * (1 + 2 * c2))
  let a23 := -(3 * c3 * lam / (4 * k * d1)) * (3 * (k ^ 3) * lam - 6 * k * (k - lam) + 4)
  let a24 := -(3 * c3 * lam / (4 * k * d1)) * (2 + 3 * k * lam)
  let b21 := -(3 * c3 * lam / (2 * d1)) * (3 * k * lam - 4)
  let b22 := 3 * c3 * lam / d1
  let d21 := -c3 / (2 * lam ^ 2)
  let a31 := -(9 * lam / (4 * d2)) * (4 * c3 * (k * a23 - b21) + k * c4 * (4 + k ^ 2))
    + ((9 * lam ^ 2 + 1 - c2) / (2 * d2)) * (3 * c3 * (2 * a23 - k * b21) + c4 * (2 + 3 * k ^ 2))
  let a32 := -(1 / d2) * ((9 * lam / 4) * (4 * c3 * (k * a24 - b22) + k * c4) + 1.5 * (9 * lam ^ 2 + 1 - c2) * (c3 * (k * b22 + d21 - 2 * a24) - c4))
  let b31 := (0.375 / d2) * (8 * lam * (3 * c3 * (k * b21 - 2 * a23) - c4 * (2 + 3 * k ^ 2))
    + (9 * lam ^ 2 + 1 + 2 * c2) * (4 * c3 * (k * a23 - b21) + k * c4 * (4 + k ^ 2)))
  let b32 := (1 / d2) * (9 * lam * (c3 * (k * b22 + d21 - 2 * a24) - c4) + 0.375 * (9 * lam ^ 2 + 1 + 2 * c2) * (4 * c3 * (k * a24 - b22) + k * c4))
  let d31 := (3 / (64 * lam ^ 2)) * (4 * c3 * a24 + c4)
  let d32 := (3 / (64 * lam ^ 2)) * (4 * c3 * (a23 - d21) + c4 * (4 + k ^ 2))
  let s1 := (1 / (2 * lam * (lam * (1 + k ^ 2) - 2 * k)))
    * (1.5 * c3 * (2 * a21 * (k ^ 2 - 2) - a23 * (k ^ 2 + 2) - 2 * k * b21) - 0.375 * c4 * (3 * k ^ 4 - 8 * k ^ 2 + 8))
  let s2 := (1 / (2 * lam * (lam * (1 + k ^ 2) - 2 * k)))
    * (1.5 * c3 * (2 * a22 * (k ^ 2 - 2) + a24 * (k ^ 2 + 2) + 2 * k * b22 + 5 * d21) + 0.375 * c4 * (12 - k ^ 2))
  let a1 := -1.5 * c3 * (2 * a21 + a23 + 5 * d21) - 0.375 * c4 * (12 - k ^ 2)
  let a2 := 1.5 * c3 * (a24 - 2 * a22) + 1.125 * c4
  let l1 := a1 + 2 * (lam ^ 2) * s1
  let l2 := a2 + 2 * (lam ^ 2) * s2
  let b33 := -k / (16 * lam) * (12 * c3 * (b21 - 2 * k * a21 + k * a23) + 3 * c4 * k * (3 * k ^ 2 - 4) + 16 * s1 * lam * (lam * k - 1))
  let b34 := -k / (8 * lam) * (-12 * c3 * k * a22 + 3 * c4 * k + 8 * s2 * lam * (lam * k - 1))
  let b35 := -k / (16 * lam) * (12 * c3 * (b22 + k * a24) + 3 * c4 * k)
  { lam := lam, c2 := c2, c3 := c3, c4 := c4, k := k, dela := dela, d1 := d1, d2 := d2, a21 := a21, a22 := a22, a23 := a23, a24 := a24, b21 := b21, b22 := b22,
    d21 := d21, a31 := a31, a32 := a32, b31 := b31, b32 := b32, d31 := d31, d32 := d32, s1 := s1, s2 := s2, l1 := l1, l2 := l2, b33 := b33, b34 := b34, b35 := b35 }

/-- `freq`, T 144–145 and 275–276. -/
def richFreq (R : Rich) (Ax Az : ℝ) : ℝ := R.lam * (1 + R.s1 * Ax ^ 2 + R.s2 * Az ^ 2)

/-- `x`, T 159 and 289. -/
noncomputable def richX (R : Rich) (Ax Az tau : ℝ) : ℝ :=
  R.a21 * Ax ^ 2 + R.a22 * Az ^ 2 - Ax * Real.cos tau + (R.a23 * Ax ^ 2 - R.a24 * Az ^ 2) * Real.cos (2 * tau)
    + (R.a31 * Ax ^ 3 - R.a32 * Ax * Az ^ 2) * Real.cos (3 * tau)

/-- `y` with the additional terms, T 161–164 and 291–295. -/
noncomputable def richY (R : Rich) (Ax Az tau : ℝ) : ℝ :=
  R.k * Ax * Real.sin tau + (R.b21 * Ax ^ 2 - R.b22 * Az ^ 2) * Real.sin (2 * tau) + (R.b31 * Ax ^ 3 - R.b32 * Ax * Az ^ 2) * Real.sin (3 * tau)
    + (R.b33 * Ax ^ 3 + R.b34 * Ax * Az ^ 2 - R.b35 * Ax * Az ^ 2) * Real.sin tau

/-- `z`, T 166. -/
noncomputable def richZ (R : Rich) (deltan Ax Az tau : ℝ) : ℝ :=
  deltan * Az * Real.cos tau + deltan * R.d21 * Ax * Az * (Real.cos (2 * tau) - 3) + deltan * (R.d32 * Az * Ax ^ 2 - R.d31 * Az ^ 3) * Real.cos (3 * tau)

/-- `xdot`, T 168 and 297. -/
noncomputable def richXdot (R : Rich) (Ax Az tau : ℝ) : ℝ :=
  let freq := richFreq R Ax Az
  freq * Ax * Real.sin tau - 2 * freq * (R.a23 * Ax ^ 2 - R.a24 * Az ^ 2) * Real.sin (2 * tau)
    - 3 * freq * (R.a31 * Ax ^ 3 - R.a32 * Ax * Az ^ 2) * Real.sin (3 * tau)

/-- `ydot` with the additional terms, T 170–173 and 298–303. -/
noncomputable def richYdot (R : Rich) (Ax Az tau : ℝ) : ℝ :=
  let freq := richFreq R Ax Az
  freq * (R.b33 * Ax ^ 3 + R.b34 * Ax * Az ^ 2 - R.b35 * Ax * Az ^ 2) * Real.cos tau
    + freq * (R.k * Ax * Real.cos tau + 2 * (R.b21 * Ax ^ 2 - R.b22 * Az ^ 2) * Real.cos (2 * tau) + 3 * (R.b31 * Ax ^ 3 - R.b32 * Ax * Az ^ 2) * Real.cos (3 * tau))

/-- `zdot`, T 175. -/
noncomputable def richZdot (R : Rich) (deltan Ax Az tau : ℝ) : ℝ :=
  let freq := richFreq R Ax Az
  (-freq) * deltan * Az * Real.sin tau - 2 * freq * deltan * R.d21 * Ax * Az * Real.sin (2 * tau)
    - 3 * freq * deltan * (R.d32 * Az * Ax ^ 2 - R.d31 * Az ^ 3) * Real.sin (3 * tau)

/-- `dtau1`, T 151–154 and 281–284. -/
noncomputable def richStep (npts : ℕ) : ℝ := if npts > 1 then 2 * Real.pi / ((npts : ℝ) - 1) else 2 * Real.pi

/-- What the two functions return without the last value of `rich3_lyap`: `ss` and `rvi` by rows, `period`. -/
structure RichOut where
  ss : List ℝ
  rvi : List (List ℝ)
  period : ℝ

/-- The loop, T 156–179 and 286–307, with the rows `row tau1`. -/
noncomputable def richLoop (freq dtau : ℝ) (row : ℝ → List ℝ) : ℕ → ℝ → List ℝ × List (List ℝ)
  | 0, _ => ([], [])
  | n + 1, tau =>
    let r := richLoop freq dtau row n (tau + dtau)
    (tau / freq :: r.1, row tau :: r.2)

/-- The coefficients as the two functions find them, T 75–140 and 205–270. `none` where the first root has the real part 0: `k` is 0 then and numpy goes on with
numbers that are not numbers. -/
noncomputable def richSetup (roots : List ℝ → List ℂ) (mu : ℝ) (Lpt : ℤ) : Except Err (ℝ × Option Rich) := do
  let gamma ← gammaL roots mu Lpt
  let c2 := richC mu gamma Lpt 2
  let c3 := richC mu gamma Lpt 3
  let c4 := richC mu gamma Lpt 4
  match (roots (polyLambda c2))[0]? with
  | none => throw .indexError
  | some r => return (gamma, if r.re = 0 then none else some (richCoef r.re c2 c3 c4))

/-- `rich3_lyap`, T 184–309, without the amplitude that it hands back unchanged. `none` as in `richSetup`, and where `freq` is 0. -/
noncomputable def rich3Lyap (roots : List ℝ → List ℂ) (mu Ax : ℝ) (Lpt : ℤ) (npts : ℕ) : Except Err (Option RichOut) := do
  let (gamma, R?) ← richSetup roots mu Lpt
  match R? with
  | none => return none
  | some R =>
    let won := (richSide mu Lpt).1
    let primary := (richSide mu Lpt).2
    let Az : ℝ := 0
    let freq := richFreq R Ax Az
    if freq = 0 then return none
    let row := fun tau1 => [gamma * ((primary + gamma * (-won + richX R Ax Az tau1)) / gamma), gamma * richY R Ax Az tau1, gamma * 0,
      gamma * richXdot R Ax Az tau1, gamma * richYdot R Ax Az tau1, gamma * 0]
    let l := richLoop freq (richStep npts) row npts 0
    return some { ss := l.1, rvi := l.2, period := |2 * Real.pi / freq| }

/-- `rich`, T 32–181; `south` says that `ns` is 'S' (any other value than 'N' and 'S' is read as 'N', with a message, T 67–73). `none` as in `richSetup`, where the
square root of T 143 has a negative argument or none because `l1` is 0, and where `freq` is 0. -/
noncomputable def richHalo (roots : List ℝ → List ℂ) (mu Az : ℝ) (Lpt : ℤ) (south : Bool) (npts : ℕ) : Except Err (Option RichOut) := do
  let NS : ℝ := if south then 3 else 1
  let (gamma, R?) ← richSetup roots mu Lpt
  match R? with
  | none => return none
  | some R =>
    let won := (richSide mu Lpt).1
    let primary := (richSide mu Lpt).2
    let deltan := 2 - NS
    if R.l1 = 0 ∨ (-R.dela - R.l2 * Az ^ 2) / R.l1 < 0 then return none
    let Ax := Real.sqrt ((-R.dela - R.l2 * Az ^ 2) / R.l1)
    let freq := richFreq R Ax Az
    if freq = 0 then return none
    let row := fun tau1 => [gamma * ((primary + gamma * (-won + richX R Ax Az tau1)) / gamma), gamma * richY R Ax Az tau1, gamma * richZ R deltan Ax Az tau1,
      gamma * richXdot R Ax Az tau1, gamma * richYdot R Ax Az tau1, gamma * richZdot R deltan Ax Az tau1]
    let l := richLoop freq (richStep npts) row npts 0
    return some { ss := l.1, rvi := l.2, period := |2 * Real.pi / freq| }

end Verif.Model.Py
