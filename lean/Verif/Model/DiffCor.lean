import Verif.Model.Orbits
import Verif.Model.Libration
import Mathlib.LinearAlgebra.Matrix.Notation

/-!
# The differential corrector for Lyapunov orbits

`examples/Hunter_Johnston_Dissertation/Chapter_4/Example_4_8/diffCor.py` (D), with exact real numbers. `scipy.integrate.solve_ivp` and `numpy.linalg.pinv` are parameters.
An array of 21 numbers is a function of its index; the values at 21 and beyond have no meaning.
-/

namespace Verif.Model.Py

open Verif.Py

/-- `mu` of D 12–14 and D 243–245. -/
noncomputable def earthMoon : ℝ := 7.346e22 / (7.346e22 + 5.9724e24)

/-- `PCR3BP`, D 11–50: the mass ratio is always the one of D 12–14. The entries are in the order of D 40–44 and D 48, `x[4:20]` is read row by row (D 34, D 37). -/
noncomputable def pcr3bp (x : ℕ → ℝ) : ℕ → ℝ :=
  let mu := earthMoon
  let r1 := Real.sqrt ((x 0 + mu) ^ 2 + x 1 ^ 2)
  let r2 := Real.sqrt ((x 0 - 1 + mu) ^ 2 + x 1 ^ 2)
  let Omega_x := x 0 - (1 - mu) * (x 0 + mu) / r1 ^ 3 - mu * (x 0 - 1 + mu) / r2 ^ 3
  let Omega_y := x 1 - (1 - mu) * x 1 / r1 ^ 3 - mu * x 1 / r2 ^ 3
  let Uxx := 1 - (1 - mu) * (1 / r1 ^ 3 - 3 * (x 0 + mu) ^ 2 / r1 ^ 5) - mu * (1 / r2 ^ 3 - 3 * (x 0 - 1 + mu) ^ 2 / r2 ^ 5)
  let Uxy := (1 - mu) * 3 * x 1 * (x 0 + mu) / r1 ^ 5 + mu * 3 * x 1 * (x 0 - 1 + mu) / r2 ^ 5
  let Uyy := 1 - (1 - mu) * (1 / r1 ^ 3 - 3 * x 1 ^ 2 / r1 ^ 5) - mu * (1 / r2 ^ 3 - 3 * x 1 ^ 2 / r2 ^ 5)
  let F : Fin 4 → Fin 4 → ℝ := ![![0, 0, 1, 0], ![0, 0, 0, 1], ![Uxx, Uxy, 0, 2], ![Uxy, Uyy, -2, 0]]
  fun k =>
    if k = 0 then r2 * x 2
    else if k = 1 then r2 * x 3
    else if k = 2 then r2 * (2 * x 3 + Omega_x)
    else if k = 3 then r2 * (-2 * x 2 + Omega_y)
    else if k < 20 then r2 * ∑ l : Fin 4, F (Fin.ofNat 4 ((k - 4) / 4)) l * x (4 + 4 * l + (k - 4) % 4)
    else r2

/-- `y_init` of D 152–153: four numbers, the identity matrix row by row, and the time. -/
def corInit (x0 : ℕ → ℝ) : ℕ → ℝ := fun k =>
  if k < 4 then x0 k else if k < 20 then (if (k - 4) / 4 = (k - 4) % 4 then 1 else 0) else 0

/-- The last column of `sol.y` and the last entry of `sol.t`, D 162–165. -/
structure IvpEnd where
  t : ℝ
  y : ℕ → ℝ

/-- `M_2_0`, D 190–210, from the first and the last column of `sol.y`. A division by zero is left out: numpy gives infinities there. -/
noncomputable def corMatrix (mu : ℝ) (y0 y : ℕ → ℝ) : Matrix (Fin 2) (Fin 2) ℝ :=
  let r1 := Real.sqrt ((y 0 + mu) ^ 2 + y 1 ^ 2)
  let r2 := Real.sqrt ((y 0 - 1 + mu) ^ 2 + y 1 ^ 2)
  let Omega_x := y 0 - (1 - mu) * (y 0 + mu) / r1 ^ 3 - mu * (y 0 - 1 + mu) / r2 ^ 3
  let xdd := 2 * y 3 + Omega_x
  let den1 := ((y0 0 - (1 - mu)) ^ 2 + y0 1 ^ 2) ^ (1.5 : ℝ)
  let den2 := ((y0 0 + mu) ^ 2 + y0 1 ^ 2) ^ (1.5 : ℝ)
  let C_x := 2 * y0 0 - 2 * mu * (y0 0 - (1 - mu)) / den1 - 2 * (1 - mu) * (y0 0 + mu) / den2
  let C_ydot := -2 * y0 3
  !![y 12 - 1 / y 3 * xdd * y 8, y 15 - 1 / y 3 * xdd * y 11; C_x - 1 / y 3 * 0 * y 8, C_ydot - 1 / y 3 * 0 * y 11]

/-- `tol_sym`, D 146, and `tol_res`, D 70. -/
noncomputable def corTol : ℝ := 2.220446049250313e-14

/-- What `diff_cor_lyap_p` gives back, D 230, and what it has printed. -/
structure Cor where
  x0 : ℕ → ℝ
  period : ℝ
  periodTau : ℝ
  count : ℕ
  said : List String

/-- `C` of D 184–185 and of D 116–117. -/
noncomputable def stateJacobi (mu : ℝ) (y : ℕ → ℝ) : ℝ := getJacobi ![y 0, y 1, 0, y 2, y 3, 0] mu

/-- The new `y_init` of D 214–218. -/
noncomputable def corUpdate (pinv : Matrix (Fin 2) (Fin 2) ℝ → Matrix (Fin 2) (Fin 2) ℝ) (mu Cdes : ℝ) (yInit y : ℕ → ℝ) : ℕ → ℝ :=
  let b : Fin 2 → ℝ := ![-(y 2), -(-Cdes + stateJacobi mu y)]
  let q := (pinv (corMatrix mu yInit y)).mulVec b
  fun k => if k = 0 then yInit 0 + q 0 else if k = 3 then yInit 3 + q 1 else yInit k

/-- The loop of `diff_cor_lyap_p`, D 161–228; `none` if it has not ended after `fuel` passes. `ivp` is `solve_ivp` with `PCR3BP` and the event of D 141–143; the first
column of its result is `y_init`. `solve` is the one of `Lagrange`, D 177. -/
noncomputable def corLoop (ivp : (ℕ → ℝ) → ℝ → IvpEnd) (pinv : Matrix (Fin 2) (Fin 2) ℝ → Matrix (Fin 2) (Fin 2) ℝ) (solve : (ℝ → ℝ) → ℝ → ℝ)
    (T Ax mu Cdes tauMax : ℝ) : ℕ → (ℕ → ℝ) → ℕ → List String → Option Cor
  | 0, _, _, _ => none
  | fuel + 1, yInit, count, said =>
    let sol := ivp yInit tauMax
    let y := sol.y
    let late := 1e-3 ≤ |y 1|
    let d_norm2 := 1 - mu - ((lagrange solve mu).getD 0 (0, 0)).1
    let far := 100 * Ax * d_norm2 ≤ Real.sqrt ((yInit 0 - y 0) ^ 2 + (yInit 1 - y 1) ^ 2)
    let done := |y 2| < corTol ∧ |stateJacobi mu y - Cdes| < corTol
    let period := if |2 * y 20| = 0 then |T| else 2 * y 20
    haveI := Classical.propDecidable
    let said := said ++ (if late then ["Integration time exceeded!! \n"] else []) ++ (if far then ["ESCAPED!! \n"] else []) ++
      (if |2 * y 20| = 0 then ["FALSE CONVERGENCE LIKELY!!"] else [])
    if late ∨ far ∨ done then some ⟨yInit, period, 2 * sol.t, count + 1, said⟩
    else corLoop ivp pinv solve T Ax mu Cdes tauMax fuel (corUpdate pinv mu Cdes yInit y) (count + 1) said

/-- `diff_cor_lyap_p`, D 133–230. -/
noncomputable def diffCor (ivp : (ℕ → ℝ) → ℝ → IvpEnd) (pinv : Matrix (Fin 2) (Fin 2) ℝ → Matrix (Fin 2) (Fin 2) ℝ) (solve : (ℝ → ℝ) → ℝ → ℝ) (fuel : ℕ)
    (mu Ax : ℝ) (x0 : ℕ → ℝ) (T Cdes : ℝ) : Option Cor :=
  let d2 := Real.sqrt ((x0 0 - 1 + mu) ^ 2 + x0 1 ^ 2)
  corLoop ivp pinv solve T Ax mu Cdes (2 * T / d2) fuel (corInit x0) 0 []

/-- The adaption of the step, D 103–114. -/
noncomputable def adaptFactor (minFactor factor : ℝ) (count : ℕ) : ℝ :=
  let f1 := if (5 : ℕ) < count then factor * (2 / 3) else factor
  let f2 := if count < (5 : ℕ) then f1 * (3 / 2) else f1
  let f3 := if 1 ≤ f2 then 1 else f2
  if f3 ≤ minFactor then minFactor else f3

/-- The result of `target_lyap`, D 130, and whether it prints `LYAP FOUND!`, D 125–128. -/
structure TargetOut where
  x0 : ℕ → ℝ
  period : ℝ
  periodTau : ℝ
  res : ℝ
  found : Prop

/-- One pass of D 92–123 and the rest of the loop. `cor` is `diff_cor_lyap_p` with the `Ax` and `mu` of the call; `none` if one of its runs has not ended. -/
noncomputable def targetLoop (cor : (ℕ → ℝ) → ℝ → ℝ → Option Cor) (mu Cstar dC0 minFactor : ℝ) : ℕ → (ℕ → ℝ) → ℝ → ℝ → ℝ → Option TargetOut
  | more, x0, period, Cdes, factor => do
    let dC := if |Cstar - Cdes| < |factor * dC0| then Cstar - Cdes else factor * dC0
    let Cdes' := Cdes + dC
    let c ← cor x0 period Cdes'
    let factor' := adaptFactor minFactor factor c.count
    let res := |Cstar - stateJacobi mu c.x0|
    haveI := Classical.propDecidable
    match more with
    | 0 => some ⟨c.x0, c.period, c.periodTau, res, ¬ corTol < res⟩
    | more + 1 =>
      if res ≤ corTol then some ⟨c.x0, c.period, c.periodTau, res, ¬ corTol < res⟩
      else targetLoop cor mu Cstar dC0 minFactor more c.x0 c.period Cdes' factor'

/-- `target_lyap`, D 53–130, with `iterMax = n + 1` (for `iterMax = 0` D 89 divides by zero). `x0` and `period` are from `rich3_lyap`, D 73–74. -/
noncomputable def targetLyap (cor : (ℕ → ℝ) → ℝ → ℝ → Option Cor) (mu Cstar : ℝ) (x0 : ℕ → ℝ) (period : ℝ) (n : ℕ) : Option TargetOut := do
  let C0 := stateJacobi mu x0
  let dC0 := Cstar - C0
  let c ← cor x0 period C0
  let minFactor := 1 / ((n : ℝ) + 1)
  targetLoop cor mu Cstar dC0 minFactor n c.x0 c.period C0 (minFactor * 2)

end Verif.Model.Py
