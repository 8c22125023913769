import Verif.Model.OdeExample
import Verif.Model.Programs

/-!
# Model of the programs that solve an initial value problem step by step

E is /repo/examples/TfcBook/Chapter_3/example_3_1.py (Problem_1.py is the same file), P is /repo/examples/TfcBook/Chapter_3/Problem_2.py. Both build one `utfc`
object on `[0, xstep]` and one solver object, and run the solver once for each step with the initial conditions `IC` of the step. The dictionary `IC` is
modelled as the list of its two entries. The times, the progress bar, the error, and the plots are left out.
-/

namespace Verif.Model.Py

open Verif.Py Verif.Np Verif.Model.LSq Verif.Model.Prog Verif.Model.Dict

/-- The rows a round saves: `xSol[i,:]`, `ySol[i,:]`, `res[i,:]`, E 84–86, 97–103, P 98–100, 110–116. -/
structure SavedRow where
  xs : List ℝ
  ys : List ℝ
  res : List ℝ

/-- `IC['y0']`, `IC['y0p']`, `xFinal` and the rows filled so far, E 78, 84–91, P 92, 98–104. -/
structure MarchState where
  y0 : ℝ
  y0p : ℝ
  xFinal : ℝ
  rows : List SavedRow

/-- The residual of E 74, without the argument `x`. -/
def oscF (w _x y _y1 y2 : ℝ) : ℝ := y2 + w ^ 2 * y

/-- The constants of P 38–42. -/
structure DuffPar where
  alpha : ℝ
  beta : ℝ
  delta : ℝ
  omega : ℝ
  gamma : ℝ

/-- The values of P 38–42. -/
noncomputable def duffPar : DuffPar := ⟨-1, 1, 0.3, 1.2, 0.4⟩

/-- The residual of P 87–88; `x` are the points of the object, in every step. -/
noncomputable def duffF (p : DuffPar) (x y y1 y2 : ℝ) : ℝ :=
  y2 + p.delta * y1 + p.alpha * y + p.beta * y ^ 3 - p.gamma * Real.cos (p.omega * x)

/-- `L = jit(lambda xi,x,IC: …)`, E 64–74. -/
noncomputable def marchResX (u : Utfc) (F : ℝ → ℝ → ℝ → ℝ → ℝ) : Residual Unit
  | [.arr xi, .arr x, .arr [a, b]] => orEmpty (curveRes u (ivpExpr u.x a b) F x xi)
  | _ => []

/-- `L = jit(lambda xi,IC: …)`, P 77–88. -/
noncomputable def marchRes (u : Utfc) (F : ℝ → ℝ → ℝ → ℝ → ℝ) : Residual Unit
  | [.arr xi, .arr [a, b]] => orEmpty (curveRes u (ivpExpr u.x a b) F u.x xi)
  | _ => []

/-- The rest of a round, E 96–107, P 109–120: `IC['y0']` is replaced before `yp(x,xi,IC)` is evaluated. -/
noncomputable def finishRound (u : Utfc) (F : ℝ → ℝ → ℝ → ℝ → ℝ) (s : MarchState) (xi : List ℝ) : Except Err MarchState := do
  let X := fun j => u.x.getD j 0
  let cs := ivpExpr u.x s.y0 s.y0p
  let xs := if s.rows.length > 0 then u.x.dropLast.map (s.xFinal + ·) else u.x.dropLast
  let xFinal := if s.rows.length > 0 then s.xFinal + last u.x else s.xFinal
  let y ← curveEval u cs xi u.x.length X
  let r ← curveRes u cs F u.x xi
  let y0 := last y
  let yp ← curveD u (ivpExpr u.x y0 s.y0p) xi 1 u.x.length X
  let y0p := last ((List.range u.x.length).map yp)
  return ⟨y0, y0p, xFinal, s.rows ++ [⟨xs, y.dropLast, (r.map abs).dropLast⟩]⟩

/-- The loop of E 93–107, `n` rounds. -/
noncomputable def oscRounds (u : Utfc) (F : ℝ → ℝ → ℝ → ℝ → ℝ) (xi0 : List ℝ) : ℕ → LsObj Unit → MarchState → Except Err MarchState
  | 0, _, s => .ok s
  | n + 1, o, s => do
    let (_, zXi, o) ← o.run noHeap (.arr xi0) [.arr [s.y0, s.y0p]]
    match zXi with
    | .arr xi =>
      let s ← finishRound u F s xi
      oscRounds u F xi0 n o s
    | .dict _ _ => .error .typeError

/-- E 48–107 for `[0, X]` in `Nstep` steps; there `N` is 100, `m` 40, `X` 2, `Nstep` is `int(X/2)`, `y0` 1, `y0p` 0 and `w` 2π. -/
noncomputable def runOscillator (lib : LinAlg) (N m : ℕ) (basis : String) (X : ℝ) (Nstep : ℕ) (y0 y0p w : ℝ) (wt b : ℕ → ℝ) :
    Except Err MarchState := do
  let u ← utfcInit (N + 1) (.int (nCOf basis)) (m + 1) basis (some 0) (some (X / Nstep)) "C++" wt b
  let xi0 ← startCurve u (ivpExpr u.x y0 y0p) (oscF w)
  let o ← (LsObj.init lib .pinv none true (marchResX u (oscF w)) (.arr xi0) [.arr u.x, .arr [y0, y0p]] [1]).1
  oscRounds u (oscF w) xi0 Nstep o ⟨y0, y0p, last u.x, []⟩

/-- The loop of P 106–120, `n` rounds; `none` if a run has not ended after `fuel` evaluations of its condition. -/
noncomputable def duffRounds (u : Utfc) (F : ℝ → ℝ → ℝ → ℝ → ℝ) (xi0 : List ℝ) (fuel : ℕ) :
    ℕ → NllsObj Unit → MarchState → Except Err (Option MarchState)
  | 0, _, s => .ok (some s)
  | n + 1, o, s => do
    let (r, o) := o.run (.arr xi0) [.arr [s.y0, s.y0p]] fuel
    match ← r with
    | none => return none
    | some (.arr xi, _) =>
      let s ← finishRound u F s xi
      duffRounds u F xi0 fuel n o s
    | some (.dict _ _, _) => .error .typeError

/-- P 61–120 for `[0, X]` in `Nstep` steps; there `N` is 100, `m` 40, `X` 1000, `Nstep` is `int(X/3)`, `y0` 1 and `y0p` 0. -/
noncomputable def runDuffing (lib : LinAlg) (N m : ℕ) (basis : String) (X : ℝ) (Nstep : ℕ) (y0 y0p : ℝ) (p : DuffPar) (wt b : ℕ → ℝ) (fuel : ℕ) :
    Except Err (Option MarchState) := do
  let u ← utfcInit (N + 1) (.int (nCOf basis)) (m + 1) basis (some 0) (some (X / Nstep)) "C++" wt b
  let xi0 ← startCurve u (ivpExpr u.x y0 y0p) (duffF p)
  let o ← (NllsObj.init lib .pinv none none none 1e-15 50 true (marchRes u (duffF p)) (.arr xi0) [.arr [y0, y0p]] []).1
  duffRounds u (duffF p) xi0 fuel Nstep o ⟨y0, y0p, last u.x, []⟩

end Verif.Model.Py
