import Verif.Model.OdeSystem
import Verif.Spec.OdeExample
import Verif.Spec.LeastSquares
import Mathlib.Analysis.Calculus.FDeriv.Basic

/-! # Systems with several unknown functions and unknown numbers: what the unknowns stand for, and the defects of the equations -/

namespace Verif.Spec

open Verif.Np Verif.Model.Py Verif.Model.LSq Verif.Model.Dict
open scoped ContDiff

variable {nf m : ℕ}

/-- What the dictionary stands for: a free function for each unknown function, and the unknown numbers. -/
structure PState (nf m : ℕ) where
  free : Fin nf → ℝ → ℝ
  num : Fin m → ℝ

/-- The array a dictionary holds under a key. -/
def Holds (v : View String) (k : String) (l : List ℝ) : Prop := ∃ cls kvs, v = .dict cls kvs ∧ ∃ a : Arr ℝ, (k, a) ∈ kvs ∧ a.data = l

/-- The dictionary `v` stands for `st`: the free functions are smooth, and their derivatives up to order 8 are the products of the coefficients
(in their column) with `H`, `dH`, …; the numbers are the first entries of their arrays. -/
structure Means (S : PSys nf m) (v : View String) (st : PState nf m) : Prop where
  smooth : ∀ q, ContDiff ℝ ∞ (st.free q)
  free : ∀ q, ∃ l, Holds v (S.funs q).key l ∧
    Evaluates (S.funs q).obj (column (S.funs q).width (S.funs q).col l) fun d => iteratedDeriv d (st.free q)
  num : ∀ i, ∃ l, Holds v (S.names i) l ∧ st.num i = l.getD 0 0

/-- The unknown function number `q`. -/
noncomputable def sysFn (S : PSys nf m) (st : PState nf m) (q : Fin nf) : ℝ → ℝ := curve ((S.funs q).ends st.num) (st.free q)

/-- The values that enter the equations at `x`. -/
noncomputable def sysJet (S : PSys nf m) (st : PState nf m) (E : PEqn nf m) (x : ℝ) : Fin E.count → ℝ :=
  fun i => iteratedDeriv (E.terms i).2 (sysFn S st (E.terms i).1) (E.arg i x)

/-- By how much `st` misses component `o` of the equations at `x`. -/
noncomputable def sysMiss (S : PSys nf m) (st : PState nf m) (E : PEqn nf m) (x : ℝ) (o : Fin E.outs) : ℝ := E.F x (sysJet S st E x) st.num o

/-- On the line from `st` to `st'`. -/
noncomputable def PState.toward (st st' : PState nf m) (r : ℝ) : PState nf m where
  free := fun q x => st.free q x + r * (st'.free q x - st.free q x)
  num := fun i => st.num i + r * (st'.num i - st.num i)

/-- The equations linearised at `st`, for `st'`. -/
noncomputable def sysLin (S : PSys nf m) (st st' : PState nf m) (E : PEqn nf m) (x : ℝ) (o : Fin E.outs) : ℝ :=
  sysMiss S st E x o + deriv (fun r : ℝ => sysMiss S (st.toward st' r) E x o) 0

/-- The sum over all equations, points and components. -/
def sumAll (eqs : List (PEqn nf m)) (f : (E : PEqn nf m) → ℝ → Fin E.outs → ℝ) : ℝ :=
  (eqs.map fun E => (E.pts.map fun x => ∑ o, f E x o).sum).sum

/-- The conditions and the equations are differentiable where `st` needs them. -/
structure Regular (S : PSys nf m) (st : PState nf m) : Prop where
  values : ∀ q, ∀ c ∈ (S.funs q).conds, DifferentiableAt ℝ c.value st.num
  eqs : ∀ E ∈ S.eqs, ∀ x ∈ E.pts, ∀ o,
    DifferentiableAt ℝ (fun p : (Fin E.count → ℝ) × (Fin m → ℝ) => E.F x p.1 p.2 o) (sysJet S st E x, st.num)

/-- The weights are smooth, and all derivatives are of order at most 8. -/
structure SmoothSys (S : PSys nf m) : Prop where
  conds : ∀ q, ∀ c ∈ (S.funs q).conds, ContDiff ℝ ∞ c.weight ∧ c.order ≤ 8
  terms : ∀ E ∈ S.eqs, ∀ i, (E.terms i).2 ≤ 8

/-- The run of the solver from the dictionary `z` to `v`: what the iterates stand for. From a regular iterate each step minimises the sum of the squares
of the linearised equations, among all dictionaries of the form of `z`, and of all dictionaries with the same sum it takes the nearest. The run ended because all defects are at most `tol`, or after `maxIter` steps, or
because no entry changed by more than `tol` in the last step. -/
structure SysRun (S : PSys nf m) (z : View String) (tol : ℝ) (maxIter : ℕ) (v : View String) (it : ℕ) (vs : ℕ → View String)
    (sts : ℕ → PState nf m) : Prop where
  bound : it ≤ maxIter
  start : vs 0 = z
  final : vs it = v
  form : ∀ j ≤ it, SameForm z (vs j)
  means : ∀ j ≤ it, Means S (vs j) (sts j)
  step : ∀ j < it, Regular S (sts j) → ∀ v' st', SameForm z v' → Means S v' st' →
    sumAll S.eqs (fun E x o => sysLin S (sts j) (sts (j + 1)) E x o ^ 2) ≤ sumAll S.eqs fun E x o => sysLin S (sts j) st' E x o ^ 2
  shortest : ∀ j < it, Regular S (sts j) → ∀ v' st', SameForm z v' → Means S v' st' →
    sumAll S.eqs (fun E x o => sysLin S (sts j) st' E x o ^ 2) ≤ sumAll S.eqs (fun E x o => sysLin S (sts j) (sts (j + 1)) E x o ^ 2) →
    ∑ i ∈ Finset.range (entries z).length, ((entries (vs (j + 1))).getD i 0 - (entries (vs j)).getD i 0) ^ 2 ≤
      ∑ i ∈ Finset.range (entries z).length, ((entries v').getD i 0 - (entries (vs j)).getD i 0) ^ 2
  stop : (∀ E ∈ S.eqs, ∀ x ∈ E.pts, ∀ o, |sysMiss S (sts it) E x o| ≤ tol) ∨ it = maxIter ∨
    ∃ j, it = j + 1 ∧ ∀ i, |(entries (vs it)).getD i 0 - (entries (vs j)).getD i 0| ≤ tol

/-- Runs of the solver, one for each value of a parameter, each started from the unknowns the run before has left. -/
def Follows (S : ℝ → PSys nf m) (tol : ℝ) (maxIter : ℕ) : List ℝ → View String → List (View String × ℤ) → Prop
  | [], _, [] => True
  | C :: Cs, xi, (v, it) :: rs =>
    (∃ (n : ℕ) (vs : ℕ → View String) (sts : ℕ → PState nf m), it = n ∧ SysRun (S C) xi tol maxIter v n vs sts) ∧ Follows S tol maxIter Cs v rs
  | _, _, _ => False

end Verif.Spec
