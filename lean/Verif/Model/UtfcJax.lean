import Verif.Model.UtfcInit

/-!
# Model of the methods of `utfc` and of `HybridUtfc`: /repo/src/tfc/utfc.py lines 191–541

The JAX primitive `H_p` is modelled by the callables registered for it: the implementation `H_impl` (eager calls) and the
forward-mode rule `H_jvp`. JAX itself (tracing, caching, batching) is not modelled. The points are a one-dimensional array.
-/

namespace Verif.Model.Py

open Verif.Py Verif.Np Verif.Spec Verif.Mem

/-- What the Python caller receives from a compiled call returning `(n, m, block)`: a memory fault ends the process; a block
with unwritten cells is a value nobody can predict and is modelled as a crash too. utfc.py 298–299; BF_Py.cc 108–130. -/
def fromCC (r : Except Fault (ℕ × ℕ × Buf ℝ)) : Except Err (Mat ℝ) :=
  match r with
  | .error _ => .error .crash
  | .ok (n, m, F) =>
    if (List.range (n * m)).all (fun i => (F.cell i).isSome) then
      .ok ⟨n, m, fun j i => (F.cell (m * j + i)).getD 0⟩
    else .error .crash

/-- `self.basisClass` constructed in utfc.py 140–173 with `m = deg + 1`, and its method `H`: this is `H_impl`, utfc.py
298–299, which `_Hjax(x, d=d, full=full)` runs on an array of points. -/
noncomputable def Utfc.Hjax (self : Utfc) (n : ℕ) (xs : ℕ → ℝ) (d : ℕ) (full : Bool) : Except Err (Mat ℝ) :=
  match self.backend with
  | .cpp => fromCC ((CC.uniNew self.cls self.x0 self.xf self.nC (self.deg + 1)).H (Buf.ofFn n xs) n d full)
  | .python => (PyBF.uniInit self.cls self.x0 self.xf self.nC (self.deg + 1)).H n xs d full

/-- `utfc.H`, utfc.py 191–208. -/
noncomputable def Utfc.H (self : Utfc) (n : ℕ) (xs : ℕ → ℝ) (full : Bool) := self.Hjax n xs 0 full
/-- `utfc.dH`, utfc.py 210–226. -/
noncomputable def Utfc.dH (self : Utfc) (n : ℕ) (xs : ℕ → ℝ) (full : Bool) := self.Hjax n xs 1 full
/-- `utfc.d2H`, utfc.py 228–244. -/
noncomputable def Utfc.d2H (self : Utfc) (n : ℕ) (xs : ℕ → ℝ) (full : Bool) := self.Hjax n xs 2 full
/-- `utfc.d4H`, utfc.py 246–262. -/
noncomputable def Utfc.d4H (self : Utfc) (n : ℕ) (xs : ℕ → ℝ) (full : Bool) := self.Hjax n xs 4 full
/-- `utfc.d8H`, utfc.py 264–280. -/
noncomputable def Utfc.d8H (self : Utfc) (n : ℕ) (xs : ℕ → ℝ) (full : Bool) := self.Hjax n xs 8 full

/-- `A * onp.expand_dims(t, 1)` for a one-dimensional array `t` with `n` entries: broadcasting requires equal numbers of rows
(or a single row or a single entry). -/
def Mat.scaleRows (A : Mat ℝ) (n : ℕ) (t : ℕ → ℝ) : Except Err (Mat ℝ) :=
  if A.rows = n then .ok ⟨n, A.cols, fun j i => A.at_ j i * t j⟩
  else if A.rows = 1 then .ok ⟨n, A.cols, fun j i => A.at_ 0 i * t j⟩
  else if n = 1 then .ok ⟨A.rows, A.cols, fun j i => A.at_ j i * t 0⟩
  else .error .valueError

/-- The statements of `H_jvp` that assign `out_tans`, utfc.py 364–370, for a tangent that is an array `dx` with the shape of
`x`; `none` if no branch assigns it. JAX does not call the rule with a symbolic zero for its only argument, and the `else`
branch 371–377 is taken only if `dx` is the class `ad.Zero` itself: neither is modelled. -/
noncomputable def Utfc.outTans (self : Utfc) (n : ℕ) (xs dx : ℕ → ℝ) (d : ℕ) (full : Bool) :
    Except Err (Option (Mat ℝ)) :=
  open scoped Classical in
  if ∃ j < n, dx j ≠ 0 then do
    let A ← self.Hjax n xs (d + 1) full
    let B ← Mat.scaleRows A n dx
    .ok (some B)
  else .ok none

/-- `H_jvp`, utfc.py 361–378: primal and tangent results. -/
noncomputable def Utfc.H_jvp (self : Utfc) (n : ℕ) (xs dx : ℕ → ℝ) (d : ℕ) (full : Bool) :
    Except Err (Mat ℝ × Mat ℝ) := do
  let out_tans ← self.outTans n xs dx d full
  let P ← self.Hjax n xs d full
  match out_tans with
  | none => .error .unboundLocal
  | some T => .ok (P, T)

/-! ## HybridUtfc -/

/-- `HybridUtfc.__init__`, utfc.py 397–409; the result is `self._tfcClasses`. An empty list is accepted: the test at 407 loops
over no classes. -/
def hybridInit (tfcClasses : List Utfc) : Except Err (List Utfc) :=
  if tfcClasses.all (fun k => some k.N == (tfcClasses.head?.map (·.N))) then .ok tfcClasses else .error .exit

/-- `np.hstack` of a non-empty list. utfc.py 430, 452, 474, 496, 518, 540. -/
def hstackFrom {K : Type} : Mat K → List (Mat K) → Except Err (Mat K)
  | A, [] => .ok A
  | A, B :: l => do let C ← A.hstack B; hstackFrom C l

/-- `np.hstack(list)`; an empty list is a `ValueError`. utfc.py 430, 452, 474, 496, 518, 540. -/
def hstackAll {K : Type} : List (Mat K) → Except Err (Mat K)
  | [] => .error .valueError
  | A :: l => hstackFrom A l

/-- `[k._Hjax(x, d=d, full=full) for k in self._tfcClasses]`. utfc.py 430, 452, 474, 496, 518, 540. -/
noncomputable def hybridList (classes : List Utfc) (n : ℕ) (xs : ℕ → ℝ) (d : ℕ) (full : Bool) : Except Err (List (Mat ℝ)) :=
  classes.mapM fun k => k.Hjax n xs d full

/-- The body shared by the six methods, with the literal `d` of each. utfc.py 411–541. -/
noncomputable def hybridBody (classes : List Utfc) (n : ℕ) (xs : ℕ → ℝ) (d : ℕ) (full : Bool) : Except Err (Mat ℝ) := do
  let l ← hybridList classes n xs d full
  hstackAll l

/-- `HybridUtfc.H`, utfc.py 411–431. -/
noncomputable def hybridH (s : List Utfc) (n : ℕ) (xs : ℕ → ℝ) (full : Bool) := hybridBody s n xs 0 full
/-- `HybridUtfc.dH`, utfc.py 433–453. -/
noncomputable def hybriddH (s : List Utfc) (n : ℕ) (xs : ℕ → ℝ) (full : Bool) := hybridBody s n xs 1 full
/-- `HybridUtfc.d2H`, utfc.py 455–475. -/
noncomputable def hybridd2H (s : List Utfc) (n : ℕ) (xs : ℕ → ℝ) (full : Bool) := hybridBody s n xs 2 full
/-- `HybridUtfc.d3H`, utfc.py 477–497. -/
noncomputable def hybridd3H (s : List Utfc) (n : ℕ) (xs : ℕ → ℝ) (full : Bool) := hybridBody s n xs 3 full
/-- `HybridUtfc.d4H`, utfc.py 499–519. -/
noncomputable def hybridd4H (s : List Utfc) (n : ℕ) (xs : ℕ → ℝ) (full : Bool) := hybridBody s n xs 4 full
/-- `HybridUtfc.d8H`, utfc.py 521–541. -/
noncomputable def hybridd8H (s : List Utfc) (n : ℕ) (xs : ℕ → ℝ) (full : Bool) := hybridBody s n xs 8 full

end Verif.Model.Py
