import Verif.Np
import Mathlib.Algebra.BigOperators.Group.Finset.Basic
import Mathlib.Algebra.Ring.Defs

/-!
# Model of `CeSolver`: /repo/src/tfc/utils/CeSolver.py 10–369

Expressions are elements of a commutative ring: two sympy expressions equal as functions are the same element. Constraint
operators are functions on that ring; operators that return matrices (`nc_simplify`, lines 197–200) are not modelled.
sympy's matrix inverse is a parameter `inv`. A method returns its value or the exception together with the object's new
state, because the caches filled before an exception stay filled.
-/

namespace Verif.Model.CeSolver

open Verif.Py Verif.Np

variable {A : Type}

/-- A `CeSolver` object. A cache attribute that does not exist yet is `none`. CeSolver.py 65–74. -/
structure Solver (A : Type) where
  C : List (A → A)
  K : List A
  s : List A
  g : A
  ce : Option A := none
  S : Option (Mat A) := none
  alpha : Option (Mat A) := none
  phi : Option (Mat A) := none
  rho : Option (Mat A) := none
  ceStale : Bool := true
  SStale : Bool := true
  alphaStale : Bool := true
  phiStale : Bool := true
  rhoStale : Bool := true

/-- `CeSolver.__init__`, CeSolver.py 65–74. -/
def init (C : List (A → A)) (K s : List A) (g : A) : Solver A := { C := C, K := K, s := s, g := g }

/-- Reading an attribute. Python attribute access, e.g. CeSolver.py 114, 143, 171, 210, 226. -/
def getAttr {α : Type} : Option α → Except Err α
  | none => .error .attributeError
  | some a => .ok a

/-- `sp.Matrix(l)` for a list of expressions: a column; the empty list gives the `0 × 0` matrix. -/
def colMatrix [Zero A] (l : List A) : Mat A := ⟨l.length, if l.length = 0 then 0 else 1, fun i _ => l.getD i 0⟩

/-- `M.transpose()`. Used at CeSolver.py 141. -/
def transpose (M : Mat A) : Mat A := ⟨M.cols, M.rows, fun i j => M.at_ j i⟩

/-- `M * N` for sympy matrices; shapes that do not fit raise `ShapeError`, a `ValueError`. Used at CeSolver.py 141, 350. -/
def mul [NonUnitalNonAssocSemiring A] (M N : Mat A) : Except Err (Mat A) :=
  if M.cols = N.rows then .ok ⟨M.rows, N.cols, fun i j => ∑ l ∈ Finset.range M.cols, M.at_ i l * N.at_ l j⟩ else .error .valueError

/-- `M[0]`: the first entry, an `IndexError` if there is none. -/
def first (M : Mat A) : Except Err A := if M.rows = 0 ∨ M.cols = 0 then .error .indexError else .ok (M.at_ 0 0)

/-- `sp.Matrix([[c(s) for s in self._s] for c in self._C])`, CeSolver.py 208: no operators give the `0 × 0` matrix. -/
def supportMatrix [Zero A] (C : List (A → A)) (s : List A) : Mat A :=
  ⟨C.length, if C.length = 0 then 0 else s.length, fun i j => (C.getD i fun _ => 0) (s.getD j 0)⟩

/-- The property `S`, CeSolver.py 173–210. -/
def readS [Zero A] (σ : Solver A) : Except Err (Mat A) × Solver A :=
  if σ.SStale then
    let M := supportMatrix σ.C σ.s
    (.ok M, { σ with S := some M, SStale := false })
  else (getAttr σ.S, σ)

/-- The statement `self._alpha = self.S.inv()`, CeSolver.py 168–169, after `self.S` was read. -/
def storeAlpha (inv : Mat A → Except Err (Mat A)) : Except Err (Mat A) × Solver A → Except Err (Mat A) × Solver A
  | (.error e, σ) => (.error e, σ)
  | (.ok M, σ) =>
    match inv M with
    | .error e => (.error e, σ)
    | .ok N => (.ok N, { σ with alpha := some N, alphaStale := false })

/-- The property `alpha`, CeSolver.py 158–171. -/
def readAlpha [Zero A] (inv : Mat A → Except Err (Mat A)) (σ : Solver A) : Except Err (Mat A) × Solver A :=
  if σ.alphaStale then storeAlpha inv (readS σ) else (getAttr σ.alpha, σ)

/-- The statements CeSolver.py 140–141, after `self.alpha` was read. -/
def storePhi [NonUnitalNonAssocSemiring A] (sVec : Mat A) : Except Err (Mat A) × Solver A → Except Err (Mat A) × Solver A
  | (.error e, σ) => (.error e, σ)
  | (.ok N, σ) =>
    match mul (transpose sVec) N with
    | .error e => (.error e, σ)
    | .ok p => (.ok p, { σ with phi := some p, phiStale := false })

/-- The property `phi`, CeSolver.py 129–143. -/
def readPhi [NonUnitalNonAssocSemiring A] (inv : Mat A → Except Err (Mat A)) (σ : Solver A) : Except Err (Mat A) × Solver A :=
  if σ.phiStale then storePhi (colMatrix σ.s) (readAlpha inv σ) else (getAttr σ.phi, σ)

/-- The list comprehension of `rho`, CeSolver.py 223–225, from index `k` on: `self._C[k]` may not exist. -/
def rhoList [Ring A] (C : List (A → A)) (g : A) : ℕ → List A → Except Err (List A)
  | _, [] => .ok []
  | k, κ :: K =>
    match C[k]? with
    | none => .error .indexError
    | some c => (rhoList C g (k + 1) K).map ((κ + -(c g)) :: ·)

/-- The property `rho`, CeSolver.py 212–226. The flag is not cleared. -/
def readRho [Ring A] (σ : Solver A) : Except Err (Mat A) × Solver A :=
  if σ.rhoStale then
    match rhoList σ.C σ.g 0 σ.K with
    | .error e => (.error e, σ)
    | .ok l => (.ok (colMatrix l), { σ with rho := some (colMatrix l) })
  else (getAttr σ.rho, σ)

/-- The last statement of `_solveCe`, CeSolver.py 350, after `self.phi` and `self.rho` were read. -/
def storeCe [Ring A] (p : Mat A) : Except Err (Mat A) × Solver A → Except Err A × Solver A
  | (.error e, σ) => (.error e, σ)
  | (.ok r, σ) =>
    match (mul p r).bind first with
    | .error e => (.error e, σ)
    | .ok x => (.ok (σ.g + x), { σ with ce := some (σ.g + x) })

/-- `_solveCe`, CeSolver.py 346–350: `self.phi` is read before `self.rho`. -/
def solveCe [Ring A] (inv : Mat A → Except Err (Mat A)) (σ : Solver A) : Except Err A × Solver A :=
  match readPhi inv σ with
  | (.error e, σ) => (.error e, σ)
  | (.ok p, σ) => storeCe p (readRho σ)

/-- The end of the property `ce`. CeSolver.py 113–114. -/
def clearCe : Except Err A × Solver A → Except Err A × Solver A
  | (.error e, σ) => (.error e, σ)
  | (.ok x, σ) => (.ok x, { σ with ceStale := false })

/-- The property `ce`, CeSolver.py 101–114. -/
def readCe [Ring A] (inv : Mat A → Except Err (Mat A)) (σ : Solver A) : Except Err A × Solver A :=
  if σ.ceStale then clearCe (solveCe inv σ) else (getAttr σ.ce, σ)

/-- The setter of `ce`, CeSolver.py 116–127. -/
def setCe (σ : Solver A) (e : A) : Solver A := { σ with ceStale := false, ce := some e }

/-- The setter of `phi`, CeSolver.py 145–156. -/
def setPhi (σ : Solver A) (p : Mat A) : Solver A := { σ with phi := some p, phiStale := false }

/-- The setter of `s`, CeSolver.py 240–257. -/
def setS (σ : Solver A) (s : List A) : Solver A :=
  { σ with s := s, SStale := true, alphaStale := true, phiStale := true, ceStale := true }

/-- The setter of `kappa`, CeSolver.py 271–285. -/
def setKappa (σ : Solver A) (K : List A) : Solver A := { σ with K := K, rhoStale := true, ceStale := true }

/-- The setter of `C`, CeSolver.py 299–317. -/
def setC (σ : Solver A) (C : List (A → A)) : Solver A :=
  { σ with C := C, SStale := true, alphaStale := true, phiStale := true, rhoStale := true, ceStale := true }

/-- The setter of `g`, CeSolver.py 331–344. -/
def setG (σ : Solver A) (g : A) : Solver A := { σ with g := g, ceStale := true, rhoStale := true }

/-- `[sp.simplify(c(self.ce)) == sp.simplify(k) for c, k in zip(self._C, self._K)]`, CeSolver.py 361: `self.ce` is read for every pair. -/
def checks [Ring A] {F : Type} [DecidableEq F] (inv : Mat A → Except Err (Mat A)) (simplify : A → F) :
    List ((A → A) × A) → Solver A → Except Err (List Bool) × Solver A
  | [], σ => (.ok [], σ)
  | (c, κ) :: l, σ =>
    match readCe inv σ with
    | (.error e, σ) => (.error e, σ)
    | (.ok x, σ) =>
      match checks inv simplify l σ with
      | (.error e, σ) => (.error e, σ)
      | (.ok bs, σ) => (.ok (decide (simplify (c x) = simplify κ) :: bs), σ)

/-- The loop over the checks, CeSolver.py 362–368: each failed check reads `self.ce` once more for its warning. -/
def warnings [Ring A] (inv : Mat A → Except Err (Mat A)) : List Bool → Bool → Solver A → Except Err Bool × Solver A
  | [], ret, σ => (.ok ret, σ)
  | true :: bs, ret, σ => warnings inv bs ret σ
  | false :: bs, _, σ =>
    match readCe inv σ with
    | (.error e, σ) => (.error e, σ)
    | (.ok _, σ) => warnings inv bs false σ

/-- `checkCe`, CeSolver.py 352–369. The printed warnings are not modelled. -/
def checkCe [Ring A] {F : Type} [DecidableEq F] (inv : Mat A → Except Err (Mat A)) (simplify : A → F) (σ : Solver A) :
    Except Err Bool × Solver A :=
  match checks inv simplify (σ.C.zip σ.K) σ with
  | (.error e, σ) => (.error e, σ)
  | (.ok bs, σ) => warnings inv bs true σ

/-- What a user can do with the object. The properties, setters and methods CeSolver.py 76–369. -/
inductive Op (A : Type)
  | readCe | readPhi | readAlpha | readS | readRho | checkCe
  | setC (C : List (A → A)) | setKappa (K : List A) | setS (s : List A) | setG (g : A)
  | setPhi (p : Mat A) | setCe (e : A)

/-- One step of a history. An exception is caught by the user. The properties and methods CeSolver.py 76–369. -/
def step [Ring A] {F : Type} [DecidableEq F] (inv : Mat A → Except Err (Mat A)) (simplify : A → F) (σ : Solver A) : Op A → Solver A
  | .readCe => (CeSolver.readCe inv σ).2
  | .readPhi => (CeSolver.readPhi inv σ).2
  | .readAlpha => (CeSolver.readAlpha inv σ).2
  | .readS => (CeSolver.readS σ).2
  | .readRho => (CeSolver.readRho σ).2
  | .checkCe => (CeSolver.checkCe inv simplify σ).2
  | .setC C => CeSolver.setC σ C
  | .setKappa K => CeSolver.setKappa σ K
  | .setS s => CeSolver.setS σ s
  | .setG g => CeSolver.setG σ g
  | .setPhi p => CeSolver.setPhi σ p
  | .setCe e => CeSolver.setCe σ e

end Verif.Model.CeSolver
