import Verif.Py
import Mathlib.Data.Complex.Basic
import Mathlib.Data.Matrix.Mul

/-!
# Model of `ComponentConstraintGraph`: /repo/src/tfc/utils/TFCUtils.py 1525–1684

Floating-point arithmetic in `np.linalg.eigvals` is not modelled: the eigenvalues are exact.
-/

namespace Verif.Model.Graph

open Verif.Py

/-- A `ComponentConstraintDict`, TFCUtils.py 1519–1522. -/
structure Edge where
  name : String
  node0 : String
  node1 : String
  deriving DecidableEq

/-- `list(itertools.product([0, 1], repeat=n))`, TFCUtils.py 1562: the last position changes fastest. -/
def productBits : ℕ → List (List Bool)
  | 0 => [[]]
  | n + 1 => (productBits n).map (false :: ·) ++ (productBits n).map (true :: ·)

/-- `adj[i, j] = 1.0`. -/
def setOne (adj : ℕ → ℕ → ℝ) (i j : ℕ) : ℕ → ℕ → ℝ := fun a b => if a = i ∧ b = j then 1 else adj a b

/-- The body of the two inner loops, TFCUtils.py 1571–1576. -/
def adjStep (N : List String) (kNode : String) (adj : ℕ → ℕ → ℝ) (e : Edge) (target : Bool) : ℕ → ℕ → ℝ :=
  if e.node0 = kNode then
    if target then setOne adj (N.idxOf e.node1) (N.idxOf e.node0) else adj
  else if e.node1 = kNode then
    if !target then setOne adj (N.idxOf e.node0) (N.idxOf e.node1) else adj
  else adj

/-- The matrix `adj` for one element of `targets`, TFCUtils.py 1567–1576. -/
def adjacency (N : List String) (E : List Edge) (target : List Bool) : ℕ → ℕ → ℝ :=
  N.foldl (fun adj kNode => (E.zip target).foldl (fun adj p => adjStep N kNode adj p.1 p.2) adj) fun _ _ => 0

/-- `np.all(np.linalg.eigvals(adj) == 0.0)`, TFCUtils.py 1577, for an `n × n` matrix: 0 is the only complex eigenvalue. -/
def allEigvalsZero (n : ℕ) (adj : ℕ → ℕ → ℝ) : Prop :=
  ∀ (μ : ℂ) (v : Fin n → ℂ), v ≠ 0 → (Matrix.of fun i j : Fin n => (adj i j : ℂ)).mulVec v = μ • v → μ = 0

/-- A `ComponentConstraintGraph` object. TFCUtils.py 1530–1582. -/
structure Graph where
  N : List String
  E : List Edge
  targets : List (List Bool)
  goodTargets : List ℕ

open Classical in
/-- `ComponentConstraintGraph.__init__`, TFCUtils.py 1530–1582. -/
noncomputable def Graph.init (N : List String) (E : List Edge) : Except Err Graph :=
  if E.any (fun e => !(decide (e.node0 ∈ N) && decide (e.node1 ∈ N))) then .error .exit
  else
    let targets := productBits E.length
    .ok ⟨N, E, targets, (List.range targets.length).filter fun j =>
      decide (allEigvalsZero N.length (adjacency N E (targets.getD j [])))⟩

/-! ### Drawing -/

/-- One drawn tree: boxes, and arrows with tail, head and label. TFCUtils.py 1649–1659. -/
structure Drawing where
  nodes : List String
  arrows : List (String × String × String)
  deriving DecidableEq

/-- The arrow for one edge, TFCUtils.py 1652–1659. -/
def arrow (e : Edge) (target : Bool) : String × String × String :=
  if !target then (e.node0, e.node1, e.name) else (e.node1, e.node0, e.name)

/-- The targets drawn by `SaveGraphs`, TFCUtils.py 1603–1606. -/
def Graph.drawn (G : Graph) (allGraphs : Bool) : List (List Bool) :=
  if allGraphs then G.targets else G.goodTargets.map fun k => G.targets.getD k []

/-- The trees drawn by `SaveGraphs`, TFCUtils.py 1645–1659, in order; files and formats are not modelled. -/
def Graph.trees (G : Graph) (allGraphs : Bool) : List Drawing :=
  (G.drawn allGraphs).map fun target => ⟨G.N, (G.E.zip target).map fun p => arrow p.1 p.2⟩

/-- The rows of the overview page, TFCUtils.py 1615–1626: the numbers of the trees shown in each row. -/
def mainRows (n : ℕ) : List (List ℕ) :=
  (List.range ((n + 4) / 5)).map fun j => (List.range (min 5 (n - j * 5))).map (j * 5 + ·)

end Verif.Model.Graph
