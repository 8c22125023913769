import Verif.Model.Dict

/-! # Dictionaries of arrays as a reader sees them -/

namespace Verif.Spec

open Verif.Model.Dict

variable {Key K : Type}

/-- Keys with the present contents of the arrays, in order. -/
def content (h : Heap K) (items : List (Key × Val K)) : List (Key × Arr K) := items.map fun p => (p.1, p.2.arr h)

/-- All entries of all arrays, one after the other. -/
def flat (h : Heap K) (items : List (Key × Val K)) : List K := (items.map fun p => (p.2.arr h).data).flatten

/-- What the class is made for: `TFCDict` one-dimensional arrays (JAX or numpy), `TFCDictRobust` JAX arrays of any shape. -/
def Suits (cls : DictClass) (h : Heap K) (v : Val K) : Prop :=
  match cls with
  | .plain => (v.arr h).shape = [(v.arr h).data.length]
  | .robust => (v.arr h).shape.prod = (v.arr h).data.length ∧ ∃ a, v = .jax a

/-- The keys and shapes of an association list. -/
def outline (h : Heap K) (items : List (Key × Val K)) : List (Key × List ℕ) := items.map fun p => (p.1, (p.2.arr h).shape)

end Verif.Spec
