import Verif.Model.ElmSet

/-! # What setting weights and biases should do -/

namespace Verif.Spec

open Verif.Model

variable {A V : Type}

/-- The array of an assignment. -/
def SetOp.arr : SetOp A → A
  | .w a => a
  | .b a => a

/-- The weights after a history of assignments: the last ones assigned, or the initial ones. -/
def lastW (val : A → V) (w0 : V) : List (SetOp A) → V
  | [] => w0
  | .w a :: ops => lastW val (val a) ops
  | .b _ :: ops => lastW val w0 ops

/-- The biases after a history of assignments. -/
def lastB (val : A → V) (b0 : V) : List (SetOp A) → V
  | [] => b0
  | .w _ :: ops => lastB val b0 ops
  | .b a :: ops => lastB val (val a) ops

/-- A numpy array all of whose elements exist in its memory block. -/
def NdArr.Full {α : Type} (a : NdArr α) : Prop := ∀ k < a.size, (a.entry k).isSome

/-- `a.ravel()[k]`. -/
def NdArr.val {α : Type} [Zero α] (a : NdArr α) (k : ℕ) : α := (a.entry k).getD 0

/-- The elements lie one after the other in C order. -/
def NdArr.Contiguous {α : Type} (a : NdArr α) : Prop := ∀ k < a.size, strideOffset a.shape a.strides k = k

/-- The assignments with arrays of the right size. -/
def accepted (sw sb : ℕ) (size : A → ℕ) : List (SetOp A) → List (SetOp A) :=
  List.filter fun op => match op with
    | .w a => size a = sw
    | .b a => size a = sb

end Verif.Spec
