import Verif.Model.Registry

/-!
# Basis objects without addresses and identifiers

The intended meaning of a history: a list of independent objects in order of creation. Only the class-level operations
(`Ctor.build`, `CObj.assignW`, `CObj.assignB`) are shared with the model of the registry.
-/

namespace Verif.Spec

open Verif.Py Verif.Model Verif.Model.CC

/-- Apply a partial operation to entry `h` of a list. -/
def modifyAt (objs : List CObj) (h : ℕ) (f : CObj → Except Err CObj) : Except Err (List CObj) :=
  match objs[h]? with
  | none => .error .nameError
  | some o => do
    let o ← f o
    .ok (objs.set h o)

/-- One operation on the list of all objects created so far. Destroying an object has no effect on the others. -/
noncomputable def objStep (objs : List CObj) : Op → Except Err (List CObj)
  | .create _ c => do
    let o ← Model.Py.liftCC c.build
    .ok (objs ++ [o])
  | .destroy _ => .ok objs
  | .assignW h a => modifyAt objs h (·.assignW a)
  | .assignB h a => modifyAt objs h (·.assignB a)
  | .assignIdentifier _ _ => .ok objs

/-- The objects after a history. -/
noncomputable def objStates (ops : List Op) : Except Err (List CObj) := ops.foldlM objStep []

/-- The operation assigns to the attribute `identifier`. -/
def AssignsIdentifier : Op → Prop
  | .assignIdentifier _ _ => True
  | _ => False

/-- The attribute `identifier` of the object behind wrapper `h`. -/
def identifierOf (p : Proc) (h : ℕ) : Option ℕ :=
  match p.deref h with
  | .ok (_, cell) => some cell.identifier
  | .error _ => none

end Verif.Spec
