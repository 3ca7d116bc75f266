import Verif.Model.Collection
/-
Access to the fields of a state field: `/repo/src/libmugrid/state_field.cc` 93-113.
-/
namespace Verif.Collection
open Verif Verif.Ccoord Verif.Layout

variable {α U : Type}

/-- `this->fields[j]` for the sub-field references of a state field (state_field.cc 100-113), by name.
Once a sub-field was popped from its collection none is followed (`ub`), see `Coll.pop`. -/
def StateField.slotName (s : StateField U) (j : Nat) : Res String :=
  match s.names[j]? with
  | some n => .ok n
  | none => .ub

namespace Coll
variable [Inhabited α] [DecidableEq U]

/-- Name of the field `StateField::current` returns, state_field.cc 100-105. -/
def currentName (c : Coll α U) (pre : String) : Res String :=
  match c.states.find pre with
  | none => .throw .fieldCollectionError
  | some s =>
      match s.indices[0]? with
      | some j => s.slotName j
      | none => .ub

/-- `StateField::current`, state_field.cc 100-105. -/
def stateCurrent (c : Coll α U) (pre : String) : Res (Field α U) :=
  match c.currentName pre with
  | .ok n => match c.fields.find n with | some f => .ok f | none => .ub
  | .throw e => .throw e
  | .ub => .ub

/-- `StateField::old`, state_field.cc 108-110: `indices.at(nb_steps_ago)` throws
`std::out_of_range`. -/
def stateOld (c : Coll α U) (pre : String) (k : Nat) : Res (Field α U) :=
  match c.states.find pre with
  | none => .throw .fieldCollectionError
  | some s =>
      match s.indices[k]? with
      | none => .throw .outOfRange
      | some j =>
          match s.slotName j with
          | .ok n => match c.fields.find n with | some f => .ok f | none => .ub
          | .throw e => .throw e
          | .ub => .ub

/-- Calls a program makes on a state field and on other fields: any member function of the current
field (state_field.cc 100), `cycle` (93), any member function of a field of the same collection. -/
inductive StOp (α U : Type)
  | onCurrent (op : Field α U → Res Unit × Field α U)
  | cycle
  | onOther (name : String) (op : Field α U → Res Unit × Field α U)

/-- One such call on the state field `pre`.  The calls are cited at their definitions.
For state_field.hh 73-260. -/
def stStep (c : Coll α U) (pre : String) : StOp α U → Res Unit × Coll α U
  | .onCurrent op =>
      match c.currentName pre with
      | .ok n => c.onField n op
      | .throw e => (.throw e, c)
      | .ub => (.ub, c)
  | .cycle => c.cycle pre
  | .onOther name op => c.onField name op

/-- A sequence of such calls; exceptions are caught, undefined behaviour ends the program.
Programs are not part of /repo. For state_field.hh 73-260. -/
def stRun (c : Coll α U) (pre : String) : List (StOp α U) → Option (Coll α U)
  | [] => some c
  | op :: ops =>
      match c.stStep pre op with
      | (.ub, _) => none
      | (_, c') => stRun c' pre ops

end Coll
end Verif.Collection
