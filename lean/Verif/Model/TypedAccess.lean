import Verif.Model.StateField
/-
Access to fields by type.  A `Field &` refers to an object of class `TypedField<T>` for one element type `T`
(`Field.ty`).  `dynamic_cast` looks at that type; `static_cast` does not, so that a cast to another class
(`TypedField<T'>` with `T' ≠ T`) is undefined behaviour.
-/
namespace Verif.Collection
open Verif Verif.Ccoord Verif.Layout

variable {α U : Type}

namespace Field

/-- `static_cast<TypedField<T> &>(field)`: field_typed.hh 595 and 651, state_field.cc 153-184,
bind_py_field_collection.cc 400-427, state_field_map.cc 51 and 63. -/
def castTo (ty : ElemType) (f : Field α U) : Res (Field α U) :=
  if f.ty = ty then .ok f else .ub

/-- `Field::assert_typeid`, field.cc 69-76. -/
def assertType (ty : ElemType) (f : Field α U) : Res Unit :=
  if f.ty ≠ ty then .throw .runtimeError else .ok ()

/-- `TypedField<T>::safe_cast(field)`, field_typed.cc 114-141. -/
def safeCast (ty : ElemType) (f : Field α U) : Res (Field α U) :=
  if f.ty = ty then .ok f else .throw .fieldError

/-- `TypedField<T>::safe_cast(field, nb_components, sub_division)`, field_typed.cc 144-189. -/
def safeCastWith (ty : ElemType) (nb : Int) (tag : String) (f : Field α U) : Res (Field α U) :=
  if f.nbComp ≠ nb then .throw .fieldError
  else if f.tag ≠ tag then .throw .fieldError
  else f.safeCast ty

end Field

/-- `static_cast<TypedStateField<T> &>(field)`, state_field.hh 319. -/
def StateField.castTo (ty : ElemType) (s : StateField U) : Res (StateField U) :=
  if s.ty = ty then .ok s else .ub

namespace Coll
variable [Inhabited α] [DecidableEq U]

/-- `FieldCollection::get_field`, field_collection.cc 407-414. -/
def getField (c : Coll α U) (name : String) : Res (Field α U) :=
  match c.fields.find name with
  | none => .throw .fieldCollectionError
  | some f => .ok f

/-- `FieldCollection::get_state_field`, field_collection.cc 430-438. -/
def getState (c : Coll α U) (pre : String) : Res (StateField U) :=
  match c.states.find pre with
  | none => .throw .fieldCollectionError
  | some s => .ok s

/-- `get_real_field`, `get_complex_field`, `get_int_field`, `get_uint_field` of python,
bind_py_field_collection.cc 394-429, for the element type `ty`. -/
def pyGetTyped (c : Coll α U) (ty : ElemType) (name : String) : Res (Field α U) := do
  let f ← c.getField name
  f.assertType ty
  f.castTo ty

/-- The reference `register_field` returns, field_typed.hh 564-680: that of the registered field, for a field
registered before after a cast. -/
def registerRef (c : Coll α U) (name : String) (ty : ElemType) (comps : Comps) (tag : String) (unit : U)
    (allow : Bool) : Res (Field α U) × Coll α U :=
  match c.register name ty comps tag unit allow with
  | (.ok _, c1) => (c1.getField name >>= Field.castTo ty, c1)
  | (.throw e, c1) => (.throw e, c1)
  | (.ub, c1) => (.ub, c1)

/-- The reference `register_state_field` returns, state_field.hh 282-344. -/
def registerStateRef (c : Coll α U) (pre : String) (ty : ElemType) (nbMemory nbComp : Int) (tag : String)
    (unit : U) (allow : Bool) : Res (StateField U) × Coll α U :=
  match c.registerState pre ty nbMemory nbComp tag unit allow with
  | (.ok _, c1) => (c1.getState pre >>= StateField.castTo ty, c1)
  | (.throw e, c1) => (.throw e, c1)
  | (.ub, c1) => (.ub, c1)

/-- `TypedStateField<T>::current`, state_field.cc 153-172, of the state field registered under `pre`, taken for
one of element type `ty`. -/
def typedCurrent (c : Coll α U) (ty : ElemType) (pre : String) : Res (Field α U) :=
  c.stateCurrent pre >>= Field.castTo ty

/-- `TypedStateField<T>::old`, state_field.cc 175-184. -/
def typedOld (c : Coll α U) (ty : ElemType) (pre : String) (k : Nat) : Res (Field α U) :=
  c.stateOld pre k >>= Field.castTo ty

/-- The field `this->fields[j]` of a state field (`get_fields`, state_field.cc 187-190) after the cast of
`StateFieldMap::make_maps` and `make_cmaps`, state_field_map.cc 46-67. -/
def typedSlot (c : Coll α U) (ty : ElemType) (pre : String) (j : Nat) : Res (Field α U) := do
  let s ← c.getState pre
  let n ← s.slotName j
  match c.fields.find n with
  | some f => f.castTo ty
  | none => .ub

end Coll
end Verif.Collection
