import Verif.Model.MapLife
/-
Fields together with their map: `/repo/src/libmugrid/mapped_field.hh`, `optional_mapped_field.hh`,
`mapped_state_field.hh`; statically sized maps over state fields: `state_field_map_static.hh`; the mean of a
static map: `field_map_static.hh` 632-642.

The arithmetic operators of mapped fields (mapped_field.hh 152-175) are those of their fields and not
repeated here.
-/
namespace Verif.Collection
open Verif Verif.Ccoord Verif.Layout

variable {α U : Type}

/-- The two families of mapped fields: with the shape of the iterate fixed at compile time
(`IsStatic()`, mapped_field.hh 68), or given to the constructor. -/
inductive MappedKind
  | static (r k : Int) (it : IterUnit)
  | dynamic (r k : Int) (it : IterUnit)
  deriving DecidableEq, Repr

/-- What the field is registered with: `FieldMapType::Stride()` components (mapped_field.hh 80-81) or
components of shape `{nb_rows, nb_cols}` (107-108). -/
def MappedKind.comps : MappedKind → Comps
  | .static r k _ => .num (r * k)
  | .dynamic r k _ => .shape [r, k]

/-- How the map is made, mapped_field.hh 82 and 109. -/
def MappedKind.map : MappedKind → MapKind
  | .static r k _ => .static r k
  | .dynamic r _ _ => .rows r

/-- Pixels or sub-points.  mapped_field.hh. -/
def MappedKind.iter : MappedKind → IterUnit
  | .static _ _ it => it
  | .dynamic _ _ it => it

/-- A mapped field: reference to the field and the map (its number), mapped_field.hh 208-209. -/
structure Mapped where
  name : String
  map : Nat
  deriving DecidableEq, Repr

namespace Maps
variable [Inhabited α] [DecidableEq U]

/-- Constructors from a field that exists, mapped_field.hh 117-134. -/
def mappedOn (s : Maps α U) (name : String) (kind : MappedKind) : Res Mapped × Maps α U :=
  match s.make name kind.iter kind.map with
  | (.ok _, s') => (.ok ⟨name, s.maps.length⟩, s')
  | (.throw e, s') => (.throw e, s')
  | (.ub, s') => (.ub, s')

/-- Constructors that register the field, mapped_field.hh 72-113: the field is registered first and stays
when the construction of the map throws. -/
def mapped (srt : SortFn) (s : Maps α U) (name : String) (ty : ElemType) (kind : MappedKind) (tag : String)
    (unit : U) : Res Mapped × Maps α U :=
  match s.call srt (.register name ty kind.comps tag unit false) with
  | (.ok _, s1) => s1.mappedOn name kind
  | (.throw e, s1) => (.throw e, s1)
  | (.ub, s1) => (.ub, s1)

end Maps

/-- `OptionalMappedField`, optional_mapped_field.hh 50-102: what the field will be registered with, and the
mapped field once it exists (`field_exists` and `mapped_field`).  The unit is that of
`Unit::unitless()`. -/
structure OptionalMapped (U : Type) where
  name : String
  tag : String
  ty : ElemType
  unit : U
  kind : MappedKind
  held : Option Mapped

namespace OptionalMapped
variable [Inhabited α] [DecidableEq U]

/-- `has_value`, optional_mapped_field.hh 79. -/
def hasValue (o : OptionalMapped U) : Bool := o.held.isSome

/-- `get`, optional_mapped_field.hh 85-92: `field_exists` is set only after a successful construction. -/
def get (srt : SortFn) (o : OptionalMapped U) (s : Maps α U) : Res Mapped × OptionalMapped U × Maps α U :=
  match o.held with
  | some m => (.ok m, o, s)
  | none =>
      match s.mapped srt o.name o.ty o.kind o.tag o.unit with
      | (.ok m, s') => (.ok m, { o with held := some m }, s')
      | (.throw e, s') => (.throw e, o, s')
      | (.ub, s') => (.ub, o, s')

end OptionalMapped

namespace StateFieldMap
variable [Inhabited α] [DecidableEq U]

/-- `map_helper`, state_field_map_static.hh 280-292: a static map on every sub-field. -/
def makeStaticMaps (c : Coll α U) (r k : Int) (it : IterUnit) : List String → Res (List FieldMap)
  | [] => .ok []
  | n :: names => do
      let m ← FieldMap.mkStatic c n r k it
      let ms ← makeStaticMaps c r k it names
      pure (m :: ms)

/-- Constructor of `StaticStateFieldMap` with iterates of shape `r × k` and memory `N`,
state_field_map_static.hh 97-99 and 294-319: that of the base class with default rows, the check of the
memory, and the maps (those of constant type are the same).  The maps of the base class are not used by the
functions of the static class and are left out. -/
def mkStatic (c : Coll α U) (pre : String) (r k : Int) (N : Nat) (it : IterUnit) : Res StateFieldMap :=
  match c.states.find pre with
  | none => .throw .fieldCollectionError
  | some s => do
      let _ ← mk' c pre none it
      if s.nbMemory ≠ N then .throw .fieldMapError
      else do
        let maps ← makeStaticMaps c r k it s.names
        pure ⟨pre, it, r, maps⟩

/-- `operator[]` and the iterator's dereference of static maps, state_field_map_static.hh 186-189,
233-243 and 247-254: the current entry and `N` old ones. -/
def getStatic (c : Coll α U) (sm : StateFieldMap) (N index : Nat) : Res (List (List α)) :=
  wrapper c sm N index

/-- Constructor of `MappedStateField`, mapped_state_field.hh 69-76: the state field is registered first and
stays when the construction of the map throws. -/
def mapped (c : Coll α U) (pre : String) (ty : ElemType) (r k : Int) (N : Nat) (it : IterUnit) (tag : String)
    (unit : U) : Res StateFieldMap × Coll α U :=
  match c.registerState pre ty N (r * k) tag unit false with
  | (.ok _, c1) => (mkStatic c1 pre r k N it, c1)
  | (.throw e, c1) => (.throw e, c1)
  | (.ub, c1) => (.ub, c1)

end StateFieldMap

namespace FieldMap
variable [Inhabited α] [DecidableEq U]

/-- `StaticFieldMap::mean`, field_map_static.hh 632-642: the sum times one over the number of iterates,
which are not numbers if there are none (`none`). -/
def meanStatic [Zero α] [Add α] [Div α] [NatCast α] (c : Coll α U) (m : FieldMap) : Res (Option (List α)) := do
  let vals ← iterate c m
  let n ← size c m
  let s := vals.foldl (fun s v => List.zipWith (· + ·) s v) (List.replicate (m.rows * m.cols).toNat (0 : α))
  pure (if n = 0 then none else some (s.map (· / (n : α))))

end FieldMap
end Verif.Collection
