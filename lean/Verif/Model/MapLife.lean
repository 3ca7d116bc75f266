import Verif.Model.FieldMap
/-
The life of field maps: construction before or after the collection is initialised, the callbacks that
set their pointers (`/repo/src/libmugrid/field_map.cc` 46-121, `field_collection.cc` 396-404 and
460-466), moves, destruction, and what reallocation of a field's buffer does to them.

`Verif.Model.FieldMap` has maps without pointers; here a map knows the field object its reference was
bound to and the buffer its `data_ptr` points into.  A field object is identified by its name and the
number of times a field of this name had been removed before; a buffer likewise by a counter that goes up
whenever the buffer may have moved.  `std::vector` may keep its memory when it grows within its capacity;
here every growth moves it, so that what is defined in the model is defined for every implementation.
-/
namespace Verif.Collection
open Verif Verif.Ccoord Verif.Layout

variable {α U : Type}

/-- A map object, field_map.hh 343-358: `obj` identifies the object `field` refers to, `ptr` is
`data_ptr` (`none`: null or dangling). -/
structure MapObj where
  map : FieldMap
  obj : Nat
  ptr : Option Nat
  deriving DecidableEq, Repr

/-- How a map is made: `FieldMap(field, iter)`, `FieldMap(field, nb_rows, iter)` (field_map.cc 46-99) or
`StaticFieldMap(field)` (field_map_static.hh 106-121). -/
inductive MapKind
  | default
  | rows (r : Int)
  | static (r k : Int)
  deriving DecidableEq, Repr

/-- A collection and the maps on its fields.  A map is named by its place in `maps`, which keeps `none`
for destroyed maps; `pending` is `init_callbacks`, field_collection.hh 861: the callback of a destroyed map
has expired. -/
structure Maps (α U : Type) where
  coll : Coll α U
  objs : String → Nat
  bufs : String → Nat
  maps : List (Option MapObj)
  pending : List Nat

namespace Maps
variable [Inhabited α] [DecidableEq U]

/-- A collection without maps.  Model only. For field_map.cc 48-264. -/
def start (c : Coll α U) : Maps α U := ⟨c, fun _ => 0, fun _ => 0, [], []⟩

/-- The members of the map a constructor computes.  field_map.cc 46-99, field_map_static.hh 106-121. -/
def mkMap (c : Coll α U) (name : String) (it : IterUnit) : MapKind → Res FieldMap
  | .default => FieldMap.mkDefault c name it
  | .rows r => FieldMap.mkRows c name r it
  | .static r k => FieldMap.mkStatic c name r k it

/-- `FieldMap::set_data_ptr`, field_map.cc 190-198.  A reference to a field that is gone is undefined. -/
def setPtr (s : Maps α U) (o : MapObj) : Res MapObj :=
  match s.coll.fields.find o.map.name with
  | none => .ub
  | some f =>
      if s.objs o.map.name ≠ o.obj then .ub
      else if ¬ s.coll.initialised then .throw .fieldMapError
      else .ok { o with map := { o.map with ready := true }
                        ptr := if f.fresh then some (s.bufs o.map.name) else none }

/-- A new map object; in a collection that is not initialised its callback is registered,
field_map.cc 60-67, 84-91, 115-120. -/
def add (s : Maps α U) (o : MapObj) : Maps α U :=
  { s with maps := s.maps ++ [some o]
           pending := if s.coll.initialised then s.pending else s.pending ++ [s.maps.length] }

/-- Constructors, field_map.cc 46-99, field_map_static.hh 106-121.  A constructor that throws leaves at
most an expired callback. -/
def make (s : Maps α U) (name : String) (it : IterUnit) (k : MapKind) : Res Unit × Maps α U :=
  match mkMap s.coll name it k with
  | .throw e => (.throw e, s)
  | .ub => (.ub, s)
  | .ok m =>
      let o : MapObj := ⟨m, s.objs name, none⟩
      if s.coll.initialised then
        match s.setPtr o with
        | .ok o' => (.ok (), s.add o')
        | .throw e => (.throw e, s)
        | .ub => (.ub, s)
      else (.ok (), s.add o)

/-- The live map with number `h`.  Model only. For field_map.cc 48-264. -/
def live (s : Maps α U) (h : Nat) : Option MapObj := (s.maps[h]?).join

/-- Move constructor, field_map.cc 103-121: a second object with the same members; the first one stays
until it is destroyed. -/
def move (s : Maps α U) (h : Nat) : Res Unit × Maps α U :=
  match s.live h with
  | none => (.ub, s)
  | some o =>
      if s.coll.order ≠ .colMajor then (.throw .runtimeError, s)
      else (.ok (), s.add o)

/-- Destructor.  field_map.hh 141. -/
def drop (s : Maps α U) (h : Nat) : Res Unit × Maps α U :=
  match s.live h with
  | none => (.ub, s)
  | some _ => (.ok (), { s with maps := s.maps.set h none })

/-- The loop of `FieldCollection::initialise_maps`, field_collection.cc 396-402. -/
def callbacks (s : Maps α U) : List Nat → Res (Maps α U)
  | [] => .ok s
  | h :: hs =>
      match s.live h with
      | none => callbacks s hs
      | some o =>
          match s.setPtr o with
          | .ok o' => callbacks { s with maps := s.maps.set h (some o') } hs
          | .throw e => .throw e
          | .ub => .ub

/-- Identities after a call: a name that is free afterwards will get a new object, and a buffer that grew
may have moved.  `std::map` of fields field_collection.hh 856, `std::vector::resize` field_typed.cc 208. -/
def refresh (s : Maps α U) (c' : Coll α U) : Maps α U :=
  { s with
    coll := c'
    objs := fun n => if (c'.fields.find n).isSome then s.objs n else s.objs n + 1
    bufs := fun n =>
      match s.coll.fields.find n, c'.fields.find n with
      | some f, some f' => if f'.vals.length ≤ f.vals.length then s.bufs n else s.bufs n + 1
      | _, _ => s.bufs n + 1 }

/-- A call on the collection or one of its fields.  When it is `initialise` and succeeds, the callbacks
run, field_collection_global.cc 128-130, field_collection_local.cc 73-74. -/
def call (srt : SortFn) (s : Maps α U) (op : Coll.Op α U) : Res Unit × Maps α U :=
  match s.coll.step srt op with
  | (r, c') =>
      let s' := s.refresh c'
      if ¬ s.coll.initialised ∧ c'.initialised then
        match s'.callbacks s'.pending with
        | .ok s'' => (r, { s'' with pending := [] })
        | .throw e => (.throw e, s')
        | .ub => (.ub, s')
      else (r, s')

/-- Whether the reference and the pointer of a map are good.  Members `field` and `data_ptr` of field_map.hh. -/
def good (s : Maps α U) (o : MapObj) : Bool :=
  (s.coll.fields.find o.map.name).isSome && decide (s.objs o.map.name = o.obj) &&
    decide (o.ptr = some (s.bufs o.map.name))

/-- Reading through `operator[]`, field_map.hh 296-309. -/
def get (s : Maps α U) (h i : Nat) : Res (List α) :=
  match s.live h with
  | none => .ub
  | some o => if s.good o then FieldMap.access s.coll o.map i else .ub

/-- Assigning to what `operator[]` returns; a matrix of another size violates a precondition of Eigen.
field_map.hh 296-309. -/
def put (s : Maps α U) (h i : Nat) (v : List α) : Res Unit × Maps α U :=
  match s.live h with
  | none => (.ub, s)
  | some o =>
      if s.good o ∧ (v.length : Int) = o.map.rows * o.map.cols then
        match FieldMap.modifyAt s.coll o.map (fun _ => v) i with
        | .ok c' => (.ok (), { s with coll := c' })
        | .throw e => (.throw e, s)
        | .ub => (.ub, s)
      else (.ub, s)

/-- Range-based `for` over a dynamic map: `begin`, field_map.cc 124-133, throws before the map is
initialised. -/
def iterate (s : Maps α U) (h : Nat) : Res (List (List α)) :=
  match s.live h with
  | none => .ub
  | some o =>
      if ¬ o.map.ready then .throw .fieldMapError
      else if s.good o then FieldMap.iterate s.coll o.map
      else .ub

/-- Range-based `for` over a static map that is not const: `begin`, field_map_static.hh 257, checks
nothing; only the accesses need a good pointer. -/
def iterateStatic (s : Maps α U) (h : Nat) : Res (List (List α)) :=
  match s.live h with
  | none => .ub
  | some o =>
      if (s.coll.fields.find o.map.name).isNone ∨ s.objs o.map.name ≠ o.obj then .ub
      else
        match FieldMap.size s.coll o.map with
        | .ok 0 => .ok []
        | .ok n => if s.good o then FieldMap.loop s.coll o.map n n 0 else .ub
        | .throw e => .throw e
        | .ub => .ub

/-- What programs do.  The calls are cited at their definitions. For field_map.cc 48-264. -/
inductive Op (α U : Type)
  | call (op : Coll.Op α U)
  | make (name : String) (it : IterUnit) (k : MapKind)
  | move (h : Nat)
  | drop (h : Nat)
  | put (h i : Nat) (v : List α)
  deriving DecidableEq, Repr

/-- One step.  The calls are cited at their definitions. For field_map.cc 48-264. -/
def step (srt : SortFn) (s : Maps α U) : Op α U → Res Unit × Maps α U
  | .call op => s.call srt op
  | .make name it k => s.make name it k
  | .move h => s.move h
  | .drop h => s.drop h
  | .put h i v => s.put h i v

/-- A program: exceptions are caught, undefined behaviour ends it.  Programs are not part of /repo.
For field_map.cc 48-264. -/
def run (srt : SortFn) (s : Maps α U) : List (Op α U) → Option (Maps α U)
  | [] => some s
  | op :: ops =>
      match s.step srt op with
      | (.ub, _) => none
      | (_, s') => run srt s' ops

end Maps
end Verif.Collection
