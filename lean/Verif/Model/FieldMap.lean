import Mathlib.Algebra.Notation.Defs
import Verif.Model.StateField
/-
Maps over fields: `/repo/src/libmugrid/field_map.cc`, `field_map.hh`, and maps over state fields:
`state_field_map.cc`, `state_field_map.hh`.  The statically sized maps (`field_map_static.hh`,
`state_field_map_static.hh`) differ by the shape of the iterate being fixed at compile time; the
check of their constructor is `mkStatic`.

An iterate (an `Eigen::Map` of `rows × cols` scalars) is represented by its `rows * cols` entries in
memory order, i.e. column by column.  Scalars are exact: rounding is not modelled.  A map's pointer
is taken to be valid as long as the field's own pointer is (`Field.fresh`); `Verif.Model.MapLife` follows
the pointers of maps themselves.
-/
namespace Verif.Collection
open Verif Verif.Ccoord Verif.Layout

variable {α U : Type}

/-- The members of `FieldMap`, field_map.hh 343-362; the field is given by its name, `ready` is
`is_initialised`. -/
structure FieldMap where
  name : String
  iter : IterUnit
  stride : Int
  rows : Int
  cols : Int
  ready : Bool
  deriving DecidableEq, Repr

namespace FieldMap
variable [Inhabited α] [DecidableEq U]

/-- `Field::get_stride`, field.cc 284-302. -/
def fieldStride (c : Coll α U) (f : Field α U) : IterUnit → Res Int
  | .pixel => if c.hasSub f.tag then .ok (f.nbComp * f.nbSub) else .throw .fieldError
  | .subPt => .ok f.nbComp

/-- Constructor with the default shape of the iterate, field_map.cc 46-67, with
`get_default_nb_rows/cols`, field.cc 313-320. -/
def mkDefault (c : Coll α U) (name : String) (it : IterUnit) : Res FieldMap :=
  match c.fields.find name with
  | none => .throw .fieldCollectionError
  | some f => do
      let stride ← fieldStride c f it
      let cols := if it = .pixel then f.nbSub else 1
      if c.order ≠ .colMajor then .throw .runtimeError
      else pure ⟨name, it, stride, f.nbComp, cols, c.initialised⟩

/-- Constructor with a number of rows, field_map.cc 70-99: the division by zero rows is undefined; a
map that is not ready yet has been registered for the collection's initialisation. -/
def mkRows (c : Coll α U) (name : String) (rows : Int) (it : IterUnit) : Res FieldMap :=
  match c.fields.find name with
  | none => .throw .fieldCollectionError
  | some f => do
      let stride ← fieldStride c f it
      if rows = 0 then .ub
      else
        let cols := stride.tdiv rows
        if c.order ≠ .colMajor then .throw .runtimeError
        else if rows * cols ≠ stride then .throw .fieldMapError
        else pure ⟨name, it, stride, rows, cols, c.initialised⟩

/-- Constructor of `StaticFieldMap` with iterates of shape `rows × cols`, field_map_static.hh
106-121. -/
def mkStatic (c : Coll α U) (name : String) (rows cols : Int) (it : IterUnit) : Res FieldMap := do
  let m ← mkRows c name rows it
  if m.stride ≠ rows * cols then .throw .fieldMapError else pure m

/-- Conversion of `Index_t` to `size_t`.  For example in field_map.cc 178-188. -/
def toSizeT (v : Int) : Nat := (v % 18446744073709551616).toNat

/-- `FieldMap::size`, field_map.cc 178-187. -/
def size (c : Coll α U) (m : FieldMap) : Res Nat :=
  match c.fields.find m.name with
  | none => .ub
  | some f =>
      if f.nbEntries c.nbPixels ≠ 0 then
        .ok (toSizeT (if m.iter = .subPt then f.cur else c.nbPixels))
      else .ok 0

/-- Reading the iterate `operator[](index)` returns, field_map.hh 296-309: an uninitialised map, a
negative shape, or entries outside the buffer are undefined behaviour. -/
def access (c : Coll α U) (m : FieldMap) (i : Nat) : Res (List α) :=
  match c.fields.find m.name with
  | none => .ub
  | some f =>
      let off := (i : Int) * m.stride
      let n := m.rows * m.cols
      if m.ready ∧ f.fresh ∧ 0 ≤ m.rows ∧ 0 ≤ m.cols ∧ 0 ≤ off ∧ off + n ≤ f.vals.length then
        .ok ((f.vals.drop off.toNat).take n.toNat)
      else .ub

/-- The condition the assertions of `operator[]` check, field_map.hh 297-298 (also mapped_field.hh
178-179). -/
def asserts (c : Coll α U) (m : FieldMap) (i : Nat) : Bool :=
  match c.fields.find m.name with
  | none => false
  | some f => m.ready && decide (i ≤ toSizeT (f.nbEntries c.nbPixels))

/-- The loop over the iterator, field_map.hh 360-420: from index 0 until the index equals `size`.
`fuel` bounds the rounds (`ub` if it does not suffice). -/
def loop (c : Coll α U) (m : FieldMap) (stop : Nat) : Nat → Nat → Res (List (List α))
  | 0, i => if i = stop then .ok [] else .ub
  | fuel + 1, i =>
      if i = stop then .ok []
      else do
        let v ← access c m i
        let rest ← loop c m stop fuel (i + 1)
        pure (v :: rest)

/-- Range-based `for` over a map: `begin` (field_map.cc 124-133) throws if the map is not
initialised. -/
def iterate (c : Coll α U) (m : FieldMap) : Res (List (List α)) :=
  if ¬ m.ready then .throw .fieldMapError
  else do
    let stop ← size c m
    loop c m stop stop 0

/-- Overwriting the iterate with index `i` by a function of it (`entry = val`, `entry += val`, …),
field_map.hh 162-164, 183, 205, …; the new entries must be as many as the old. -/
def modifyAt (c : Coll α U) (m : FieldMap) (g : List α → List α) (i : Nat) : Res (Coll α U) :=
  match c.fields.find m.name with
  | none => .ub
  | some f => do
      let old ← access c m i
      let off := ((i : Int) * m.stride).toNat
      let vals' := f.vals.take off ++ g old ++ f.vals.drop (off + old.length)
      let f' := { f with vals := vals' }
      pure { c with fields := c.fields.insert m.name f' }

/-- The loops of the assignment operators.  field_map.hh 152-240. -/
def modifyLoop (m : FieldMap) (g : List α → List α) (stop : Nat) : Nat → Nat → Coll α U →
    Res (Coll α U)
  | 0, i, c => if i = stop then .ok c else .ub
  | fuel + 1, i, c =>
      if i = stop then .ok c
      else do
        let c' ← modifyAt c m g i
        modifyLoop m g stop fuel (i + 1) c'

/-- `operator=`, `operator+=`, `operator-=` with a matrix of shape `r × k`, field_map.hh 149-209:
`op old val` is the new value of an entry. -/
def assign (c : Coll α U) (m : FieldMap) (op : α → α → α) (r k : Int) (val : List α) : Res (Coll α U) :=
  if ¬ (r = m.rows ∧ k = m.cols) then .throw .fieldMapError
  else if ¬ m.ready then .throw .fieldMapError
  else do
    let stop ← size c m
    modifyLoop m (fun old => List.zipWith op old val) stop stop 0 c

/-- The same operators with a scalar, field_map.hh 212-254. -/
def assignScalar (c : Coll α U) (m : FieldMap) (op : α → α → α) (val : α) : Res (Coll α U) :=
  if ¬ (m.rows = 1 ∧ m.cols = 1) then .throw .fieldMapError
  else if ¬ m.ready then .throw .fieldMapError
  else do
    let stop ← size c m
    modifyLoop m (fun old => List.zipWith op old [val]) stop stop 0 c

/-- `FieldMap::sum`, field_map.cc 221-233. -/
def sum [Zero α] [Add α] (c : Coll α U) (m : FieldMap) : Res (List α) :=
  match c.fields.find m.name with
  | none => .ub
  | some f =>
      if m.rows < 0 ∨ m.cols < 0 then .ub
      else
        let zero := List.replicate (m.rows * m.cols).toNat (0 : α)
        if f.nbEntries c.nbPixels ≠ 0 then do
          let vals ← iterate c m
          pure (vals.foldl (fun s v => List.zipWith (· + ·) s v) zero)
        else .ok zero

/-- `FieldMap::mean`, field_map.cc 236-246: the sum divided by `size()`. -/
def mean [Zero α] [Add α] [Div α] [NatCast α] (c : Coll α U) (m : FieldMap) : Res (List α) :=
  match c.fields.find m.name with
  | none => .ub
  | some f =>
      if m.rows < 0 ∨ m.cols < 0 then .ub
      else if f.nbEntries c.nbPixels ≠ 0 then do
        let s ← sum c m
        let n ← size c m
        pure (s.map (· / (n : α)))
      else .ok (List.replicate (m.rows * m.cols).toNat (0 : α))

end FieldMap

/-- The members of `StateFieldMap`, state_field_map.hh 208-232: one map per sub-field. -/
structure StateFieldMap where
  pre : String
  iter : IterUnit
  rows : Int
  maps : List FieldMap
  deriving DecidableEq, Repr

namespace StateFieldMap
variable [Inhabited α] [DecidableEq U]

/-- `make_maps`, state_field_map.cc 45-55: a map with `rows` rows on every sub-field, stopping at the
first exception. -/
def makeMaps (c : Coll α U) (rows : Int) (it : IterUnit) : List String → Res (List FieldMap)
  | [] => .ok []
  | n :: names => do
      let m ← FieldMap.mkRows c n rows it
      let ms ← makeMaps c rows it names
      pure (m :: ms)

/-- Constructors of `StateFieldMap`, state_field_map.cc 71-99: `none` is the version without a number
of rows.  The check of the second constructor repeats that of `FieldMap`. -/
def mk' (c : Coll α U) (pre : String) (rows : Option Int) (it : IterUnit) : Res StateFieldMap :=
  match c.states.find pre with
  | none => .throw .fieldCollectionError
  | some s => do
      let f ← c.stateCurrent pre
      let rows' := match rows with
        | some r => r
        | none => if it = .pixel then f.nbComp * f.nbSub else f.nbComp
      let maps ← makeMaps c rows' it s.names
      pure ⟨pre, it, rows', maps⟩

/-- `get_current`, state_field_map.cc 136-145: `maps[indices[0]]`, and `get_old`, 148-152:
`cmaps[indices[k]]`; neither index is checked. -/
def mapAt (c : Coll α U) (sm : StateFieldMap) (k : Nat) : Res FieldMap :=
  match c.states.find sm.pre with
  | none => .ub
  | some s =>
      match s.indices[k]? with
      | none => .ub
      | some j => match sm.maps[j]? with | some m => .ok m | none => .ub

/-- The values a `StateWrapper` refers to, state_field_map.hh 135-160: the entry `index` of the maps
for 0, …, `nb_memory` steps ago (the constructor forms all of them). -/
def wrapper (c : Coll α U) (sm : StateFieldMap) (nbMemory index : Nat) : Res (List (List α)) :=
  (List.range (nbMemory + 1)).mapM (fun k => do
    let m ← mapAt c sm k
    FieldMap.access c m index)

/-- `operator[](index)` and the iterator's dereference, state_field_map.hh 176-183. -/
def get (c : Coll α U) (sm : StateFieldMap) (index : Nat) : Res (List (List α)) :=
  match c.states.find sm.pre with
  | none => .ub
  | some s => wrapper c sm s.nbMemory.toNat index

/-- `StateWrapper::current`, state_field_map.hh 162-164. -/
def current (w : List (List α)) : Res (List α) :=
  match w[0]? with
  | some v => .ok v
  | none => .ub

/-- `StateWrapper::old`, state_field_map.hh 158-160: `old_vals.at(n - 1)` with `size_t` arithmetic, so
that zero steps ago is out of range. -/
def old (w : List (List α)) (n : Nat) : Res (List α) :=
  if n = 0 then .throw .outOfRange
  else
    match w[n]? with
    | some v => .ok v
    | none => .throw .outOfRange

/-- `StaticStateWrapper::old(n)`, state_field_map_static.hh 205-208: unchecked. -/
def oldStatic (w : List (List α)) (n : Nat) : Res (List α) :=
  if n = 0 then .ub
  else
    match w[n]? with
    | some v => .ok v
    | none => .ub

end StateFieldMap
end Verif.Collection
