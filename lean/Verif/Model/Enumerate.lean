import Verif.Model.FieldMap
import Verif.Model.Indices
/-
Iteration over the indices of a collection and the values of a map at once: `field_map.cc` 200-217,
`field_map_static.hh` 273-294.
-/
namespace Verif.Collection
open Verif Verif.Ccoord Verif.Layout

variable {α U : Type}

namespace FieldMap
variable [Inhabited α] [DecidableEq U]

/-- The loop over `akantu::zip(indices, map)` (iterators.hh 45-67, 94-98, 122-157, 171-210): both iterators advance in step until one
of them is at its end; the one of the indices (`Coll.IndexIter`) starts at the first pixel, the one of the map
(field_map.hh 360-420) at 0 and ends at `stop`.  The pixel indices (a `std::vector`, field_collection.cc 519-526)
are those of stride 1.  `fuel` bounds the rounds (`ub` if it does not suffice). -/
def enumLoop (c : Coll α U) (m : FieldMap) (stride : Int) (stop : Nat) : Nat → Coll.IndexIter → Nat →
    Res (List (Int × List α))
  | 0, it, i => if it = ⟨c.pixelIndices.length, 0⟩ ∨ i = stop then .ok [] else .ub
  | fuel + 1, it, i =>
      if it = ⟨c.pixelIndices.length, 0⟩ ∨ i = stop then .ok []
      else do
        let p ← it.deref c.pixelIndices stride
        let v ← access c m i
        let it' ← it.next stride
        let rest ← enumLoop c m stride stop fuel it' (i + 1)
        pure ((p, v) :: rest)

/-- The loop over a zip whose map throws if it is not initialised (`begin`, field_map.cc 124-133). -/
def enumZip (c : Coll α U) (m : FieldMap) (stride : Int) : Res (List (Int × List α)) :=
  if ¬ m.ready then .throw .fieldMapError
  else do
    let stop ← size c m
    enumLoop c m stride stop stop ⟨0, 0⟩ 0

/-- `FieldMap::enumerate_pixel_indices_fast`, field_map.cc 201-209. -/
def enumeratePixels (c : Coll α U) (m : FieldMap) : Res (List (Int × List α)) :=
  if m.iter ≠ .pixel then .throw .fieldMapError
  else enumZip c m 1

/-- `FieldMap::enumerate_indices`, field_map.cc 212-217: with the indices of sub-points, whatever the map
iterates over. -/
def enumerateIndices (c : Coll α U) (m : FieldMap) : Res (List (Int × List α)) :=
  match c.fields.find m.name with
  | none => .ub
  | some f => do
      let stride ← c.checkInitialisedSubPt Unknown f.tag
      enumZip c m stride

/-- `StaticFieldMap::enumerate_indices`, field_map_static.hh 273-294: the version is chosen by what the map
iterates over.  `begin` (257) does not check that the map is initialised; `access` does. -/
def enumerateStatic (c : Coll α U) (m : FieldMap) : Res (List (Int × List α)) :=
  match m.iter with
  | .pixel => do
      let stop ← size c m
      enumLoop c m 1 stop stop ⟨0, 0⟩ 0
  | .subPt =>
      match c.fields.find m.name with
      | none => .ub
      | some f => do
          let stride ← c.checkInitialisedSubPt Unknown f.tag
          let stop ← size c m
          enumLoop c m stride stop stop ⟨0, 0⟩ 0

end FieldMap
end Verif.Collection
