import Verif.Model.FieldMap
/-
Loops over maps of state fields, `/repo/src/libmugrid/state_field_map.cc`, `state_field_map.hh`, and the time
stepping they are made for: cycle, then compute the current values from the old ones.  `StaticStateFieldMap` and
`MappedStateField` have the same loops (state_field_map_static.hh 128-131, 142-151, 184-195, 358-377;
mapped_state_field.hh 98-108), their wrappers hold as many old values as the state field by the check of the
constructor (state_field_map_static.hh 298-306).
-/
namespace Verif.Collection
open Verif Verif.Ccoord Verif.Layout

variable {α U : Type}

namespace StateFieldMap
variable [Inhabited α] [DecidableEq U]

/-- The index of `end()`, state_field_map.cc 108-110: the size of the map over the first sub-field (`front` of
an empty vector is undefined). -/
def endIndex (c : Coll α U) (sm : StateFieldMap) : Res Nat :=
  match sm.maps with
  | [] => .ub
  | m :: _ => FieldMap.size c m

/-- `StateFieldMap::size`, state_field_map.cc 126-131. -/
def size (c : Coll α U) (sm : StateFieldMap) : Res Nat := do
  let f ← c.stateCurrent sm.pre
  pure (FieldMap.toSizeT (if sm.iter = .subPt then f.nbEntries c.nbPixels else c.nbPixels))

/-- One round of a loop whose body is `w.current() = F(i, w)`: the wrapper is formed (`operator*`,
state_field_map.hh 269-271, 149-157), the new value is computed, and assigned to the current iterate
(`current()`, 162-164).  The values are taken to be read before the assignment. -/
def updateAt (c : Coll α U) (sm : StateFieldMap) (F : Nat → List (List α) → List α) (i : Nat) : Res (Coll α U) := do
  let w ← get c sm i
  let m ← mapAt c sm 0
  FieldMap.modifyAt c m (fun _ => F i w) i

/-- The loop from `begin()` until the index is that of `end()`, state_field_map.cc 102-110,
state_field_map.hh 257-266.  `fuel` bounds the rounds (`ub` if it does not suffice). -/
def updateLoop (sm : StateFieldMap) (F : Nat → List (List α) → List α) (stop : Nat) : Nat → Nat → Coll α U →
    Res (Coll α U)
  | 0, i, c => if i = stop then .ok c else .ub
  | fuel + 1, i, c =>
      if i = stop then .ok c
      else do
        let c' ← updateAt c sm F i
        updateLoop sm F stop fuel (i + 1) c'

/-- Range-based `for` over the map, state_field_map.cc 102-110. -/
def update (c : Coll α U) (sm : StateFieldMap) (F : Nat → List (List α) → List α) : Res (Coll α U) := do
  let stop ← endIndex c sm
  updateLoop sm F stop stop 0 c

/-- One time step: `cycle()` (state_field.cc 93-97), then a loop that computes the current value from the old
ones, `w.current() = G(i, w.old(1), ..., w.old(nb_memory))`. -/
def timeStep (c : Coll α U) (sm : StateFieldMap) (G : Nat → List (List α) → List α) : Res (Coll α U) :=
  match c.cycle sm.pre with
  | (.ok _, c1) => update c1 sm fun i w => G i w.tail
  | (.throw e, _) => .throw e
  | (.ub, _) => .ub

/-- `T` time steps.  Programs are not part of /repo; see `timeStep` for state_field.cc 93-97. -/
def timeSteps (sm : StateFieldMap) (G : Nat → List (List α) → List α) : Nat → Coll α U → Res (Coll α U)
  | 0, c => .ok c
  | T + 1, c => do
      let c' ← timeStep c sm G
      timeSteps sm G T c'

end StateFieldMap
end Verif.Collection
