import Verif.Model.FieldMap
/-
Loops over several maps at once, `for (auto && entries : akantu::zip(map1, map2, …))`: iterators.hh with the iterators of
field_map.hh 362-420 and field_map_static.hh 299-357; and assignments to all entries of a map of a value which is an
entry of a map itself.
-/
namespace Verif.Collection
open Verif Verif.Ccoord Verif.Layout

variable {α U : Type} [Inhabited α] [DecidableEq U]

/-- A statement `entry_target = value(entry_0, entry_1, …)` in the body of a loop over maps.  The entries are references
into the memory of the fields, field_map.hh 296-301, 403 and field_map_static.hh 340-342.  The right hand side is taken to
be evaluated before anything is assigned (Eigen's `.eval()`, or a coefficient by coefficient expression). -/
structure LoopStmt (α : Type) where
  target : Nat
  value : List (List α) → List α

namespace FieldMap

/-- What the entries refer to in round `i`: field_map.hh 403, field_map_static.hh 340-342, iterators.hh 138-141. -/
def entries (c : Coll α U) (i : Nat) : List FieldMap → Res (List (List α))
  | [] => .ok []
  | m :: ms => do
      let e ← access c m i
      let es ← entries c i ms
      pure (e :: es)

/-- One statement in round `i`.  Assigning a matrix of another size to an `Eigen::Map` is undefined.  field_map.hh 296-301. -/
def exec (ms : List FieldMap) (i : Nat) (st : LoopStmt α) (c : Coll α U) : Res (Coll α U) := do
  let es ← entries c i ms
  let m ← at! ms st.target
  let e ← at! es st.target
  if (st.value es).length = e.length then modifyAt c m (fun _ => st.value es) i else .ub

/-- The body of the loop in round `i`.  As used with iterators.hh 138-141. -/
def execAll (ms : List FieldMap) (i : Nat) : List (LoopStmt α) → Coll α U → Res (Coll α U)
  | [], c => .ok c
  | st :: sts, c => do
      let c ← exec ms i st c
      execAll ms i sts c

/-- The rounds: the loop goes on while no iterator has met its end, iterators.hh 143-147 with 46-67 and 95-98,
field_map.hh 407-413.  `fuel` bounds the rounds (`ub` if it does not suffice). -/
def zipLoop (ms : List FieldMap) (sizes : List Nat) (body : List (LoopStmt α)) : Nat → Nat → Coll α U → Res (Coll α U)
  | 0, i, c => if i ∈ sizes then .ok c else .ub
  | fuel + 1, i, c =>
      if i ∈ sizes then .ok c
      else do
        let c ← execAll ms i body c
        zipLoop ms sizes body fuel (i + 1) c

/-- The ends of the iterators, field_map.hh 379-380 with field_map.cc 178-187, taken when the loop begins. -/
def sizes (c : Coll α U) : List FieldMap → Res (List Nat)
  | [] => .ok []
  | m :: ms => do
      let n ← size c m
      let ns ← sizes c ms
      pure (n :: ns)

/-- The loop: iterators.hh 186-195; `begin` of a map that is not initialised throws, field_map.cc 124-133 (the static maps
do not check, field_map_static.hh 257, and would use a null pointer). -/
def forZip (c : Coll α U) (ms : List FieldMap) (body : List (LoopStmt α)) : Res (Coll α U) :=
  if ms.any (fun m => !m.ready) then .throw .fieldMapError
  else do
    let ns ← sizes c ms
    zipLoop ms ns body (ns.headD 0) 0 c

/-- The loops of `operator=`, `+=`, `-=` of a map, field_map.hh 149-209 and field_map_static.hh 161-228, when the value is
the entry `k` of the map `m2`: it is passed by reference (`Eigen::Ref`, `Eigen::Map`, `Scalar &`), so that each round looks
at its present value. -/
def assignLoop (m m2 : FieldMap) (op : α → α → α) (k stop : Nat) : Nat → Nat → Coll α U → Res (Coll α U)
  | 0, i, c => if i = stop then .ok c else .ub
  | fuel + 1, i, c =>
      if i = stop then .ok c
      else do
        let v ← access c m2 k
        let c ← modifyAt c m (fun old => List.zipWith op old v) i
        assignLoop m m2 op k stop fuel (i + 1) c

/-- `m op= m2[k]`, field_map.hh 149-209: the shapes are compared, then the loop. -/
def assignEntry (c : Coll α U) (m m2 : FieldMap) (op : α → α → α) (k : Nat) : Res (Coll α U) :=
  if ¬ (m2.rows = m.rows ∧ m2.cols = m.cols) then .throw .fieldMapError
  else if ¬ m.ready then .throw .fieldMapError
  else do
    let stop ← size c m
    assignLoop m m2 op k stop stop 0 c

end FieldMap
end Verif.Collection
