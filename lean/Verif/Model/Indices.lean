import Verif.Model.Collection
/-
Iteration over the (sub-point) indices of a collection.
-/
namespace Verif.Collection
open Verif Verif.Ccoord Verif.Layout

namespace Coll
variable {α U : Type} [Inhabited α] [DecidableEq U]

/-- `FieldCollection::check_initialised_nb_sub_pts`, field_collection.cc 569-583, with
`check_nb_sub_pts`, 534-566, in the case `SubPt`.  `n` is the requested stride (or `Unknown`). -/
def checkInitialisedSubPt (c : Coll α U) (n : Int) (tag : String) : Res Int :=
  if ¬ c.hasSub tag then .throw .fieldCollectionError
  else do
    let correct ← c.getSubConst tag
    if n ≠ Unknown ∧ n ≠ correct then .throw .fieldCollectionError
    else pure correct

/-- The state of `IndexIterable::iterator`, field_collection.hh 1054-1062: position in
`pixel_indices` and offset. -/
structure IndexIter where
  pos : Nat
  offset : Int
  deriving DecidableEq, Repr

/-- `IndexIterable::iterator::operator++`, field_collection.hh 1030-1036: the remainder by a zero
stride is undefined. -/
def IndexIter.next (stride : Int) (it : IndexIter) : Res IndexIter :=
  if stride = 0 then .ub
  else
    let offset := (it.offset + 1).tmod stride
    .ok { pos := if offset = 0 then it.pos + 1 else it.pos, offset := offset }

/-- `operator*`, field_collection.hh 1050-1052 (`size_t` arithmetic, taken without wrapping): reading
at or behind the end is undefined. -/
def IndexIter.deref (pix : List Int) (stride : Int) (it : IndexIter) : Res Int :=
  match pix[it.pos]? with
  | some p => .ok (p * stride + it.offset)
  | none => .ub

/-- The loop `for (auto && i : iterable)`, with `begin` and `end` of field_collection.cc 618-625: from
(first, 0) until (end, 0).  `fuel` bounds the number of rounds, `ub` if it does not suffice. -/
def IndexIter.loop (pix : List Int) (stride : Int) : Nat → IndexIter → Res (List Int)
  | 0, it => if it = ⟨pix.length, 0⟩ then .ok [] else .ub
  | fuel + 1, it =>
      if it = ⟨pix.length, 0⟩ then .ok []
      else do
        let v ← it.deref pix stride
        let it' ← it.next stride
        let rest ← loop pix stride fuel it'
        pure (v :: rest)

/-- Iteration over `get_sub_pt_indices(tag)`, field_collection.cc 368-371 and 600-606. -/
def subPtIndices (c : Coll α U) (tag : String) (fuel : Nat) : Res (List Int) := do
  let stride ← c.checkInitialisedSubPt Unknown tag
  IndexIter.loop c.pixelIndices stride fuel ⟨0, 0⟩

/-- Iteration over `get_pixel_indices()`, field_collection.cc 363-365 and 518-525. -/
def pixelIndexList (c : Coll α U) : List Int := c.pixelIndices

/-- `IndexIterable::size`, field_collection.cc 628-630. -/
def subPtIndicesSize (c : Coll α U) (tag : String) : Res Int := do
  let stride ← c.checkInitialisedSubPt Unknown tag
  pure (c.nbPixels * stride)

end Coll
end Verif.Collection
