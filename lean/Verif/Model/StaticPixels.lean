import Verif.Model.Ccoord
/-
Model of the statically dimensioned pixel sets `Pixels<Dim>`, `/repo/src/libmugrid/ccoord_operations.hh`
900-1021, and of the cast from a `DynamicPixels`.  `Pixels<Dim>` adds no members to `DynamicPixels`, so
the same structure is used; its own functions hide those of the base class.  `Pixels<Dim>::get_index`
calls a member function which does not exist, so it cannot be instantiated and is not modelled.
-/
namespace Verif.Ccoord.DynamicPixels

/-- Constructor of `Pixels<Dim>` with default strides, ccoord_operations.hh 910-912 and
ccoord_operations.cc 177-185.  The dimension is a template argument, so the locations have it; only
dimensions one to three are instantiated (ccoord_operations.cc 251-265). -/
def mkStatic (srt : SortFn) (nb loc : List Int) : Res DynamicPixels := do
  let axes ← computeAxesOrder srt nb (colMajorStrides nb)
  pure { nb := nb, loc := loc, strides := colMajorStrides nb, axes := axes, contiguous := true }

/-- Constructor of `Pixels<Dim>` with strides, ccoord_operations.hh 914-916 and ccoord_operations.cc
188-197. -/
def mkStaticStrided (srt : SortFn) (nb loc strides : List Int) : Res DynamicPixels := do
  let axes ← computeAxesOrder srt nb strides
  let contiguous ← isBufferContiguous srt nb strides
  pure { nb := nb, loc := loc, strides := strides, axes := axes, contiguous := contiguous }

/-- `get_dimensioned_pixels<Dim>`, ccoord_operations.cc 239-249: the same object behind a reference of
the other type.  (The `static_cast` to a class the object was not made as is formally undefined in C++;
as the class adds no members, the object is taken to be used as it is.) -/
def dimensioned (p : DynamicPixels) (Dim : Nat) : Res DynamicPixels :=
  if Dim ≠ p.nb.length then .throw .runtimeError else .ok p

/-- The sequence visited by a range-based `for` over a `Pixels<Dim>`, ccoord_operations.hh 930-936,
968-972 and 988-1021: the iterator does not look at `contiguous`. -/
def staticPixels (p : DynamicPixels) : Res (List (List Int)) :=
  forAll (fun i : Nat => p.getCcoord (i : Int)) (List.range p.size.toNat)

end Verif.Ccoord.DynamicPixels
