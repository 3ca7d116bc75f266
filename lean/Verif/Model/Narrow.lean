import Verif.Model.Collection
import Verif.Model.Numpy
/-
Counting grid points with the integer types of the code.

`get_nb_from_shape` starts `std::accumulate` with the literal `1`, so that the running product is an
`int` although every multiplication is done in `Index_t`; the counter filling `pixel_indices` is an
`int`, too.  The other models take these as unbounded; here are the functions with their own types.
-/
namespace Verif.Narrow
open Verif Verif.Ccoord Verif.Layout Verif.Collection Verif.Collection.Coll Verif.Numpy

/-- One step of the accumulation: a product of `Index_t` (64 bit, grid_common.hh 81; leaving its range is
undefined) converted to the `int` of the initial value, grid_common.hh 187-192. -/
def mulInt (acc n : Int) : Res Int :=
  if -(2 ^ 63) ≤ acc * n ∧ acc * n < 2 ^ 63 then .ok (toInt32 (acc * n)) else .ub

/-- `std::accumulate(begin, end, acc, std::multiplies<Index_t>())` with `acc` an `int`,
grid_common.hh 189-190. -/
def accumulate (acc : Int) : List Int → Res Int
  | [] => .ok acc
  | n :: shape => (mulInt acc n).bind fun a => accumulate a shape

/-- `get_nb_from_shape`, grid_common.hh 187-192. -/
def nbFromShape (shape : List Int) : Res Int := accumulate 1 shape

/-- The loop filling `pixel_indices`, field_collection_global.cc 123-126: its counter is an `int`, and
incrementing it past the largest `int` is undefined. -/
def pixelIndices32 (nb : Int) : Res (List Int) :=
  if nb < 2 ^ 31 then .ok ((List.range nb.toNat).map (fun i : Nat => (i : Int))) else .ub

/-- The loop of `is_buffer_contiguous`, ccoord_operations.hh 526-531, with its running product an `int`: the
multiplication is done in `Index_t` (64 bit, taken as unbounded) and converted back. -/
def contiguousLoop32 (nb strides : List Int) : List Nat → Int → Bool → Res Bool
  | [], _, acc => .ok acc
  | a :: as, stride, acc => do
      let s ← at! strides a
      let n ← at! nb a
      contiguousLoop32 nb strides as (toInt32 (stride * n)) (acc && s == stride)

/-- `is_buffer_contiguous` with its integer types, ccoord_operations.hh 510-532. -/
def isBufferContiguous32 (srt : SortFn) (nb strides : List Int) : Res Bool :=
  if nb.length = 0 then .ok true
  else if getSize nb = 0 then .ok true
  else if strides.length ≠ nb.length then .throw .runtimeError
  else do
    let axes ← computeAxesOrder srt nb strides
    contiguousLoop32 nb strides axes 1 true

variable {α U : Type} [Inhabited α] [DecidableEq U]

/-- `GlobalFieldCollection::initialise` from the construction of the pixels on,
field_collection_global.cc 117-131. -/
def initRest (srt : SortFn) (c : Coll α U) (dom sub loc strides : List Int) : Res Unit × Coll α U :=
  let c1 := { c with domainPts := dom }
  match DynamicPixels.mkStrided srt sub loc strides with
  | .throw e => (.throw e, c1)
  | .ub => (.ub, c1)
  | .ok px =>
      let c2 := { c1 with pixels := px, nbPixels := getSize sub }
      match getBufferSize sub strides with
      | .throw e => (.throw e, c2)
      | .ub => (.ub, c2)
      | .ok nb =>
          match ({ c2 with nbBuf := nb } : Coll α U).allocateFields with
          | (.ok _, c3) =>
              match pixelIndices32 (getSize sub) with
              | .ok l => (.ok (), { c3 with pixelIndices := l, initialised := true })
              | .throw e => (.throw e, c3)
              | .ub => (.ub, c3)
          | (r, c3) => (r, c3)

/-- `GlobalFieldCollection::initialise` with strides, field_collection_global.cc 86-131, with the integer
types of its counts.  (`get_size` and `get_buffer_size` are 64 bit, taken as unbounded.) -/
def initGlobal32 (srt : SortFn) (c : Coll α U) (dom sub loc strides : List Int) : Res Unit × Coll α U :=
  match nbFromShape dom with
  | .throw e => (.throw e, c)
  | .ub => (.ub, c)
  | .ok nd =>
      if nd ≤ 0 then (.throw .fieldCollectionError, c)
      else match nbFromShape (subdomainOr dom sub) with
        | .throw e => (.throw e, c)
        | .ub => (.ub, c)
        | .ok ns =>
            if ns < 0 then (.throw .fieldCollectionError, c)
            else if c.initialised then (.throw .fieldCollectionError, c)
            else initRest srt c dom (subdomainOr dom sub) loc strides

/-- `GlobalFieldCollection::initialise` with a storage order, field_collection_global.cc 134-150. -/
def initGlobalOrder32 (srt : SortFn) (c : Coll α U) (dom sub loc : List Int) (order : StorageOrder) :
    Res Unit × Coll α U :=
  let order' := if order = .automatic then c.order else order
  let sub' := subdomainOr dom sub
  match (if order' = .colMajor then dynColMajorStrides sub' else dynRowMajorStrides sub') with
  | .throw e => (.throw e, c)
  | .ub => (.ub, c)
  | .ok strides => initGlobal32 srt c dom sub' loc strides

/-- A call on a collection, with the initialisation counting as above.  The numbers of components
(field.cc 57) are still taken as unbounded.  field_collection_global.cc 86-150. -/
def step32 (srt : SortFn) (c : Coll α U) : Op α U → Res Unit × Coll α U
  | .initGlobal dom sub loc strides =>
      if c.global then initGlobal32 srt c dom sub loc strides else (.ok (), c)
  | .initGlobalOrder dom sub loc order =>
      if c.global then initGlobalOrder32 srt c dom sub loc order else (.ok (), c)
  | op => c.step srt op

/-- A program, calls in sequence as in `Coll.run`.  Programs are not part of /repo; for
field_collection.hh 94-890. -/
def run32 (srt : SortFn) (c : Coll α U) : List (Op α U) → Option (Coll α U)
  | [] => some c
  | op :: ops =>
      match step32 srt c op with
      | (.ub, _) => none
      | (_, c') => run32 srt c' ops

/-- The size check opening the first constructor of `NumpyProxy`, numpy_tools.hh 262-269: the count of
`get_nb_from_shape` times the degrees of freedom (a 64 bit product, taken as unbounded) against the size
of the array. -/
def sizeCheck32 (nb : List Int) (nbDof size : Int) : Res Unit :=
  (nbFromShape nb).bind fun n => if n * nbDof ≠ size then .throw .numpyError else .ok ()

/-- The first constructor of `NumpyProxy`, numpy_tools.hh 256-330, with the integer types of its check of
sizes and of the initialisation of its collection (field_collection_global.cc 92-113). -/
def proxyPixel32 (srt : SortFn) (domain nb loc : List Int) (nbDof : Int) (a : NpArray) : Res Wrapped :=
  (sizeCheck32 nb nbDof a.size).bind fun _ =>
    if a.shape.length < nb.length then .throw .numpyError
    else if a.shape.drop (a.shape.length - nb.length) ≠ nb then .throw .numpyError
    else
      let comps := a.shape.take (a.shape.length - nb.length)
      if getSize comps ≠ nbDof then .throw .numpyError
      else (detectStorageOrder srt nb comps 1 a).bind fun det =>
        (nbFromShape domain).bind fun nd =>
          if nd ≤ 0 then .throw .fieldCollectionError
          else (nbFromShape nb).bind fun ns =>
            if ns < 0 then .throw .fieldCollectionError
            else if 2 ^ 31 ≤ getSize nb then .ub
            else makeProxy srt domain nb loc comps 1 a det

end Verif.Narrow
