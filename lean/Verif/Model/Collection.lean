import Mathlib.Data.String.Basic
import Verif.Model.SMap
import Verif.Model.Layout
/-
Model of field collections and of the fields they own as a state machine:
`/repo/src/libmugrid/field_collection.cc`, `field_collection_global.cc`, `field_collection_local.cc`,
`field_typed.hh` 564-678, `field_typed.cc` 100-337, `field.cc` 43-159, `state_field.cc`,
`state_field.hh` 282-344.

Every operation returns its outcome *and* the collection afterwards, because exceptions can be
caught and the collection then used further.  Fields are referred to by name (the API hands out
references).  Not modelled: the later life of fields that were popped, `WrappedField`,
maps (see `Verif.Model.MapLife`), exhaustion of memory, overflow.
-/
namespace Verif.Collection
open Verif Verif.Ccoord Verif.Layout

/-- `Unknown`, grid_common.hh 714. -/
def Unknown : Int := -1

/-- `PixelTag`, grid_common.hh 163 (the tag of the trivial sub-division). -/
def pixelTag : String := "pixel"

/-- The scalar types a field can store, `field_typed.hh` 551-561. -/
inductive ElemType
  | real
  | complex
  | int
  | uint
  | index
  deriving DecidableEq, Repr

/-- The members of `Field` (field.hh 322-360) and `TypedField` (field_typed.hh 300-330).
`fresh` says that `data_ptr` points to the present buffer of `values`; it is the only fact about
pointers that is kept. -/
structure Field (α U : Type) where
  ty : ElemType
  shape : List Int
  nbComp : Int
  nbSub : Int
  tag : String
  unit : U
  pad : Nat
  cur : Int
  vals : List α
  fresh : Bool
  deriving DecidableEq, Repr

/-- The members of `StateField` (state_field.hh 200-235).  `names` are the names of the sub-fields
(references in C++). -/
structure StateField (U : Type) where
  ty : ElemType
  nbMemory : Int
  nbComp : Int
  tag : String
  unit : U
  names : List String
  indices : List Nat
  deriving DecidableEq, Repr

/-- What remains of a state field when a field is removed from the collection, see `Coll.pop`
(state_field.hh 196: the references are not updated). -/
def StateField.forget {U : Type} (name : String) (s : StateField U) : StateField U :=
  if name ∈ s.names then { s with names := [] } else s

/-- The members of `FieldCollection` (field_collection.hh 855-890), of `GlobalFieldCollection`
(field_collection_global.hh: `nb_domain_grid_pts`, `pixels`) and of `LocalFieldCollection`
(field_collection_local.hh 137). `global` is `domain == ValidityDomain::Global`. -/
structure Coll (α U : Type) where
  global : Bool
  dim : Int
  order : StorageOrder
  subPts : SMap String Int
  fields : SMap String (Field α U)
  states : SMap String (StateField U)
  nbPixels : Int
  nbBuf : Int
  pixelIndices : List Int
  initialised : Bool
  domainPts : List Int
  pixels : DynamicPixels
  g2l : SMap Int Int
  deriving DecidableEq, Repr

/-- Components given as a number or as a shape: the two versions of `register_field_helper`,
field_typed.hh 564 and 625. -/
inductive Comps
  | num (n : Int)
  | shape (s : List Int)
  deriving DecidableEq, Repr

/-- `components_shape` set by the constructors, field.cc 43-60. -/
def Comps.toShape : Comps → List Int
  | .num n => [n]
  | .shape s => s

/-- `nb_components` set by the constructors, field.cc 43-60 (`get_nb_from_shape`). -/
def Comps.toNb : Comps → Int
  | .num n => n
  | .shape s => getSize s

variable {α U : Type}

namespace Field

/-- Constructors `TypedField(name, collection, components, tag, unit)`, field.cc 43-60, with the default
member values of field.hh 338-360; `n` is the number of sub-points the collection reports. -/
def new (ty : ElemType) (comps : Comps) (n : Int) (tag : String) (unit : U) : Field α U :=
  { ty := ty, shape := comps.toShape, nbComp := comps.toNb, nbSub := n, tag := tag,
    unit := unit, pad := 0, cur := 0, vals := [], fresh := false }

/-- The body of the loop of `set_nb_sub_pts`, field_collection.cc 328-333. -/
def setSub (tag : String) (n : Int) (f : Field α U) : Field α U :=
  if f.tag = tag then { f with nbSub := n } else f

/-- `Field::has_nb_sub_pts`, field.cc 335-337. -/
def hasSub (f : Field α U) : Bool := f.nbSub != Unknown

/-- `Field::get_nb_entries`, field.cc 107-112. -/
def nbEntries (f : Field α U) (nbPixels : Int) : Int :=
  if f.hasSub then f.nbSub * nbPixels else Unknown

/-- `Field::get_nb_dof_per_pixel`, field.cc 92-94. -/
def nbDof (f : Field α U) : Int := f.nbComp * f.nbSub

/-- `std::vector::resize`: truncate or append value-initialised elements.  Called at field_typed.cc 208. -/
def resizeVals [Inhabited α] (l : List α) (n : Nat) : List α :=
  l.take n ++ List.replicate (n - l.length) default

/-- `TypedField::resize`, field_typed.cc 193-211.  A negative size wraps to a huge `size_t`, for
which `std::vector::resize` throws `std::length_error`, after `current_nb_entries` was set. -/
def resize [Inhabited α] (f : Field α U) (nbBuf : Int) : Res Unit × Field α U :=
  if ¬ f.hasSub then (.throw .fieldError, f)
  else
    let size := f.nbSub * nbBuf
    let expected := size * f.nbComp + f.pad
    if expected < 0 then (.throw .lengthError, { f with cur := size })
    else if (f.vals.length : Int) ≠ expected ∨ f.cur ≠ size then
      (.ok (), { f with cur := size, vals := resizeVals f.vals expected.toNat, fresh := true })
    else (.ok (), { f with fresh := true })

/-- `TypedField::set_pad_size`, field_typed.cc 107-111. -/
def setPadSize [Inhabited α] (f : Field α U) (nbBuf : Int) (pad : Nat) : Res Unit × Field α U :=
  resize { f with pad := pad } nbBuf

/-- `TypedField::set_zero`, field_typed.cc 102-104. -/
def setZero [Inhabited α] (f : Field α U) : Res Unit × Field α U :=
  (.ok (), { f with vals := List.replicate f.vals.length default })

/-- `TypedField::push_back`, field_typed.cc 220-240 and 262-287 (`single = false`), and
`push_back_single`, 243-259 and 290-311 (`single = true`); the versions taking a scalar are the case
of a value of length one.  The pointer `data_ptr` is not refreshed. -/
def pushBack (f : Field α U) (global single : Bool) (value : List α) : Res Unit × Field α U :=
  if global then (.throw .fieldError, f)
  else if ¬ f.hasSub then (.throw .fieldError, f)
  else if f.nbComp ≠ value.length then (.throw .fieldError, f)
  else
    let copies : Int := if single then 1 else f.nbSub
    (.ok (), { f with cur := f.cur + copies,
                      vals := f.vals ++ (List.replicate copies.toNat value).flatten,
                      fresh := false })

/-- `Field::reshape(shape)`, field.cc 126-137. -/
def reshape (f : Field α U) (shape : List Int) : Res Unit × Field α U :=
  if getSize shape ≠ f.nbComp then (.throw .fieldError, f)
  else (.ok (), { f with shape := shape, nbComp := getSize shape })

/-- Writing entry `i` through a reference, map or pointer obtained from the field (`data_ptr[i] = v`);
undefined outside the buffer or if the pointer is stale.  Member `data_ptr`: field_typed.hh 274. -/
def write (f : Field α U) (i : Nat) (v : α) : Res Unit × Field α U :=
  if f.fresh ∧ i < f.vals.length then (.ok (), { f with vals := f.vals.set i v }) else (.ub, f)

end Field

namespace Coll
variable [Inhabited α] [DecidableEq U]

/-- `FieldCollection::field_exists`, field_collection.cc 265-267. -/
def fieldExists (c : Coll α U) (name : String) : Bool := (c.fields.find name).isSome

/-- `FieldCollection::has_nb_sub_pts`, field_collection.cc 284-290. -/
def hasSub (c : Coll α U) (tag : String) : Bool :=
  match c.subPts.find tag with
  | none => false
  | some n => n != Unknown

/-- Non-const `FieldCollection::get_nb_sub_pts`, field_collection.cc 293-298: inserts `Unknown` for
a tag without a value. -/
def getSub (c : Coll α U) (tag : String) : Int × Coll α U :=
  match c.subPts.find tag with
  | some n => if n = Unknown then (Unknown, { c with subPts := c.subPts.insert tag Unknown }) else (n, c)
  | none => (Unknown, { c with subPts := c.subPts.insert tag Unknown })

/-- Const `FieldCollection::get_nb_sub_pts`, field_collection.cc 301-304: `std::map::at`. -/
def getSubConst (c : Coll α U) (tag : String) : Res Int :=
  match c.subPts.find tag with
  | some n => .ok n
  | none => .throw .outOfRange

/-- `FieldCollection::set_nb_sub_pts`, field_collection.cc 307-334. -/
def setNbSubPts (c : Coll α U) (tag : String) (n : Int) : Res Unit × Coll α U :=
  if c.hasSub tag ∧ c.subPts.find tag ≠ some n then (.throw .fieldCollectionError, c)
  else if n < 1 then (.throw .fieldCollectionError, c)
  else (.ok (), { c with
    subPts := c.subPts.insert tag n,
    fields := c.fields.map (fun e => (e.1, e.2.setSub tag n)) })

/-- The default member values, field_collection.hh 855-890. -/
def empty (global : Bool) (dim : Int) (order : StorageOrder) (subPts : SMap String Int) : Coll α U :=
  { global := global, dim := dim, order := order, subPts := subPts, fields := [], states := [],
    nbPixels := Unknown, nbBuf := Unknown, pixelIndices := [], initialised := false,
    domainPts := [], pixels := .unset, g2l := [] }

/-- Constructor of `FieldCollection`, field_collection.cc 55-62 (called by those of the two daughter
classes): the given numbers of sub-points are stored without any check, then the tag `pixel` is
set. -/
def mk' (global : Bool) (dim : Int) (order : StorageOrder) (subPts : SMap String Int) :
    Res (Coll α U) :=
  match (empty global dim order subPts : Coll α U).setNbSubPts pixelTag 1 with
  | (.ok _, c') => .ok c'
  | (.throw e, _) => .throw e
  | (.ub, _) => .ub

/-- `FieldCollection::register_field_helper`, field_typed.hh 564-622 and 625-678.
`allowExisting = false`: the `register_*_field` functions; `true`: the functions `*_field`. -/
def register (c : Coll α U) (name : String) (ty : ElemType) (comps : Comps) (tag : String) (unit : U)
    (allowExisting : Bool) : Res Unit × Coll α U :=
  match c.fields.find name with
  | some f =>
      if allowExisting then
        if f.ty ≠ ty then (.throw .runtimeError, c)
        else if (match comps with | .num n => decide (f.nbComp ≠ n) | .shape s => decide (f.shape ≠ s)) then
          (.throw .fieldCollectionError, c)
        else if f.tag ≠ tag then (.throw .fieldCollectionError, c)
        else if f.unit ≠ unit then (.throw .fieldCollectionError, c)
        else (.ok (), c)
      else (.throw .fieldCollectionError, c)
  | none =>
      let (n, c1) := c.getSub tag
      let f : Field α U := Field.new ty comps n tag unit
      if c1.initialised then
        match f.resize c1.nbBuf with
        | (.ok _, f') => (.ok (), { c1 with fields := c1.fields.insert name f' })
        | (r, _) => (r, c1)
      else (.ok (), { c1 with fields := c1.fields.insert name f })

/-- Removal of the field registered under a name, field_collection.cc 417-427. -/
def take (c : Coll α U) (name : String) : Res (Field α U) × Coll α U :=
  match c.fields.find name with
  | none => (.throw .fieldCollectionError, c)
  | some f => (.ok f, { c with fields := c.fields.erase name })

/-- `FieldCollection::pop_field`, field_collection.cc 417-427.  The references of a state field to a removed
sub-field (state_field.hh 196) are no longer followed: its list of names is emptied, so that every access to
its fields is undefined from then on, whether or not the name is registered again.  (In C++ the reference is
good as long as the caller keeps the removed field.) -/
def pop (c : Coll α U) (name : String) : Res (Field α U) × Coll α U :=
  match c.take name with
  | (.ok f, c1) => (.ok f, { c1 with states := c1.states.map (fun e => (e.1, e.2.forget name)) })
  | (r, c1) => (r, c1)

/-- `FieldCollection::detached_field`, field_collection.hh 1067-1081.  The removed field is new, so no state
field refers to it. -/
def detached (c : Coll α U) (name : String) (ty : ElemType) (shape : List Int) (tag : String)
    (unit : U) : Res (Field α U) × Coll α U :=
  match c.register name ty (.shape shape) tag unit false with
  | (.ok _, c1) => c1.take name
  | (.throw e, c1) => (.throw e, c1)
  | (.ub, c1) => (.ub, c1)

/-- The loop of `generate_unique_name`, field_collection.cc 586-597: the first value of the
(static) counter whose name is not in use.  `fuel` bounds the number of attempts; one more than the
number of fields always suffices (`generateName_spec`). -/
def generateName (c : Coll α U) : Nat → Nat → Option (String × Nat)
  | 0, _ => none
  | fuel + 1, counter =>
      let name := "generated_unique_name_" ++ toString counter
      if c.fieldExists name then generateName c fuel (counter + 1) else some (name, counter + 1)

/-- `FieldCollection::allocate_fields`, field_collection.cc 374-393, on the list of fields in name
order: stops at the first exception, the fields before it being resized. -/
def allocate (nbPixels nbBuf : Int) :
    SMap String (Field α U) → Res Unit × SMap String (Field α U)
  | [] => (.ok (), [])
  | (name, f) :: fs =>
      if f.cur ≠ 0 ∧ f.cur ≠ f.nbEntries nbPixels then (.throw .fieldCollectionError, (name, f) :: fs)
      else
        match f.resize nbBuf with
        | (.ok _, f') =>
            match allocate nbPixels nbBuf fs with
            | (r, fs') => (r, (name, f') :: fs')
        | (r, f') => (r, (name, f') :: fs)

/-- `allocate_fields` on the collection.  field_collection.cc 374-393. -/
def allocateFields (c : Coll α U) : Res Unit × Coll α U :=
  match allocate c.nbPixels c.nbBuf c.fields with
  | (r, fs) => (r, { c with fields := fs })

/-- The subdomain of a global collection: the whole domain if none is given,
field_collection_global.cc 102-104. -/
def subdomainOr (dom sub : List Int) : List Int := if sub.length = 0 then dom else sub

/-- `GlobalFieldCollection::initialise` with strides, field_collection_global.cc 86-131.  The loop
filling `pixel_indices` uses an `int` counter, taken as unbounded. -/
def initGlobal (srt : SortFn) (c : Coll α U) (dom sub loc strides : List Int) : Res Unit × Coll α U :=
  if getSize dom ≤ 0 then (.throw .fieldCollectionError, c)
  else
    let sub' := subdomainOr dom sub
    if getSize sub' < 0 then (.throw .fieldCollectionError, c)
    else if c.initialised then (.throw .fieldCollectionError, c)
    else
      let c1 := { c with domainPts := dom }
      match DynamicPixels.mkStrided srt sub' loc strides with
      | .throw e => (.throw e, c1)
      | .ub => (.ub, c1)
      | .ok px =>
          let c2 := { c1 with pixels := px, nbPixels := getSize sub' }
          match getBufferSize sub' strides with
          | .throw e => (.throw e, c2)
          | .ub => (.ub, c2)
          | .ok nb =>
              match ({ c2 with nbBuf := nb } : Coll α U).allocateFields with
              | (.ok _, c3) =>
                  (.ok (), { c3 with
                    pixelIndices := (List.range (getSize sub').toNat).map (fun i : Nat => (i : Int)),
                    initialised := true })
              | (r, c3) => (r, c3)

/-- `GlobalFieldCollection::initialise` with a storage order, field_collection_global.cc 134-150. -/
def initGlobalOrder (srt : SortFn) (c : Coll α U) (dom sub loc : List Int) (order : StorageOrder) :
    Res Unit × Coll α U :=
  let order' := if order = .automatic then c.order else order
  let sub' := subdomainOr dom sub
  match (if order' = .colMajor then dynColMajorStrides sub' else dynRowMajorStrides sub') with
  | .throw e => (.throw e, c)
  | .ub => (.ub, c)
  | .ok strides => c.initGlobal srt dom sub' loc strides

/-- `LocalFieldCollection::add_pixel`, field_collection_local.cc 54-63. -/
def addPixel (c : Coll α U) (id : Int) : Res Unit × Coll α U :=
  if c.initialised then (.throw .fieldCollectionError, c)
  else (.ok (), { c with g2l := c.g2l.emplace id c.pixelIndices.length,
                         pixelIndices := c.pixelIndices ++ [id] })

/-- `LocalFieldCollection::initialise`, field_collection_local.cc 66-75. -/
def initLocal (c : Coll α U) : Res Unit × Coll α U :=
  if c.initialised then (.throw .fieldCollectionError, c)
  else
    match ({ c with nbPixels := c.pixelIndices.length, nbBuf := c.pixelIndices.length } :
        Coll α U).allocateFields with
    | (.ok _, c1) => (.ok (), { c1 with initialised := true })
    | (r, c1) => (r, c1)

/-- Apply an operation to the field registered under a name (`get_field`, field_collection.cc
407-414, and then a member function of the field). -/
def onField (c : Coll α U) (name : String) (op : Field α U → Res Unit × Field α U) :
    Res Unit × Coll α U :=
  match c.fields.find name with
  | none => (.throw .fieldCollectionError, c)
  | some f => match op f with
    | (r, f') => (r, { c with fields := c.fields.insert name f' })

/-- `Field::reshape(shape, tag)`, field.cc 140-159. -/
def reshapeTag (c : Coll α U) (name : String) (shape : List Int) (tag : String) :
    Res Unit × Coll α U :=
  match c.fields.find name with
  | none => (.throw .fieldCollectionError, c)
  | some f =>
      let (n, c1) := c.getSub tag
      if getSize shape * n ≠ f.nbDof then (.throw .fieldError, c1)
      else
        let f' := { f with shape := shape, nbComp := getSize shape, nbSub := n, tag := tag }
        (.ok (), { c1 with fields := c1.fields.insert name f' })

/-- Name of the `i`-th sub-field of a state field, state_field.cc 139-141. -/
def subFieldName (pre : String) (i : Nat) : String := pre ++ ", sub_field index " ++ toString i

/-- The loop of the constructor of `TypedStateField`, state_field.cc 138-144: registers the
sub-fields `i, i+1, …` (`n` of them).  Those registered before an exception stay. -/
def registerSubFields (c : Coll α U) (pre : String) (ty : ElemType) (nbComp : Int) (tag : String)
    (unit : U) (i : Nat) : Nat → Res Unit × Coll α U
  | 0 => (.ok (), c)
  | n + 1 =>
      match c.register (subFieldName pre i) ty (.num nbComp) tag unit false with
      | (.ok _, c1) => registerSubFields c1 pre ty nbComp tag unit (i + 1) n
      | (r, c1) => (r, c1)

/-- The initial `indices` of a state field, state_field.cc 61-63: `(nb_memory + 1 - i) & nb_memory`. -/
def initialIndices (nbMemory : Nat) : List Nat :=
  (List.range (nbMemory + 1)).map (fun i => (nbMemory + 1 - i) &&& nbMemory)

/-- `FieldCollection::register_state_field_helper`, state_field.hh 282-344, with the constructors
`StateField`, state_field.cc 46-64, and `TypedStateField`, 130-144. -/
def registerState (c : Coll α U) (pre : String) (ty : ElemType) (nbMemory nbComp : Int)
    (tag : String) (unit : U) (allowExisting : Bool) : Res Unit × Coll α U :=
  match c.states.find pre with
  | some s =>
      if allowExisting then
        if s.ty ≠ ty then (.throw .runtimeError, c)
        else if s.nbMemory ≠ nbMemory then (.throw .fieldCollectionError, c)
        else if s.nbComp ≠ nbComp then (.throw .fieldCollectionError, c)
        else if s.tag ≠ tag then (.throw .fieldCollectionError, c)
        else if s.unit ≠ unit then (.throw .fieldCollectionError, c)
        else (.ok (), c)
      else (.throw .fieldCollectionError, c)
  | none =>
      let c1 := (c.getSub tag).2
      if nbMemory < 1 then (.throw .fieldError, c1)
      else
        match c1.registerSubFields pre ty nbComp tag unit 0 (nbMemory.toNat + 1) with
        | (.ok _, c2) =>
            let s : StateField U :=
              { ty := ty, nbMemory := nbMemory, nbComp := nbComp, tag := tag, unit := unit,
                names := (List.range (nbMemory.toNat + 1)).map (subFieldName pre),
                indices := initialIndices nbMemory.toNat }
            (.ok (), { c2 with states := c2.states.insert pre s })
        | (r, c2) => (r, c2)

/-- `StateField::cycle`, state_field.cc 93-97, on the state field registered under a prefix
(`get_state_field`, field_collection.cc 430-438). -/
def cycle (c : Coll α U) (pre : String) : Res Unit × Coll α U :=
  match c.states.find pre with
  | none => (.throw .fieldCollectionError, c)
  | some s =>
      let s' := { s with indices := s.indices.map (fun v => (v + 1) % (s.nbMemory.toNat + 1)) }
      (.ok (), { c with states := c.states.insert pre s' })

/-- Shape and strides of the collection's pixels: `get_pixels_shape`/`get_pixels_strides`,
field_collection_global.cc 172-184, field_collection_local.cc 92-101. -/
def layout (c : Coll α U) (f : Field α U) : FieldLayout :=
  { order := c.order, comps := f.shape, nbSub := f.nbSub,
    pixShape := if c.global then c.pixels.nb else [c.nbPixels],
    pixStrides := if c.global then c.pixels.strides else [1],
    nbBuf := c.nbBuf }

/-- The memory a field's `data_ptr` points to.  Member `data_ptr`: field_typed.hh 274. -/
def Field.mem (f : Field α U) : RawMemory.Mem α := fun i =>
  if f.fresh ∧ 0 ≤ i then f.vals[i.toNat]? else none

/-- The entries of a buffer after some of them were written.  Member `values`: field_typed.hh 440. -/
def Field.ofMem (f : Field α U) (m : RawMemory.Mem α) : Field α U :=
  { f with vals := (List.range f.vals.length).map (fun i : Nat => (m i).getD default) }

/-- `TypedFieldBase::operator=(const TypedFieldBase &)` between fields of one collection,
field_typed.cc 378-405.  Local: assignment of Eigen vectors of `nb_entries*nb_components` entries
(`eigen_vec`, 445-473); vectors of different size violate an Eigen precondition (`ub`). -/
def assignField (srt : SortFn) (c : Coll α U) (src dst : Field α U) : Res Unit × Field α U :=
  if c.global then
    match FieldLayout.assign srt (c.layout dst) (c.layout src) (Field.mem src) (Field.mem dst) with
    | .ok m => (.ok (), Field.ofMem dst m)
    | .throw e => (.throw e, dst)
    | .ub => (.ub, dst)
  else if ¬ c.initialised ∨ src.nbEntries c.nbPixels = Unknown ∨ dst.nbEntries c.nbPixels = Unknown then
    (.throw .fieldError, dst)
  else
    let n := src.nbEntries c.nbPixels * src.nbComp
    let m := dst.nbEntries c.nbPixels * dst.nbComp
    if n = m ∧ 0 ≤ n ∧ n ≤ src.vals.length ∧ m ≤ dst.vals.length ∧ src.fresh ∧ dst.fresh then
      (.ok (), { dst with vals := src.vals.take n.toNat ++ dst.vals.drop m.toNat })
    else (.ub, dst)

/-- `TypedField::clone`, field_typed.cc 315-337, of the field registered under `src`. -/
def clone (srt : SortFn) (c : Coll α U) (src dst : String) (overwrite : Bool) : Res Unit × Coll α U :=
  match c.fields.find src with
  | none => (.throw .fieldCollectionError, c)
  | some f =>
      match c.fields.find dst with
      | some g =>
          if ¬ overwrite then (.throw .fieldError, c)
          else if g.nbComp ≠ f.nbComp then (.throw .fieldError, c)
          else if g.tag ≠ f.tag then (.throw .fieldError, c)
          else if g.ty ≠ f.ty then (.throw .fieldError, c)
          else match c.assignField srt f g with
            | (r, g') => (r, { c with fields := c.fields.insert dst g' })
      | none =>
          match c.register dst f.ty (.num f.nbComp) f.tag f.unit false with
          | (.ok _, c1) =>
              match c1.fields.find dst with
              | none => (.ub, c1)
              | some g => match c1.assignField srt f g with
                | (r, g') => (r, { c1 with fields := c1.fields.insert dst g' })
          | (r, c1) => (r, c1)

/-- `GlobalFieldCollection::get_empty_clone`, field_collection_global.cc 163-169: the constructor's
default storage order (column-major), and the default (automatic) order of the pixels. -/
def emptyCloneGlobal (srt : SortFn) (c : Coll α U) : Res (Coll α U) :=
  match (mk' true c.dim .colMajor c.subPts : Res (Coll α U)) with
  | .ok d =>
      match d.initGlobalOrder srt c.domainPts c.pixels.nb c.pixels.loc .automatic with
      | (.ok _, d') => .ok d'
      | (.throw e, _) => .throw e
      | (.ub, _) => .ub
  | .throw e => .throw e
  | .ub => .ub

/-- `LocalFieldCollection::get_empty_clone`, field_collection_local.cc 78-91.  `add_pixel` cannot
fail here, the new collection not being initialised. -/
def emptyCloneLocal (c : Coll α U) : Res (Coll α U) :=
  match (mk' false c.dim .colMajor c.subPts : Res (Coll α U)) with
  | .ok d => .ok (c.pixelIndices.foldl (fun d id => (d.addPixel id).2) d)
  | .throw e => .throw e
  | .ub => .ub

/-- Calls a program can make on a collection and the fields it owns.
The calls are cited in `step`; field_collection.hh 89-880. -/
inductive Op (α U : Type)
  | register (name : String) (ty : ElemType) (comps : Comps) (tag : String) (unit : U) (allow : Bool)
  | registerState (pre : String) (ty : ElemType) (nbMemory nbComp : Int) (tag : String) (unit : U)
      (allow : Bool)
  | pop (name : String)
  | detached (name : String) (ty : ElemType) (shape : List Int) (tag : String) (unit : U)
  | setNbSubPts (tag : String) (n : Int)
  | getSub (tag : String)
  | initGlobal (dom sub loc strides : List Int)
  | initGlobalOrder (dom sub loc : List Int) (order : StorageOrder)
  | addPixel (id : Int)
  | initLocal
  | reshape (name : String) (shape : List Int)
  | reshapeTag (name : String) (shape : List Int) (tag : String)
  | pushBack (name : String) (single : Bool) (value : List α)
  | setPadSize (name : String) (pad : Nat)
  | setZero (name : String)
  | write (name : String) (i : Nat) (v : α)
  | cycle (pre : String)
  | clone (src dst : String) (overwrite : Bool)
  deriving DecidableEq, Repr

/-- Forget the value of a result.  Model only. For field_collection.hh 94-890. -/
def unitOf {β : Type} : Res β → Res Unit
  | .ok _ => .ok ()
  | .throw e => .throw e
  | .ub => .ub

/-- One call.  The operations of the other kind of collection do not exist in the static type
(field_collection_global.hh, field_collection_local.hh); here they do nothing. -/
def step (srt : SortFn) (c : Coll α U) : Op α U → Res Unit × Coll α U
  | .register name ty comps tag unit allow => c.register name ty comps tag unit allow
  | .registerState pre ty m n tag unit allow => c.registerState pre ty m n tag unit allow
  | .pop name => match c.pop name with | (r, c') => (unitOf r, c')
  | .detached name ty shape tag unit =>
      match c.detached name ty shape tag unit with | (r, c') => (unitOf r, c')
  | .setNbSubPts tag n => c.setNbSubPts tag n
  | .getSub tag => (.ok (), (c.getSub tag).2)
  | .initGlobal dom sub loc strides =>
      if c.global then c.initGlobal srt dom sub loc strides else (.ok (), c)
  | .initGlobalOrder dom sub loc order =>
      if c.global then c.initGlobalOrder srt dom sub loc order else (.ok (), c)
  | .addPixel id => if c.global then (.ok (), c) else c.addPixel id
  | .initLocal => if c.global then (.ok (), c) else c.initLocal
  | .reshape name shape => c.onField name (fun f => f.reshape shape)
  | .reshapeTag name shape tag => c.reshapeTag name shape tag
  | .pushBack name single value => c.onField name (fun f => f.pushBack c.global single value)
  | .setPadSize name pad => c.onField name (fun f => f.setPadSize c.nbBuf pad)
  | .setZero name => c.onField name Field.setZero
  | .write name i v => c.onField name (fun f => f.write i v)
  | .cycle pre => c.cycle pre
  | .clone src dst overwrite => c.clone srt src dst overwrite

/-- A program: calls in sequence, exceptions being caught, undefined behaviour ending it.
Programs are not part of /repo; the calls are cited in `step`. For field_collection.hh 94-890. -/
def run (srt : SortFn) (c : Coll α U) : List (Op α U) → Option (Coll α U)
  | [] => some c
  | op :: ops =>
      match c.step srt op with
      | (.ub, _) => none
      | (_, c') => run srt c' ops

end Coll

end Verif.Collection
