import Verif.Model.RawMemory
/-
Model of the shapes and strides of a field: `/repo/src/libmugrid/field.cc` 162-310, and of the
collection data they depend on (`field_collection_global.cc` 172-184, `field_collection_local.cc`
92-101, `field_collection.cc` 352-357).
-/
namespace Verif.Layout
open Verif Verif.Ccoord

/-- `StorageOrder`, grid_common.hh 148-155. -/
inductive StorageOrder
  | colMajor
  | rowMajor
  | unknown
  | automatic
  deriving DecidableEq, Repr

/-- `IterUnit`, grid_common.hh 120-123. -/
inductive IterUnit
  | pixel
  | subPt
  deriving DecidableEq, Repr

/-- The data of a field and of its collection that determine shapes and strides: the storage order
of the collection, the component shape and number of sub-points of the field, the shape, strides
and buffer size of the pixels.  field.cc 162-310. -/
structure FieldLayout where
  order : StorageOrder
  comps : List Int
  nbSub : Int
  pixShape : List Int
  pixStrides : List Int
  nbBuf : Int
  deriving DecidableEq, Repr

namespace FieldLayout

/-- `Field::get_nb_components`, field.cc 84-86.  The member always equals the product of the
components shape (constructors 43-60, reshape 126-159); `get_nb_from_shape` accumulates in an `int`,
taken as unbounded. -/
def nbComp (l : FieldLayout) : Int := getSize l.comps

/-- `Field::get_nb_dof_per_pixel`, field.cc 92-94. -/
def nbDof (l : FieldLayout) : Int := l.nbComp * l.nbSub

/-- `shape[shape.size() - 1] *= nb` on a non-empty shape, field.cc 172. -/
def scaleLast (nb : Int) : List Int → List Int
  | [] => []
  | [n] => [n * nb]
  | n :: shape => n :: scaleLast nb shape

/-- `Field::get_sub_pt_shape`, field.cc 162-179. -/
def subPtShape (l : FieldLayout) : IterUnit → List Int
  | .pixel =>
      if l.nbSub > 1 then
        if l.comps.length = 0 then [l.nbSub] else scaleLast l.nbSub l.comps
      else l.comps
  | .subPt => l.comps ++ [l.nbSub]

/-- `Field::get_shape`, field.cc 187-197. -/
def shape (l : FieldLayout) (it : IterUnit) : List Int := l.subPtShape it ++ l.pixShape

/-- The loop of `get_components_strides`, field.cc 214-217. -/
def accStrides : Int → List Int → List Int
  | _, [] => []
  | acc, n :: shape => acc :: accStrides (acc * n) shape

/-- `Field::get_components_strides`, field.cc 200-222; `e` is the element size. -/
def componentsStrides (l : FieldLayout) (e : Int) : Res (List Int) :=
  match l.order with
  | .colMajor => .ok (accStrides e l.comps)
  | .rowMajor => .ok (accStrides e l.comps.reverse).reverse
  | _ => .throw .fieldError

/-- `Field::get_sub_pt_strides`, field.cc 225-246. -/
def subPtStrides (l : FieldLayout) (it : IterUnit) (e : Int) : Res (List Int) := do
  let strides ← l.componentsStrides e
  match it with
  | .pixel => pure strides
  | .subPt =>
      match l.order with
      | .rowMajor => pure (strides.map (· * l.nbSub) ++ [e])
      | _ => pure (strides ++ [l.nbComp * e])

/-- `get_pixels_strides`, field_collection_global.cc 177-184 (a local collection, with the single
pixel stride 1, gives the same: field_collection_local.cc 99-101). -/
def pixelsStrides (l : FieldLayout) (e : Int) : List Int := l.pixStrides.map (· * e)

/-- `Field::get_strides`, field.cc 254-276. -/
def strides (l : FieldLayout) (it : IterUnit) (e : Int) : Res (List Int) := do
  let s ← l.subPtStrides it e
  match l.order with
  | .colMajor => pure (s ++ (l.pixelsStrides e).map (· * l.nbDof))
  | .rowMajor => pure (s.map (· * l.nbBuf) ++ l.pixelsStrides e)
  | _ => .throw .fieldError

/-- `Field::has_same_memory_layout`, field.cc 305-310, with the comparison of the collections,
field_collection.cc 352-357.  Throws for other storage orders, like the strides. -/
def sameMemoryLayout (l m : FieldLayout) : Res Bool :=
  if l.pixShape = m.pixShape ∧ l.order = m.order ∧ l.pixStrides = m.pixStrides then
    if l.nbSub = m.nbSub then do
      let s ← l.componentsStrides 1
      let t ← m.componentsStrides 1
      pure (s == t)
    else .ok false
  else .ok false

/-- `TypedFieldBase::operator=` on global fields, field_typed.cc 378-405: shapes must agree, then a
strided copy.  `src` and `dst` are the memory of the source and of this field. -/
def assign {α : Type} (srt : SortFn) (self other : FieldLayout) (src dst : RawMemory.Mem α) :
    Res (RawMemory.Mem α) :=
  if self.shape .subPt ≠ other.shape .subPt then .throw .fieldError
  else do
    let ms ← self.strides .subPt 1
    let os ← other.strides .subPt 1
    RawMemory.stridedCopy srt (self.shape .subPt) os ms src dst

end FieldLayout

end Verif.Layout
