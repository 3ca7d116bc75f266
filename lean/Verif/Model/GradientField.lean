import Verif.Model.Gradient
import Verif.Model.FieldMap
/-
`GradientOperatorDefault` applied to fields as they are stored in collections:
`/repo/src/libmugrid/gradient_operator_default.cc` 163-339 on top of the pixel maps of
`field_map.cc` 70-99 (`Verif.Model.FieldMap`).  `Verif.Model.Gradient` describes the same loops on
functions of pixel, row and column.

The two fields may belong to the same collection or to different ones: the state is the list of the
collections of the program, and a reference to a field is the number of its collection and its name.
-/
namespace Verif

open Verif.Ccoord Verif.Layout Verif.Collection
open scoped BigOperators

variable {α U : Type}

/-- A reference to a field, `TypedFieldBase<Real> &`: number of its collection
(`Field::get_collection`, field.cc 66) and name. -/
structure FieldAt where
  coll : Nat
  name : String
  deriving DecidableEq, Repr

/-- The field a reference stands for, with its collection; a dangling reference is undefined behaviour.
The field arguments of gradient_operator_default.cc 163-339. -/
def FieldAt.get (a : FieldAt) (w : List (Coll α U)) : Res (Coll α U × Field α U) := do
  let c ← at! w a.coll
  match c.fields.find a.name with
  | some f => pure (c, f)
  | none => .ub

namespace GradOp

/-- `TypedField::set_zero`, field_typed.cc 102-104: every element of the buffer (including padding). -/
def zeroField [Zero α] (w : List (Coll α U)) (a : FieldAt) : Res (List (Coll α U)) := do
  let cf ← a.get w
  let f' := { cf.2 with vals := List.replicate cf.2.vals.length 0 }
  pure (w.set a.coll { cf.1 with fields := cf.1.fields.insert a.name f' })

/-- Conversion of the `Index_t` from `get_index` to the `size_t` index of `FieldMap::operator[]`,
field_map.hh 296-309: a negative one becomes huge, and the access is out of bounds. -/
def mapIndex (k : Int) : Res Nat := if 0 ≤ k then .ok k.toNat else .ub

/-- `matrix += m` for an iterate with `rows` rows, stored column by column.
gradient_operator_default.cc 230-240, 325-336. -/
def addMat [Add α] (rows : Nat) (m : Nat → Nat → α) (old : List α) : List α :=
  old.mapIdx (fun k v => v + m (k % rows) (k / rows))

/-- Entry in row `r` and column `c` of an iterate with `rows` rows, stored column by column.
gradient_operator_default.cc 230-240, 325-336. -/
def entry [Zero α] (rows : Nat) (l : List α) (r c : Nat) : α := l[c * rows + r]?.getD 0

variable [CommRing α] [Inhabited α] [DecidableEq U]

/-- The body of `apply_gradient_increment`, gradient_operator_default.cc 221 and 230-240:
`grad_val += alpha * nodal_vals * B_block.transpose()`.  Eigen multiplies matrices that do not fit only
with its assertions disabled: undefined. -/
def gradBodyF (op : GradOp α) (a : α) (nref qref : FieldAt) (nm qm : FieldMap) (id : Int) (index : Nat)
    (k : Int) (w : List (Coll α U)) : Res (List (Coll α U)) := do
  let kn ← mapIndex k
  let kq ← mapIndex id
  let cn ← at! w nref.coll
  let u ← FieldMap.access cn nm kn
  let cq ← at! w qref.coll
  if nm.cols ≠ op.nbPixNodes ∨ qm.cols ≠ op.nbGrad ∨ nm.rows ≠ qm.rows then .ub
  else do
    let rows := nm.rows.toNat
    let cq' ← FieldMap.modifyAt cq qm (addMat rows (fun r c => ∑ j ∈ Finset.range op.nbPixNodes,
      a * entry rows u r j * op.B c (index * op.nbPixNodes + j))) kq
    pure (w.set qref.coll cq')

/-- The body of `apply_transpose_increment`, gradient_operator_default.cc 317 and 325-336:
`nodal_vals += alpha * grad_val * B_block`. -/
def transBodyF (op : GradOp α) (a : α) (nref qref : FieldAt) (nm qm : FieldMap) (weights : List α) (id : Int)
    (index : Nat) (k : Int) (w : List (Coll α U)) : Res (List (Coll α U)) := do
  let kn ← mapIndex k
  let kq ← mapIndex id
  let cq ← at! w qref.coll
  let s ← FieldMap.access cq qm kq
  if op.nbPixelQuad = 0 then .ub
  else do
    let wt ← at! weights (Int.tmod id op.nbPixelQuad).toNat
    let cn ← at! w nref.coll
    if nm.cols ≠ op.nbPixNodes ∨ qm.cols ≠ op.nbGrad ∨ nm.rows ≠ qm.rows then .ub
    else do
      let rows := nm.rows.toNat
      let cn' ← FieldMap.modifyAt cn nm (addMat rows (fun r j => ∑ c ∈ Finset.range op.nbGrad,
        a * (entry rows s r c * wt) * op.B c (index * op.nbPixNodes + j))) kn
      pure (w.set nref.coll cn')

/-- The checks both functions start with and the two pixel maps, gradient_operator_default.cc 174-212 and
268-305: result are the maps and the pixels of the collection of the quadrature-point field. -/
def prepare (op : GradOp α) (w : List (Coll α U)) (nref qref : FieldAt) :
    Res (FieldMap × FieldMap × DynamicPixels) := do
  let nf ← nref.get w
  let qf ← qref.get w
  if qf.1.global = false then .throw .runtimeError
  else if nf.1.global = false then .throw .runtimeError
  else if qf.2.nbComp ≠ op.dim * nf.2.nbComp then .throw .runtimeError
  else do
    let nm ← FieldMap.mkRows nf.1 nref.name nf.2.nbComp .pixel
    let qm ← FieldMap.mkRows qf.1 qref.name nf.2.nbComp .pixel
    pure (nm, qm, qf.1.pixels)

/-- `apply_gradient_increment`, gradient_operator_default.cc 171-243. -/
def gradientIncrementF (srt : SortFn) (op : GradOp α) (w : List (Coll α U)) (nref : FieldAt) (a : α)
    (qref : FieldAt) : Res (List (Coll α U)) := do
  let m ← op.prepare w nref qref
  let offs ← offsets srt op.dim
  let pixels ← m.2.2.enumerate
  pixelLoop m.2.2 offs (op.gradBodyF a nref qref m.1 m.2.1) pixels w

/-- `apply_transpose_increment`, gradient_operator_default.cc 257-339. -/
def transposeIncrementF (srt : SortFn) (op : GradOp α) (w : List (Coll α U)) (qref : FieldAt) (a : α)
    (nref : FieldAt) (weights : List α) : Res (List (Coll α U)) := do
  let ws := if weights.length = 0 then List.replicate op.nbPixelQuad 1 else weights
  let m ← op.prepare w nref qref
  let offs ← offsets srt op.dim
  let pixels ← m.2.2.enumerate
  pixelLoop m.2.2 offs (op.transBodyF a nref qref m.1 m.2.1 ws) pixels w

/-- Outcome and state after a call that first sets the field `out` to zero and then runs `body`. Every
exception of the bodies here comes before the first write.  gradient_operator_default.cc 163-168, 246-254. -/
def zeroThen (w : List (Coll α U)) (out : FieldAt) (body : List (Coll α U) → Res (List (Coll α U))) :
    Res Unit × List (Coll α U) :=
  match zeroField w out with
  | .ok w0 =>
      match body w0 with
      | .ok w' => (.ok (), w')
      | .throw e => (.throw e, w0)
      | .ub => (.ub, w0)
  | .throw e => (.throw e, w)
  | .ub => (.ub, w)

/-- `apply_gradient`, gradient_operator_default.cc 163-168. -/
def applyGradientF (srt : SortFn) (op : GradOp α) (w : List (Coll α U)) (nref qref : FieldAt) :
    Res Unit × List (Coll α U) :=
  zeroThen w qref (fun w0 => op.gradientIncrementF srt w0 nref 1 qref)

/-- `apply_transpose`, gradient_operator_default.cc 246-254. -/
def applyTransposeF (srt : SortFn) (op : GradOp α) (w : List (Coll α U)) (qref nref : FieldAt)
    (weights : List α) : Res Unit × List (Coll α U) :=
  zeroThen w nref (fun w0 => op.transposeIncrementF srt w0 qref 1 nref weights)

end GradOp

end Verif
