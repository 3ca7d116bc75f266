import Mathlib.Algebra.BigOperators.Group.Finset.Basic
import Mathlib.Algebra.Ring.Defs
import Verif.Model.Ccoord
/-
`GradientOperatorDefault`, `/repo/src/libmugrid/gradient_operator_default.cc`.

Scalars are elements of a commutative ring (no rounding).  Eigen matrices are functions of row and column
together with their extents; Eigen's products are finite sums.  Counts (`Index_t` in the code) are
natural numbers here.
-/
namespace Verif

open Verif.Ccoord
open scoped BigOperators

/-- `Eigen::MatrixXd` / `Eigen::MatrixXi`: extents and entries.  gradient_operator_default.hh 90-91 and 203. -/
structure Mat (α : Type) where
  rows : Nat
  cols : Nat
  e : Nat → Nat → α

/-- The members of `GradientOperatorDefault`, gradient_operator_default.hh 197-225; `B` is
`pixel_gradient`, with `dim * nbQuad * nbElem` rows and `2^dim * nbPixNodes` columns. -/
structure GradOp (α : Type) where
  dim : Nat
  nbQuad : Nat
  nbElem : Nat
  nbElemNodes : Nat
  nbPixNodes : Nat
  B : Nat → Nat → α

namespace GradOp

variable {α : Type}

/-- The loop of the lambda `linear_index`, gradient_operator_default.cc 58-69, started with the node's
number and stride `nb_pixelnodes`. -/
def linearIndex : Int → Int → List Int → Int
  | ret, _, [] => ret
  | ret, stride, o :: os => linearIndex (ret + stride * o) (stride * 2) os

/-- The linear index of the `i`-th element node. -/
def nodeColumn (nodal : List Int) (offs : Mat Int) (npn : Nat) (i : Nat) : Int :=
  linearIndex (nodal[i]?.getD 0) npn ((List.range offs.cols).map (offs.e i))

/-- `permutation`, gradient_operator_default.cc 48-77: each row gets one entry 1, written at
`linear_index`; the behaviour is undefined if that is not a column of the matrix. -/
def permutation [Zero α] [One α] (nodal : List Int) (offs : Mat Int) (npn : Nat) : Res (Nat → Nat → α) :=
  if (List.range offs.rows).all (fun i => decide (0 ≤ nodeColumn nodal offs npn i ∧
      nodeColumn nodal offs npn i < (npn * 2 ^ offs.cols : Nat))) then
    .ok (fun i j => if nodeColumn nodal offs npn i = (j : Int) then 1 else 0)
  else .ub

/-- Bounds-checked access `std::vector::at`.  gradient_operator_default.cc 100-134. -/
def at? {β : Type} (l : List β) (i : Nat) : Res β :=
  match l[i]? with
  | some b => .ok b
  | none => .throw .outOfRange

/-- The inner loop over quadrature points of the constructor, gradient_operator_default.cc 128-157, for
element `e`: the blocks `grad * permutation_matrix` in the order of `counter`. -/
def elementBlocks [CommRing α] (dim nbQuad nbElemNodes : Nat) (shape : List (List (Mat α)))
    (perm : Nat → Nat → α) (e : Nat) : Res (List (Nat → Nat → α)) :=
  DynamicPixels.forAll (fun q => do
    let row ← at? shape q
    let grad ← at? row e
    if grad.rows ≠ dim then .throw .runtimeError
    else if grad.cols ≠ nbElemNodes then .throw .runtimeError
    else pure (fun d j => ∑ i ∈ Finset.range nbElemNodes, grad.e d i * perm i j)) (List.range nbQuad)

/-- The constructor, gradient_operator_default.cc 80-160: row `dim * counter + d` of `pixel_gradient` is row
`d` of the block number `counter`. -/
def make [CommRing α] (dim nbQuad nbElem nbElemNodes nbPixNodes : Nat) (shape : List (List (Mat α)))
    (nodalPts : List (List Int × Mat Int)) : Res (GradOp α) := do
  let blocks ← DynamicPixels.forAll (fun e => do
    let np ← at? nodalPts e
    if np.1.length ≠ nbElemNodes then .throw .runtimeError
    else if np.2.rows ≠ nbElemNodes then .throw .runtimeError
    else if np.2.cols ≠ dim then .throw .runtimeError
    else do
      let perm ← permutation np.1 np.2 nbPixNodes
      elementBlocks dim nbQuad nbElemNodes shape perm e) (List.range nbElem)
  let all := blocks.flatten
  pure ⟨dim, nbQuad, nbElem, nbElemNodes, nbPixNodes, fun r j =>
    match all[r / dim]? with
    | some b => b (r % dim) j
    | none => 0⟩

/-- `get_nb_pixel_quad_pts`, gradient_operator_default.cc 346-348. -/
def nbPixelQuad (op : GradOp α) : Nat := op.nbQuad * op.nbElem

/-- `nb_grad_component_per_pixel`, gradient_operator_default.cc 94-95. -/
def nbGrad (op : GradOp α) : Nat := op.dim * op.nbQuad * op.nbElem

end GradOp

/-- A field as the gradient operator sees it: whether it belongs to a global collection, its number of
components and sub-points, and the entries of `get_pixel_map(rows)`: `val pixel row column`.  The
pixel map has `rows` = number of nodal components, so a nodal field has one column per sub-point and a
quadrature-point field `dim` columns per sub-point.  `nb` is the number of pixels of the collection
(pixel map entries that exist).  That these are entries of the buffer, and which, is C22.
The fields and pixel maps of gradient_operator_default.cc 171-243. -/
structure GField (α : Type) where
  isGlobal : Bool
  comps : Nat
  subPts : Nat
  nb : Nat
  val : Nat → Nat → Nat → α

namespace GField

variable {α : Type}

/-- `map[k] += m` for the entries of one pixel; outside the field the behaviour is undefined.
gradient_operator_default.cc 230-240, 325-336. -/
def addAt [Add α] (f : GField α) (k : Int) (m : Nat → Nat → α) : Res (GField α) :=
  if 0 ≤ k ∧ k < (f.nb : Int) then
    .ok { f with val := fun i r c => if (i : Int) = k then f.val i r c + m r c else f.val i r c }
  else .ub

/-- Reading `map[k]`.  gradient_operator_default.cc 230-240, 325-336. -/
def getAt (f : GField α) (k : Int) : Res (Nat → Nat → α) :=
  if 0 ≤ k ∧ k < (f.nb : Int) then .ok (f.val k.toNat) else .ub

/-- `set_zero`, field_typed.cc 102-104. -/
def setZero [Zero α] (f : GField α) : GField α := { f with val := fun _ _ _ => 0 }

end GField

namespace GradOp

variable {α : Type}

/-- `(base_ccoord + offset) % nb_subdomain_grid_pts`, gradient_operator_default.cc 227 and 323 with
`DynCcoord::operator+` (grid_common.hh 528-543, throws for different dimensions) and `operator%`
(grid_common.hh 429-441, C++ remainder, undefined for a zero divisor). -/
def shiftCcoord (base offset nb : List Int) : Res (List Int) :=
  if base.length ≠ offset.length then .throw .runtimeError
  else if nb.any (· == 0) then .ub
  else .ok (List.zipWith Int.tmod (List.zipWith (· + ·) base offset) nb)

/-- The loop over the offsets for one pixel, with a body `body index k` given the offset's number and the
index `k` of the shifted pixel: gradient_operator_default.cc 224-241 and 320-337. -/
def offsetLoop {σ : Type} (p : DynamicPixels) (base : List Int) (body : Nat → Int → σ → Res σ) :
    List (Nat × List Int) → σ → Res σ
  | [], s => .ok s
  | (index, offset) :: rest, s => do
      let cc ← shiftCcoord base offset p.nb
      let k ← p.getIndex cc
      let s' ← body index k s
      offsetLoop p base body rest s'

/-- The loop over the pixels, gradient_operator_default.cc 216-242 and 310-338. -/
def pixelLoop {σ : Type} (p : DynamicPixels) (offs : List (Nat × List Int))
    (body : Int → Nat → Int → σ → Res σ) : List (Int × List Int) → σ → Res σ
  | [], s => .ok s
  | (id, base) :: rest, s => do
      let s' ← offsetLoop p base (body id) offs s
      pixelLoop p offs body rest s'

/-- `akantu::enumerate(offsets)` for `DynamicPixels offsets{get_cube(dim, 2)}`,
gradient_operator_default.cc 215 and 224. -/
def offsets (srt : SortFn) (dim : Nat) : Res (List (Nat × List Int)) := do
  let cube ← DynamicPixels.mkDefault srt (List.replicate dim 2) []
  let l ← cube.pixels
  pure ((List.range l.length).zip l)

/-- The body of `apply_gradient_increment`, gradient_operator_default.cc 230-240:
`grad_val += alpha * nodal_vals * B_block.transpose()`. -/
def gradBody [CommRing α] (op : GradOp α) (a : α) (nodal : GField α) (id : Int) (index : Nat) (k : Int)
    (quad : GField α) : Res (GField α) := do
  let u ← nodal.getAt k
  quad.addAt id (fun r c => ∑ j ∈ Finset.range op.nbPixNodes, a * u r j * op.B c (index * op.nbPixNodes + j))

/-- `apply_gradient_increment`, gradient_operator_default.cc 171-243.  `p` are the pixels of the
collection of the quadrature-point field.  Fields with a wrong number of sub-points make Eigen multiply
matrices that do not fit: undefined.  So do fields without components (a map with zero rows). -/
def gradientIncrement [CommRing α] (srt : SortFn) (op : GradOp α) (p : DynamicPixels) (nodal : GField α)
    (a : α) (quad : GField α) : Res (GField α) :=
  if quad.isGlobal = false then .throw .runtimeError
  else if nodal.isGlobal = false then .throw .runtimeError
  else if quad.comps ≠ op.dim * nodal.comps then .throw .runtimeError
  else if nodal.comps = 0 ∨ nodal.subPts ≠ op.nbPixNodes ∨ quad.subPts ≠ op.nbPixelQuad then .ub
  else do
    let offs ← offsets srt op.dim
    let pixels ← p.enumerate
    pixelLoop p offs (fun id index k s => op.gradBody a nodal id index k s) pixels quad

/-- `apply_gradient`, gradient_operator_default.cc 163-168: outcome and field afterwards (the field is set
to zero before anything is checked). -/
def applyGradient [CommRing α] (srt : SortFn) (op : GradOp α) (p : DynamicPixels) (nodal quad : GField α) :
    Res Unit × GField α :=
  match op.gradientIncrement srt p nodal 1 quad.setZero with
  | .ok q => (.ok (), q)
  | .throw e => (.throw e, quad.setZero)
  | .ub => (.ub, quad.setZero)

/-- The body of `apply_transpose_increment`, gradient_operator_default.cc 317 and 325-336:
`nodal_vals += alpha * grad_val * B_block` with `grad_val = quad_map[id] * quad_weights[id % nb_pixel_quad_pts]`. -/
def transBody [CommRing α] (op : GradOp α) (a : α) (quad : GField α) (weights : List α) (id : Int)
    (index : Nat) (k : Int) (nodal : GField α) : Res (GField α) := do
  let s ← quad.getAt id
  if op.nbPixelQuad = 0 then .ub
  else do
    let w ← at! weights (Int.tmod id op.nbPixelQuad).toNat
    nodal.addAt k (fun r j => ∑ c ∈ Finset.range op.nbGrad, a * (s r c * w) * op.B c (index * op.nbPixNodes + j))

/-- `apply_transpose_increment`, gradient_operator_default.cc 257-339. -/
def transposeIncrement [CommRing α] (srt : SortFn) (op : GradOp α) (p : DynamicPixels) (quad : GField α)
    (a : α) (nodal : GField α) (weights : List α) : Res (GField α) :=
  let ws := if weights.length = 0 then List.replicate op.nbPixelQuad 1 else weights
  if quad.isGlobal = false then .throw .runtimeError
  else if nodal.isGlobal = false then .throw .runtimeError
  else if quad.comps ≠ op.dim * nodal.comps then .throw .runtimeError
  else if nodal.comps = 0 ∨ nodal.subPts ≠ op.nbPixNodes ∨ quad.subPts ≠ op.nbPixelQuad then .ub
  else do
    let offs ← offsets srt op.dim
    let pixels ← p.enumerate
    pixelLoop p offs (fun id index k s => op.transBody a quad ws id index k s) pixels nodal

/-- `apply_transpose`, gradient_operator_default.cc 246-254. -/
def applyTranspose [CommRing α] (srt : SortFn) (op : GradOp α) (p : DynamicPixels) (quad nodal : GField α)
    (weights : List α) : Res Unit × GField α :=
  match op.transposeIncrement srt p quad 1 nodal.setZero weights with
  | .ok q => (.ok (), q)
  | .throw e => (.throw e, nodal.setZero)
  | .ub => (.ub, nodal.setZero)

end GradOp

end Verif
