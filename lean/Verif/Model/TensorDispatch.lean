import Verif.Model.Tensor
/-
How the tensor operations of `/repo/src/libmugrid/tensor_algebra.hh` are chosen from the sizes of their arguments
(`EigenCheck::tensor_rank`, `/repo/src/libmugrid/eigen_tools.hh`).

All of this happens at compile time: `none` means that the call does not compile, either because a
`static_assert` fails or because the chosen class template has no such member.  Entries are as in `Model/Tensor.lean`.
Simplified: only matrices of fixed size, and no type of entries.  `junk` stands for the values of uninitialised
result matrices, as in `Model/Tensor.lean`.
-/
namespace Verif.TensorDispatch
open Verif.Tensor

/-- A matrix together with its size `RowsAtCompileTime x ColsAtCompileTime`, the only thing the choice depends on
(eigen_tools.hh 247-253). -/
structure Mat (R : Type) where
  rows : Nat
  cols : Nat
  val : Matrix (Fin rows) (Fin cols) R

/-- The entries of a matrix whose size is known to be `r x c`: what a function template instantiated for this size
sees (tensor_algebra.hh 482-484, 512-514, 543-545). -/
def Mat.view (M : Mat R) (r c : Nat) (h : M.rows = r ∧ M.cols = c) : Matrix (Fin r) (Fin c) R :=
  Matrix.of fun i j => M.val (Fin.cast h.1.symm i) (Fin.cast h.2.symm j)

/-- The orders `firstOrder`, `secondOrder` and `fourthOrder`, grid_common.hh 95-97. -/
inductive Order where
  | first
  | second
  | fourth
  deriving DecidableEq, Repr

/-- `get_rank<Dim, NbRow, NbCol>()`, eigen_tools.hh 224-238: the three tests in this order. -/
def getRank (dim nbRow nbCol : Nat) : Option Order :=
  if nbRow = dim ∧ nbCol = 1 then some .first
  else if nbRow = dim ∧ nbCol = nbRow then some .second
  else if nbRow = dim * dim ∧ nbCol = dim * dim then some .fourth
  else none

/-- The number of an order, grid_common.hh 95-97. -/
def Order.number : Order → Nat
  | .first => 1
  | .second => 2
  | .fourth => 4

/-- `TensorRows(rank, dim)`, field_map_static.hh 466-498: the number of rows of the iterates of a tensor field map; `none`
where the function throws, which happens while compiling. -/
def tensorRows (rank dim : Nat) : Option Nat :=
  match rank with
  | 0 => some 1
  | 1 => some dim
  | 2 => some dim
  | 4 => some (dim * dim)
  | _ => none

/-- `TensorCols(rank, dim)`, field_map_static.hh 504-530. -/
def tensorCols (rank dim : Nat) : Option Nat :=
  match rank with
  | 0 => some 1
  | 1 => some 1
  | 2 => some dim
  | 4 => some (dim * dim)
  | _ => none

/-- The column matrix of a vector, the return type `Eigen::Matrix<…, Dim, 1>` of tensor_algebra.hh 488-492. -/
def column (v : Fin d → R) : Mat R := ⟨d, 1, Matrix.of fun i _ => v i⟩

/-- A square matrix with its size, tensor_algebra.hh 136-137. -/
def square (A : T2 d R) : Mat R := ⟨d, d, A⟩

/-- A fourth-order tensor with its size, T4_map_proxy.hh 44-58. -/
def square4 (A : T4 d R) : Mat R := ⟨d * d, d * d, A⟩

variable [NonUnitalNonAssocSemiring R]

/-- The member `push_forward` of `AxisTransformer<Order>`, tensor_algebra.hh 480-556.  The sizes are those for which
`getRank` gives this order; for other sizes Eigen's products do not compile. -/
def axisPush (junk junk' : T4 d R) (o : Order) (t : Mat R) (F : T2 d R) : Option (Mat R) :=
  match o with
  | .first => if h : t.rows = d ∧ t.cols = 1 then
      some (column (pushForward1 (fun i => t.view d 1 h i 0) F)) else none
  | .second => if h : t.rows = d ∧ t.cols = d then some (square (pushForward2 (t.view d d h) F)) else none
  | .fourth => if h : t.rows = d * d ∧ t.cols = d * d then
      some (square4 (pushForward4 junk junk' (t.view (d * d) (d * d) h) F)) else none

/-- `AxisTransform::push_forward`, tensor_algebra.hh 574-581: the dimension is that of `F`, which has to be square
(`tensor_dim`, eigen_tools.hh 189-197), the order follows from the size of `t`. -/
def pushForward (junk junk' : (d : Nat) → T4 d R) (t F : Mat R) : Option (Mat R) :=
  if h : F.cols = F.rows then
    match getRank F.rows t.rows t.cols with
    | some o => axisPush (junk F.rows) (junk' F.rows) o t (F.view F.rows F.rows ⟨rfl, h⟩)
    | none => none
  else none

/-- `AxisTransform::pull_back`, tensor_algebra.hh 584-590, with the members of tensor_algebra.hh 495-568: `push_forward`
of the same class with the inverse matrix.  `inv`: Eigen's `inverse()`. -/
def pullBack (junk junk' : (d : Nat) → T4 d R) (inv : (d : Nat) → T2 d R → T2 d R) (t F : Mat R) : Option (Mat R) :=
  if h : F.cols = F.rows then
    match getRank F.rows t.rows t.cols with
    | some o => axisPush (junk F.rows) (junk' F.rows) o t (inv F.rows (F.view F.rows F.rows ⟨rfl, h⟩))
    | none => none
  else none

/-- What `dot` and `ddot` return: a matrix or a number (tensor_algebra.hh 383, 410, 425, 439). -/
inductive Value (R : Type) where
  | matrix (M : Mat R)
  | number (x : R)

/-- `dot<Dim>(t1, t2)`, tensor_algebra.hh 448-455, with the specialisations of `Dotter` that have a member `dot`,
tensor_algebra.hh 358-414. -/
def dot (d : Nat) (A B : Mat R) : Option (Value R) :=
  match getRank d A.rows A.cols, getRank d B.rows B.cols with
  | some .second, some .fourth =>
    if h : (A.rows = d ∧ A.cols = d) ∧ (B.rows = d * d ∧ B.cols = d * d) then
      some (.matrix (square4 (dot24 (A.view d d h.1) (B.view (d * d) (d * d) h.2)))) else none
  | some .fourth, some .second =>
    if h : (A.rows = d * d ∧ A.cols = d * d) ∧ (B.rows = d ∧ B.cols = d) then
      some (.matrix (square4 (dot42 (A.view (d * d) (d * d) h.1) (B.view d d h.2)))) else none
  | _, _ => none

/-- `ddot<Dim>(t1, t2)`, tensor_algebra.hh 461-468, with the specialisations of `Dotter` that have a member `ddot`,
tensor_algebra.hh 358-359 and 416-441. -/
def ddot (d : Nat) (A B : Mat R) : Option (Value R) :=
  match getRank d A.rows A.cols, getRank d B.rows B.cols with
  | some .fourth, some .fourth =>
    if h : (A.rows = d * d ∧ A.cols = d * d) ∧ (B.rows = d * d ∧ B.cols = d * d) then
      some (.matrix (square4 (ddot44 (A.view (d * d) (d * d) h.1) (B.view (d * d) (d * d) h.2)))) else none
  | some .second, some .second =>
    if h : (A.rows = d ∧ A.cols = d) ∧ (B.rows = d ∧ B.cols = d) then
      some (.number (ddot22 (A.view d d h.1) (B.view d d h.2))) else none
  | _, _ => none

/-- `TensorMultiplicationProvider<Dim, SmallRank>::multiply`, tensor_algebra.hh 233-300, with its `static_assert`s.  For
`firstOrder`, and for one dimension, it is the matrix product; for `fourthOrder` there is no member. -/
def multiply (d : Nat) (o : Order) (A B : Mat R) : Option (Mat R) :=
  match o with
  | .first => if h : (A.rows = d ∧ A.cols = d) ∧ (B.rows = d ∧ B.cols = 1) then
      some (column (tensmult1 (A.view d d h.1) (fun i => B.view d 1 h.2 i 0))) else none
  | .second => if h : (A.rows = d * d ∧ A.cols = d * d) ∧ (B.rows = d ∧ B.cols = d) then
      some (square (Tensor.tensmult (A.view (d * d) (d * d) h.1) (B.view d d h.2))) else none
  | .fourth => none

/-- Twice an order as in `LargeRank == 2 * SmallRank`, tensor_algebra.hh 314. -/
def isDouble : Order → Order → Bool
  | .second, .first => true
  | .fourth, .second => true
  | _, _ => false

/-- `tensmult`, tensor_algebra.hh 307-318: the dimension is the number of rows of the smaller tensor. -/
def tensmult (A B : Mat R) : Option (Mat R) :=
  match getRank B.rows B.rows B.cols, getRank B.rows A.rows A.cols with
  | some small, some large =>
    if isDouble large small ∨ B.rows = 1 then multiply B.rows small A B else none
  | _, _ => none

end Verif.TensorDispatch
