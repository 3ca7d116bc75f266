import Verif.Model.Collection
/-
Model of the arithmetic of fields: `/repo/src/libmugrid/field_typed.cc` 377-441 (`=`, `= -x`, `= matrix`, `+=`,
`-=`) and 102-104 (`set_zero`), through the vectors of `eigen_vec`, 445-473.  The two fields of an operation may
belong to different collections.  Their element types are the same in C++ (the operations are members of
`TypedFieldBase<T>`); values are elements of any type with the operations.  Eigen's coefficient-wise operations
on `Eigen::Map`s are trusted; operands of different size violate a precondition of Eigen (`ub`).
-/
namespace Verif.FieldArith
open Verif Verif.Ccoord Verif.Layout Verif.Collection Verif.Collection.Coll

variable {α U : Type}

/-- The collections of a program, in the order in which they were made.  Programs are not part of /repo.
For field_typed.cc 378-444. -/
abbrev World (α U : Type) := List (Coll α U)

/-- A field by its collection and name; references in C++, from `get_field`, field_collection.cc 407-414. -/
structure Ref where
  coll : Nat
  name : String
  deriving DecidableEq, Repr

/-- The field and its collection.  `get_field`, field_collection.cc 407-414. -/
def get (w : World α U) (r : Ref) : Option (Coll α U × Field α U) :=
  match w[r.coll]? with
  | none => none
  | some c => (c.fields.find r.name).map (fun f => (c, f))

/-- The world after a change of one field.  Model only. For field_typed.cc 378-444. -/
def put (w : World α U) (r : Ref) (g : Field α U) : World α U :=
  w.modify r.coll (fun c => { c with fields := c.fields.insert r.name g })

/-- The size of the vector of `eigen_vec()`, field_typed.cc 445-473; it starts at `data_ptr`.  The two versions
check in different order but throw the same type. -/
def eigenVec (c : Coll α U) (f : Field α U) : Res Int :=
  if f.nbEntries c.nbPixels = Unknown then .throw .fieldError
  else if ¬ c.initialised then .throw .fieldError
  else .ok (f.nbEntries c.nbPixels * f.nbComp)

/-- `eigen_vec() = op(eigen_vec(), other.eigen_vec())`, coefficient by coefficient: field_typed.cc 382 (`=` of
local fields), 410 (`= -x`), 431 (`+=`), 439 (`-=`).  Reading or writing beyond a buffer is undefined. -/
def vecOp (op : α → α → α) (c : Coll α U) (dst : Field α U) (d : Coll α U) (src : Field α U) : Res (Field α U) := do
  let n ← eigenVec c dst
  let m ← eigenVec d src
  if n = m ∧ 0 ≤ n ∧ n ≤ dst.vals.length ∧ m ≤ src.vals.length ∧ dst.fresh ∧ src.fresh then
    pure { dst with vals := List.zipWith op (dst.vals.take n.toNat) (src.vals.take n.toNat) ++ dst.vals.drop n.toNat }
  else .ub

/-- `TypedFieldBase::operator=(const TypedFieldBase &)`, field_typed.cc 377-405; the kind of the collection of
the left-hand side decides. -/
def assignTo [Inhabited α] (srt : SortFn) (c : Coll α U) (dst : Field α U) (d : Coll α U) (src : Field α U) :
    Res (Field α U) :=
  if c.global then do
    let m ← FieldLayout.assign srt (c.layout dst) (d.layout src) (Field.mem src) (Field.mem dst)
    pure (Field.ofMem dst m)
  else vecOp (fun _ y => y) c dst d src

/-- `operator=(const EigenRep_t &)`, field_typed.cc 415-419: a dynamic matrix is assigned to a vector, so it
must have one column and as many rows as the vector. -/
def assignMat (c : Coll α U) (dst : Field α U) (rows cols : Nat) (data : List α) : Res (Field α U) := do
  let n ← eigenVec c dst
  if n = rows ∧ cols = 1 ∧ data.length = rows * cols ∧ n ≤ dst.vals.length ∧ dst.fresh then
    pure { dst with vals := data ++ dst.vals.drop rows }
  else .ub

/-- A statement of field arithmetic.  field_typed.hh 146-162. -/
inductive ArithOp (α : Type)
  /-- `dst = src` -/
  | assign (dst src : Ref)
  /-- `dst = -src` -/
  | neg (dst src : Ref)
  /-- `dst += src` -/
  | plus (dst src : Ref)
  /-- `dst -= src` -/
  | minus (dst src : Ref)
  /-- `dst.set_zero()` -/
  | zero (dst : Ref)
  /-- `dst = matrix` (column-major data) -/
  | matrix (dst : Ref) (rows cols : Nat) (data : List α)
  deriving DecidableEq, Repr

/-- The field that a statement changes.  field_typed.hh 146-162. -/
def ArithOp.dst : ArithOp α → Ref
  | .assign a _ => a
  | .neg a _ => a
  | .plus a _ => a
  | .minus a _ => a
  | .zero a => a
  | .matrix a _ _ _ => a

/-- The new field that a statement stores, field_typed.cc 102-104 and 377-441.  `= -x` (408-412) evaluates the
negative when it is assigned. -/
def ArithOp.result [Inhabited α] [Add α] [Sub α] [Neg α] (srt : SortFn) (w : World α U) :
    ArithOp α → Res (Field α U)
  | .assign a b => match get w a, get w b with
      | some (c, f), some (d, g) => assignTo srt c f d g
      | _, _ => .throw .fieldCollectionError
  | .neg a b => match get w a, get w b with
      | some (c, f), some (d, g) => vecOp (fun _ y => -y) c f d g
      | _, _ => .throw .fieldCollectionError
  | .plus a b => match get w a, get w b with
      | some (c, f), some (d, g) => vecOp (· + ·) c f d g
      | _, _ => .throw .fieldCollectionError
  | .minus a b => match get w a, get w b with
      | some (c, f), some (d, g) => vecOp (· - ·) c f d g
      | _, _ => .throw .fieldCollectionError
  | .zero a => match get w a with
      | some (_, f) => .ok { f with vals := List.replicate f.vals.length default }
      | none => .throw .fieldCollectionError
  | .matrix a rows cols data => match get w a with
      | some (c, f) => assignMat c f rows cols data
      | none => .throw .fieldCollectionError

/-- One statement: nothing changes unless it succeeds (the checks come before the first write).
field_typed.cc 377-441. -/
def arith [Inhabited α] [Add α] [Sub α] [Neg α] (srt : SortFn) (w : World α U) (op : ArithOp α) :
    Res Unit × World α U :=
  match op.result srt w with
  | .ok g => (.ok (), put w op.dst g)
  | .throw e => (.throw e, w)
  | .ub => (.ub, w)

/-- Statements in sequence; the first that does not succeed ends the program.  Programs are not part of /repo.
For field_typed.cc 378-444. -/
def runArith [Inhabited α] [Add α] [Sub α] [Neg α] (srt : SortFn) (w : World α U) :
    List (ArithOp α) → Res (World α U)
  | [] => .ok w
  | op :: ops => match arith srt w op with
      | (.ok (), w') => runArith srt w' ops
      | (.throw e, _) => .throw e
      | (.ub, _) => .ub

end Verif.FieldArith
