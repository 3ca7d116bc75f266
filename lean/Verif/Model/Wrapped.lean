import Verif.Model.Numpy
/-
Fields on existing memory: `WrappedField` of `/repo/src/libmugrid/field_typed.{hh,cc}`.  All fields share one memory, so that
two fields may show the same cells.  The collections of the fields are initialised.
-/
namespace Verif.WrappedMemory
open Verif Verif.Ccoord Verif.RawMemory Verif.Layout Verif.Layout.FieldLayout Verif.Numpy

variable {α : Type}

/-- A `WrappedField`: layout and own strides, the kind of its collection, and its members `size` and `data_ptr`.
field_typed.hh 448-550. -/
structure WField where
  field : Wrapped
  isGlobal : Bool
  size : Int
  base : Int
  deriving DecidableEq, Repr

/-- The constructors of `WrappedField` from a pointer, field_typed.cc 551-594 and 596-639 (they differ in how the shape of the
components is given). -/
def wrap (l : FieldLayout) (custom : List Int) (isGlobal : Bool) (size base : Int) : Res WField := do
  let w ← wrapField l size custom
  pure ⟨w, isGlobal, size, base⟩

/-- An `Eigen::Ref` to a matrix of scalars (column-major): entry `(i, j)` is at `base + i + outer * j`.  The library type; it
is made by the caller of field_typed.cc 642-669. -/
structure EigenRef where
  rows : Int
  cols : Int
  outer : Int
  base : Int
  deriving DecidableEq, Repr

/-- The constructors of `WrappedField` from an `Eigen::Ref`, field_typed.cc 641-668: size and pointer are passed on, the outer
stride is not.  Also `make_const`, 671-685, which maps the same rows and columns without outer stride. -/
def wrapEigen (l : FieldLayout) (custom : List Int) (isGlobal : Bool) (r : EigenRef) : Res WField :=
  wrap l custom isGlobal (r.rows * r.cols) r.base

/-- `WrappedField::get_storage_order`, field_typed.cc 732-739. -/
def WField.order (f : WField) : StorageOrder :=
  if f.field.custom.length > 0 then .unknown else f.field.layout.order

/-- `Field::get_nb_entries`, field.cc 107-112, times the number of components. -/
def WField.nbValues (f : WField) : Int :=
  f.field.layout.nbSub * getSize f.field.layout.pixShape * f.field.layout.nbComp

/-- `std::fill` on the first cells from `base`, field_typed.cc 698-701. -/
def fillLoop (base : Int) (v : α) : Nat → Mem α → Res (Mem α)
  | 0, m => .ok m
  | n + 1, m => do
      let m' ← fillLoop base v n m
      match m' (base + n) with
      | some _ => pure (m'.write (base + n) v)
      | none => .ub

/-- `WrappedField::set_zero`, field_typed.cc 697-701. -/
def WField.setZero [Inhabited α] (f : WField) (m : Mem α) : Res (Mem α) := fillLoop f.base default f.size.toNat m

/-- `WrappedField::set_pad_size`, field_typed.cc 688-694. -/
def WField.setPadSize (_ : WField) (_ : Nat) : Res WField := .throw .fieldError

/-- `WrappedField::resize`, field_typed.cc 704-714.  The pad size is 0 (it cannot be set). -/
def WField.resize (f : WField) : Res Unit := if f.nbValues ≠ f.size then .throw .fieldError else .ok ()

/-- The check of the constructors of `FieldMap`, field_map.cc 52-58 and 74-80; before it, `get_stride` and the default rows
and columns do not ask for strides. -/
def WField.mapCheck (f : WField) : Res Unit := if f.order ≠ .colMajor then .throw .runtimeError else .ok ()

/-- One coefficient of `eigen_vec() = op(eigen_vec(), other.eigen_vec())`.  field_typed.cc 382, 410, 431 and 439. -/
def vecCell (op : α → α → α) (db sb : Int) (k : Int) (m : Mem α) : Res (Mem α) :=
  match m (db + k), m (sb + k) with
  | some x, some y => .ok (m.write (db + k) (op x y))
  | _, _ => .ub

/-- The coefficients in ascending order.  Eigen may take several at once; this gives the same if the vectors do not overlap
or start at the same place.  field_typed.cc 382, 410, 431 and 439. -/
def vecLoop (op : α → α → α) (db sb : Int) : Nat → Mem α → Res (Mem α)
  | 0, m => .ok m
  | n + 1, m => do
      let m' ← vecLoop op db sb n m
      vecCell op db sb n m'

/-- Operations with `eigen_vec()` on both sides, field_typed.cc 408-441 with 445-473.  Vectors of different length are
undefined (an assertion of Eigen). -/
def vecOp (op : α → α → α) (dst src : WField) (m : Mem α) : Res (Mem α) :=
  if dst.nbValues ≠ src.nbValues then .ub
  else vecLoop op dst.base src.base dst.nbValues.toNat m

/-- The body of the loop of `strided_copy` for two pointers into one memory.  raw_memory_operations.hh 150-154. -/
def copyBodyIn (is os : List Int) (bi bo : Int) (idx : List Int) (m : Mem α) : Res (Mem α) :=
  match m (bi + linearIndex idx is), m (bo + linearIndex idx os) with
  | some x, some _ => .ok (m.write (bo + linearIndex idx os) x)
  | _, _ => .ub

/-- `strided_copy`, raw_memory_operations.hh 129-156, for two pointers into one memory. -/
def stridedCopyIn (srt : SortFn) (shape is os : List Int) (bi bo : Int) (m : Mem α) : Res (Mem α) :=
  if shape.length ≠ is.length then .throw .runtimeError
  else if shape.length ≠ os.length then .throw .runtimeError
  else do
    let axes ← computeAxesOrder srt shape os
    visit shape axes (copyBodyIn is os bi bo) m

/-- `TypedFieldBase::operator=(const TypedFieldBase &)`, field_typed.cc 377-405. -/
def assign (srt : SortFn) (dst src : WField) (m : Mem α) : Res (Mem α) :=
  if dst.isGlobal then
    if dst.field.layout.shape .subPt ≠ src.field.layout.shape .subPt then .throw .fieldError
    else do
      let ms ← dst.field.strides .subPt 1
      let os ← src.field.strides .subPt 1
      stridedCopyIn srt (dst.field.layout.shape .subPt) os ms src.base dst.base m
  else vecOp (fun _ y => y) dst src m

/-- Statements with wrapped fields.  field_typed.hh 146-162 and 525; through the base class, since `WrappedField` hides some operators. -/
inductive WOp
  /-- `dst = src` -/
  | assign (dst src : Nat)
  /-- `dst = -src` -/
  | neg (dst src : Nat)
  /-- `dst += src` -/
  | plus (dst src : Nat)
  /-- `dst -= src` -/
  | minus (dst src : Nat)
  /-- `dst.set_zero()` -/
  | zero (dst : Nat)
  deriving DecidableEq, Repr

/-- A statement on the fields `fs`.  field_typed.cc 377-441 and 697-701. -/
def WOp.run [Inhabited α] [Add α] [Sub α] [Neg α] (srt : SortFn) (fs : Nat → WField) : WOp → Mem α → Res (Mem α)
  | .assign a b => WrappedMemory.assign srt (fs a) (fs b)
  | .neg a b => vecOp (fun _ y => -y) (fs a) (fs b)
  | .plus a b => vecOp (· + ·) (fs a) (fs b)
  | .minus a b => vecOp (· - ·) (fs a) (fs b)
  | .zero a => (fs a).setZero

/-- Statements one after the other.  Model only, for field_typed.cc 377-441. -/
def runW [Inhabited α] [Add α] [Sub α] [Neg α] (srt : SortFn) (fs : Nat → WField) : List WOp → Mem α → Res (Mem α)
  | [], m => .ok m
  | op :: ops, m => do
      let m' ← op.run srt fs m
      runW srt fs ops m'

end Verif.WrappedMemory
