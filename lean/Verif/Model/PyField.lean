import Verif.Model.Numpy
import Verif.Model.Collection
/-
Python access to the values of a field: the properties `s` and `p`, the method `array` and the buffer
protocol, `/repo/language_bindings/python/bind_py_field.cc` 88-131.
-/
namespace Verif.PyField
open Verif Verif.Ccoord Verif.Layout Verif.RawMemory Verif.Numpy Verif.Collection

/-- `s /= sizeof(T)` of `array_setter`, bind_py_field.cc 101-102: `s` is an `Index_t` (signed, 64 bits),
`sizeof(T)` a `size_t` (unsigned, 64 bits), so the quotient is the one of unsigned numbers, and is converted
back. -/
def elemStride (item b : Int) : Int :=
  if (b % 2 ^ 64) / item < 2 ^ 63 then (b % 2 ^ 64) / item else (b % 2 ^ 64) / item - 2 ^ 64

/-- The body of the loop of `strided_copy`, raw_memory_operations.hh 150-154, on a memory that holds both
buffers: `p` and `q` are the addresses in bytes of the first element of the input and of the output.  The
memory has a value at the addresses where an element starts; elements do not overlap in part. -/
def copyBodyAt {α : Type} (item p q : Int) (inStrides outStrides : List Int) (idx : List Int)
    (heap : Mem α) : Res (Mem α) :=
  match heap (p + item * linearIndex idx inStrides), heap (q + item * linearIndex idx outStrides) with
  | some x, some _ => .ok (heap.write (q + item * linearIndex idx outStrides) x)
  | _, _ => .ub

/-- `strided_copy`, raw_memory_operations.hh 129-156, within one memory. -/
def stridedCopyAt {α : Type} (srt : SortFn) (item : Int) (shape inStrides outStrides : List Int)
    (p q : Int) (heap : Mem α) : Res (Mem α) :=
  if shape.length ≠ inStrides.length then .throw .runtimeError
  else if shape.length ≠ outStrides.length then .throw .runtimeError
  else do
    let axes ← computeAxesOrder srt shape outStrides
    visit shape axes (copyBodyAt item p q inStrides outStrides) heap

/-- `array_setter`, bind_py_field.cc 93-109: `f.s = a` (`SubPt`) and `f.p = a` (`Pixel`).  `q` is the address
of the buffer of the field, `p` the one of the first element of the array.  An array of another element type
is converted before by pybind11 into a new array (trusted). -/
def arraySetter {α : Type} (srt : SortFn) (l : FieldLayout) (it : IterUnit) (q : Int) (a : NpArray) (p : Int)
    (heap : Mem α) : Res (Mem α) :=
  if a.shape ≠ l.shape it then .throw .runtimeError
  else do
    let s ← l.strides it 1
    stridedCopyAt srt a.item (l.shape it) (a.strides.map (elemStride a.item)) s p q heap

/-- What the getters return: an array that shows the buffer of the field, or an array of its own.
bind_py_field.cc 88-131. -/
inductive View
  | window (a : NpArray)
  | detached (a : NpArray)
  deriving DecidableEq, Repr

variable {α U : Type} [Inhabited α] [DecidableEq U]

/-- `array_getter`, bind_py_field.cc 88-91, and `array`, 124-129, with `numpy_wrap`, numpy_tools.hh 429-437.
The constructor of `py::array_t` (trusted) throws `std::runtime_error` if there is not one stride per axis and
`ValueError` for negative extents.  Before the first allocation the pointer is null (field_typed.hh 274) and
the constructor allocates memory of its own.  A pointer to memory that was released gives a window that may
not be used (`ub`). -/
def view (c : Coll α U) (name : String) (it : IterUnit) (item : Int) : Res View :=
  match c.fields.find name with
  | none => .throw .fieldCollectionError
  | some f => do
      let a ← numpyWrap ⟨c.layout f, []⟩ it item
      if a.shape.length ≠ a.strides.length then .throw .runtimeError
      else if a.shape.any (· < 0) then .throw .valueError
      else if f.fresh then pure (.window a)
      else if f.vals.length = 0 then pure (.detached a)
      else .ub

/-- The buffer protocol, bind_py_field.cc 114-123, for example `np.asarray(f)`. -/
def buffer (c : Coll α U) (name : String) (item : Int) : Res NpArray :=
  match c.fields.find name with
  | none => .throw .fieldCollectionError
  | some f =>
      if ¬ c.initialised then .throw .runtimeError
      else do
        let s ← (c.layout f).strides .subPt item
        pure ⟨(c.layout f).shape .subPt, s, item⟩

/-- `f.s = a` or `f.p = a` for the field called `name`, bind_py_field.cc 93-109, with an array whose memory
`inp` (addresses in bytes) is apart from the buffer of the field. -/
def setArray (srt : SortFn) (c : Coll α U) (name : String) (it : IterUnit) (a : NpArray) (inp : Mem α) :
    Res Unit × Coll α U :=
  match c.fields.find name with
  | none => (.throw .fieldCollectionError, c)
  | some f =>
      if a.shape ≠ (c.layout f).shape it then (.throw .runtimeError, c)
      else
        match (c.layout f).strides it 1 >>= fun s =>
          stridedCopy srt ((c.layout f).shape it) (a.strides.map (elemStride a.item)) s
            (fun i => inp (a.item * i)) (Coll.Field.mem f) with
        | .ok m => (.ok (), { c with fields := c.fields.insert name (Coll.Field.ofMem f m) })
        | .throw e => (.throw e, c)
        | .ub => (.ub, c)

end Verif.PyField
