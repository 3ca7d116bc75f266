import Verif.Model.Basic
/-
Attributes of variables in NetCDF files: `NetCDFAtt` and the functions of `FileIONetCDF` that
register them, file_io_netcdf.cc 780-795, 865-933, 1414-1836, 2347-2393.
-/
namespace Verif.NetCDFAtt
open Verif

/-- The data types the constructor accepts, file_io_netcdf.cc 1461-1474.  `char`, `int`, `uint`,
`int64` and `double` are `MU_NC_CHAR`, `MU_NC_INT`, `MU_NC_UINT`, `MU_NC_INDEX_T` and `MU_NC_REAL`
(file_io_netcdf.hh 201-205); `other` stands for the types the constructor rejects. -/
inductive NcType
  | char | short | int | float | double | ushort | uint | int64 | uint64 | other
  deriving DecidableEq, Repr

/-- There is a member `value_*` for the type: the cases of the `switch` statements,
file_io_netcdf.cc 1686-1718, 1727-1757, 1766-1807. -/
def NcType.stored : NcType → Bool
  | .char | .int | .uint | .int64 | .double => true
  | _ => false

/-- `NetCDFAtt`, file_io_netcdf.hh.  The members `value_c`, `value_i`, ... are one list, the one for the
data type.  `V` are the values of an element. -/
structure Att (V : Type) where
  name : String
  ty : NcType
  nelems : Nat
  value : List V
  valueInit : Bool
  deriving DecidableEq, Repr

variable {V : Type} [Zero V] [DecidableEq V]

/-- The constructors with a value, file_io_netcdf.cc 1414-1457 (the one for `std::string` calls
`register_value`). -/
def Att.ofValue (name : String) (ty : NcType) (value : List V) : Att V :=
  ⟨name, ty, value.length, value, true⟩

/-- The constructor without a value, file_io_netcdf.cc 1460-1475. -/
def Att.ofName (name : String) (ty : NcType) (nelems : Nat) : Res (Att V) :=
  if ty = .other then .throw .fileIOError else .ok ⟨name, ty, nelems, [], false⟩

/-- The first `n` elements behind a pointer to the elements `mem`; reading more is undefined.
The `void *` values of file_io_netcdf.cc 1685-1811. -/
def takePtr (mem : List V) (n : Nat) : Res (List V) :=
  if mem.length < n then .ub else .ok (mem.take n)

/-- `NetCDFAtt::register_value`, file_io_netcdf.cc 1685-1721; `mem` are the elements behind the pointer. -/
def Att.registerValue (a : Att V) (mem : List V) : Res (Att V) :=
  if a.ty.stored then do
    let v ← takePtr mem a.nelems
    pure { a with value := v, valueInit := true }
  else .throw .fileIOError

/-- `NetCDFAtt::reserve_value_space`, file_io_netcdf.cc 1724-1762: the value is replaced by zeros, and the
pointer returned points to the value itself. -/
def Att.reserve (a : Att V) : Res (Att V) :=
  if a.ty.stored then .ok { a with value := List.replicate a.nelems 0 } else .throw .fileIOError

/-- `NetCDFAtt::equal_value`, file_io_netcdf.cc 1764-1811. -/
def Att.equalValue (a : Att V) (mem : List V) : Res Bool :=
  if a.ty.stored then do
    let v ← takePtr mem a.nelems
    pure (decide (a.value = v))
  else .throw .fileIOError

/-- An attribute in a file.  Library state, read at file_io_netcdf.cc 865-910. -/
structure FileAtt (V : Type) where
  name : String
  ty : NcType
  value : List V
  deriving DecidableEq, Repr

/-- `ncmu_get_att` (trusted): copies all elements of the attribute of that name to the memory behind the
pointer.  Writing beyond the memory is undefined; so is here reading an attribute of another type
(the library copies it in the type of the file).  Called at file_io_netcdf.cc 903. -/
def getAtt (file : List (FileAtt V)) (name : String) (ty : NcType) (mem : List V) : Res (List V) :=
  match file.find? fun f => f.name = name with
  | none => .throw .fileIOError
  | some f =>
      if f.ty ≠ ty ∨ mem.length < f.value.length then .ub
      else .ok (f.value ++ mem.drop f.value.length)

/-- The body of the loop of `register_netcdf_attribute_values`, file_io_netcdf.cc 903-931.  `value` points to
the value of the attribute itself: after `ncmu_get_att` the attribute has the elements from the file,
and these are what `equal_value` and `register_value` get. -/
def registerAttValue (file : List (FileAtt V)) (a : Att V) : Res (Att V) := do
  let a1 ← a.reserve
  let mem ← getAtt file a.name a.ty a1.value
  let a2 := { a1 with value := mem }
  if a2.valueInit then do
    let eq ← a2.equalValue mem
    if eq then .ok a2 else .throw .fileIOError
  else a2.registerValue mem

/-- `register_netcdf_attribute_values` for one variable, file_io_netcdf.cc 899-933. -/
def registerAttValues (file : List (FileAtt V)) : List (Att V) → Res (List (Att V))
  | [] => .ok []
  | a :: as => do
      let a' ← registerAttValue file a
      let as' ← registerAttValues file as
      pure (a' :: as')

/-- `NetCDFVarBase::register_attribute`, file_io_netcdf.cc 2359-2371. -/
def registerAtt (atts : List (Att V)) (f : FileAtt V) : Res (List (Att V)) :=
  if f.name ∈ atts.map Att.name then .ok atts
  else do
    let a ← Att.ofName f.name f.ty f.value.length
    pure (atts ++ [a])

/-- `register_netcdf_attribute_names` for one variable, file_io_netcdf.cc 865-896: at most
`MAX_NB_ATTRIBUTES` (10, file_io_netcdf.hh 1203) attributes. -/
def registerAttNames (atts : List (Att V)) : List (FileAtt V) → Res (List (Att V))
  | [] => .ok atts
  | f :: fs => do
      let atts' ← registerAtt atts f
      registerAttNames atts' fs

/-- Both, as called in `register_field_collection` for a file that is read or appended to,
file_io_netcdf.cc 155-166. -/
def registerAtts (file : List (FileAtt V)) (atts : List (Att V)) : Res (List (Att V)) := do
  let atts' ← registerAttNames atts (file.take 10)
  registerAttValues file atts'

/-- `ncmu_put_att` (trusted) as called in `define_netcdf_attributes`, file_io_netcdf.cc 781-795: an attribute
that exists is replaced. -/
def putAtt (file : List (FileAtt V)) (a : Att V) : List (FileAtt V) :=
  if a.name ∈ file.map FileAtt.name then
    file.map fun f => if f.name = a.name then ⟨a.name, a.ty, a.value⟩ else f
  else file ++ [⟨a.name, a.ty, a.value⟩]

/-- `define_netcdf_attributes` for one variable.  file_io_netcdf.cc 781-795. -/
def defineAtts (atts : List (Att V)) : List (FileAtt V) := atts.foldl putAtt []

end Verif.NetCDFAtt
