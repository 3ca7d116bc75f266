import Verif.Model.FileAtts
import Verif.Model.Reduce
/-
Global attributes of NetCDF files in python, `/repo/language_bindings/python/bind_py_file_io.cc` 205-329: the choice of an
overload by the argument, and the python objects that are returned.
-/
namespace Verif.PyAtts
open Verif Verif.NetCDF Verif.NetCDFAtt Verif.Reduce

variable {ρ : Type}

/-- What a python program passes as the value of an attribute: a `str`, `bytes`, a sequence of numbers (a list, a tuple, a
one-dimensional array), or some other object.  Arguments of bind_py_file_io.cc 205-222, 312-329.  Simplified: strings with
lone surrogates, which cannot be encoded, count as other objects. -/
inductive PyVal (ρ : Type)
  | str (s : String)
  | bytes (b : List UInt8)
  | seq (xs : List (PyNum ρ))
  | obj
  deriving DecidableEq, Repr

/-- An element of the value of an attribute: of `value_c`, of one of `value_i`, `value_ui`, `value_l`, or of `value_d`,
file_io_netcdf.hh 201-205 and file_io_netcdf.cc 1414-1457. -/
inductive Cell (ρ : Type)
  | byte (b : UInt8)
  | int (v : Int)
  | real (x : ρ)
  deriving DecidableEq, Repr

/-- The zeros of `reserve_value_space` are overwritten; one for all types.  file_io_netcdf.cc 1724-1762. -/
instance : Zero (Cell ρ) := ⟨.int 0⟩

/-- The bytes of a `str`: UTF-8, as pybind11 encodes the argument of the overload for `std::string`,
bind_py_file_io.cc 205-207. -/
def utf8 (s : String) : List UInt8 := s.toByteArray.data.toList

/-- A number as an element.  Elements of the vectors of bind_py_file_io.cc 208-222. -/
def cellOf : Sc ρ → Option (Cell ρ)
  | .int v => some (.int v)
  | .real x => some (.real x)
  | .cplx _ _ => none

/-- Conversion of the elements of a sequence, all or none.  Model of `list_caster::load` of pybind11 2.11.1 for the
arguments of bind_py_file_io.cc 208-222. -/
def loadSeq (cv : Conv ρ) (convert : Bool) (t : Ty) : List (PyNum ρ) → Option (List (Cell ρ))
  | [] => some []
  | x :: xs => match (load cv convert x t).bind cellOf with
      | none => none
      | some c => match loadSeq cv convert t xs with
          | none => none
          | some cs => some (c :: cs)

/-- Conversion of the argument to `std::vector<T>`; a `str` or `bytes` is no sequence of numbers.  Model of `list_caster`
of pybind11 2.11.1 for bind_py_file_io.cc 208-222. -/
def loadVec (cv : Conv ρ) (convert : Bool) (t : Ty) : PyVal ρ → Option (List (Cell ρ))
  | .seq xs => loadSeq cv convert t xs
  | _ => none

/-- Conversion of the argument to `std::string`: `bytes` are taken as they are.  Model of `string_caster` of pybind11
2.11.1 for bind_py_file_io.cc 205-207. -/
def loadStr : PyVal ρ → Option (List (Cell ρ))
  | .str s => some ((utf8 s).map .byte)
  | .bytes b => some (b.map .byte)
  | _ => none

/-- Conversion of the argument to the type of one overload, bind_py_file_io.cc 205-222. -/
def loadAtt (cv : Conv ρ) (convert : Bool) (v : PyVal ρ) : NcType → Option (List (Cell ρ))
  | .char => loadStr v
  | .int => loadVec cv convert .i32 v
  | .uint => loadVec cv convert .u32 v
  | .int64 => loadVec cv convert .i64 v
  | .double => loadVec cv convert .f64 v
  | _ => none

/-- The overloads in the order of their definitions, bind_py_file_io.cc 205-222 and 312-329; the types are those of the
constructors, file_io_netcdf.cc 1421-1457. -/
def attTys : List NcType := [.char, .int, .uint, .int64, .double]

/-- The first overload that takes the argument, bind_py_file_io.cc 205-222 and 312-329. -/
def firstAtt (cv : Conv ρ) (convert : Bool) (v : PyVal ρ) : List NcType → Option (NcType × List (Cell ρ))
  | [] => none
  | t :: ts => match loadAtt cv convert v t with
      | some cs => some (t, cs)
      | none => firstAtt cv convert v ts

/-- Choice of an overload: without conversions, then with.  Model of the dispatcher of pybind11 for bind_py_file_io.cc
205-222 and 312-329. -/
def pickAtt (cv : Conv ρ) (v : PyVal ρ) : Option (NcType × List (Cell ρ)) :=
  match firstAtt cv false v attTys with
  | some r => some r
  | none => firstAtt cv true v attTys

/-- `file.write_global_attribute(name, value)`, bind_py_file_io.cc 205-222; a `TypeError` if no overload takes the value. -/
def pyWrite (cv : Conv ρ) (s : AttFile (Cell ρ)) (name : String) (v : PyVal ρ) : Res Unit × AttFile (Cell ρ) :=
  match pickAtt cv v with
  | none => (.throw .valueError, s)
  | some (t, cs) => s.writeAtt name t cs

/-- `file.update_global_attribute(old, new, value)`, bind_py_file_io.cc 312-329. -/
def pyUpdate (cv : Conv ρ) (s : AttFile (Cell ρ)) (old new : String) (v : PyVal ρ) : Res Unit × AttFile (Cell ρ) :=
  match pickAtt cv v with
  | none => (.throw .valueError, s)
  | some (t, cs) => s.updateAtt old new t cs

/-- The characters of `value_c`, file_io_netcdf.cc 1565-1575; other elements cannot be in it. -/
def bytesOf : List (Cell ρ) → Res (List UInt8)
  | [] => .ok []
  | .byte b :: cs => do
      let bs ← bytesOf cs
      .ok (b :: bs)
  | _ :: _ => .ub

/-- The python list of a vector of integers, file_io_netcdf.cc 1578-1614 and bind_py_file_io.cc 237-252. -/
def intsOf : List (Cell ρ) → Res (List (PyNum ρ))
  | [] => .ok []
  | .int v :: cs => do
      let vs ← intsOf cs
      .ok (.int v :: vs)
  | _ :: _ => .ub

/-- The python list of a vector of `double`, file_io_netcdf.cc 1617-1627 and bind_py_file_io.cc 253-257. -/
def realsOf : List (Cell ρ) → Res (List (PyNum ρ))
  | [] => .ok []
  | .real x :: cs => do
      let xs ← realsOf cs
      .ok (.float x :: xs)
  | _ :: _ => .ub

/-- The python `str` of bytes: decoded as UTF-8, a `UnicodeDecodeError` if that is not possible.  `py::cast` of a
`std::string`, bind_py_file_io.cc 231-236, 271-278. -/
def strOf (b : List UInt8) : Res (PyVal ρ) :=
  match String.fromUTF8? ⟨b.toArray⟩ with
  | some s => .ok (.str s)
  | none => .throw .valueError

/-- The python object for an attribute: the `switch` of bind_py_file_io.cc 228-263 and 268-308. -/
def pyValue (a : Att (Cell ρ)) : Res (PyVal ρ) :=
  match a.ty with
  | .char => do
      let b ← bytesOf a.value
      strOf b
  | .int | .uint | .int64 => do
      let l ← intsOf a.value
      .ok (.seq l)
  | .double => do
      let l ← realsOf a.value
      .ok (.seq l)
  | _ => .throw .fileIOError

/-- `file.read_global_attribute(name)`, bind_py_file_io.cc 226-264. -/
def pyRead (s : AttFile (Cell ρ)) (name : String) : Res (PyVal ρ) := do
  let a ← s.readAtt name
  pyValue a

/-- The loop of `read_global_attributes`, bind_py_file_io.cc 268-308. -/
def readAttNames (s : AttFile (Cell ρ)) : List String → Res (List (String × PyVal ρ))
  | [] => .ok []
  | n :: ns => do
      let v ← pyRead s n
      let rest ← readAttNames s ns
      .ok ((n, v) :: rest)

/-- `file.read_global_attributes()`, bind_py_file_io.cc 265-311: a dictionary, here as the list of its entries.
Simplified: the names are different (`C67`), so that no entry replaces another. -/
def pyReadAll (s : AttFile (Cell ρ)) : Res (List (String × PyVal ρ)) := readAttNames s s.names

/-- The value of an attribute that is a text: the constructor for `std::string`, file_io_netcdf.cc 1421-1428. -/
def text (s : String) : List (Cell ρ) := (utf8 s).map .byte

/-- The texts that a new file gets by itself: dates, times and the version, file_io_netcdf.cc 1941-1999. -/
structure PyAuto where
  date : String
  time : String
  info : String
  hash : String
  description : String
  dirty : String

/-- These as values of attributes, file_io_netcdf.cc 1967-1999. -/
def PyAuto.vals (v : PyAuto) : AutoVals (Cell ρ) :=
  ⟨text v.date, text v.time, text v.info, text v.hash, text v.description, text v.dirty⟩

/-- The calls of a python program between opening and closing a file.  The calls are cited at the functions `pyStep` uses.
For bind_py_file_io.cc 100-329. -/
inductive PyAttOp (ρ : Type)
  | write (name : String) (v : PyVal ρ)
  | update (old new : String) (v : PyVal ρ)
  | register
  | data
  deriving DecidableEq, Repr

/-- One call.  The calls are cited at their definitions.  For bind_py_file_io.cc 100-329. -/
def pyStep (cv : Conv ρ) (s : AttFile (Cell ρ)) : PyAttOp ρ → Res Unit × AttFile (Cell ρ)
  | .write name v => pyWrite cv s name v
  | .update old new v => pyUpdate cv s old new v
  | .register => s.registerColl
  | .data => s.writeData

/-- A sequence of calls; the program goes on after an exception.  Programs are not part of /repo.
For bind_py_file_io.cc 100-329. -/
def pyRun (cv : Conv ρ) (s : AttFile (Cell ρ)) : List (PyAttOp ρ) → List (Res Unit) × AttFile (Cell ρ)
  | [] => ([], s)
  | op :: ops =>
      let (o, s1) := pyStep cv s op
      let (os, s2) := pyRun cv s1 ops
      (o :: os, s2)

end Verif.PyAtts
