import Verif.Model.NetCDFAtt
import Verif.Model.FileSession
/-
Global attributes of NetCDF files: `NetCDFGlobalAtt`, `NetCDFGlobalAttributes` and the functions of `FileIONetCDF` that use
them, with the define mode and the data mode of the library, file_io_netcdf.hh 457-560, 1043-1127, 1412-1558 and
file_io_netcdf.cc 113-145, 174-311, 344-387, 455-464, 931-1146, 1820-2014.
-/
namespace Verif.NetCDFAtt
open Verif Verif.NetCDF

/-- `FileIONetCDF::NetCDFMode`, file_io_netcdf.hh 1213. -/
inductive NcMode
  | undefined | define | data
  deriving DecidableEq, Repr

/-- `NetCDFGlobalAtt`, file_io_netcdf.hh 457-565. -/
structure GAtt (V : Type) where
  att : Att V
  written : Bool
  deriving DecidableEq, Repr

/-- `FileIONetCDF` as far as global attributes are concerned: the members `open_mode`, `global_attributes`,
`global_attributes_defined`, `netcdf_mode` and `netcdf_file_changed` (file_io_netcdf.hh 1658-1690).  `libDefine` and `file`
are the state of the library: the file is in define mode, and its global attributes.  `registered`: there are registered
variables. -/
structure AttFile (V : Type) where
  mode : OpenMode
  atts : List (GAtt V)
  defined : Bool
  flag : NcMode
  changed : Bool
  libDefine : Bool
  file : List (FileAtt V)
  registered : Bool
  deriving DecidableEq, Repr

variable {V : Type}

/-- The attribute as it is in the file.  file_io_netcdf.cc 967-970. -/
def GAtt.inFile (g : GAtt V) : FileAtt V := ⟨g.att.name, g.att.ty, g.att.value⟩

/-- The file was opened for writing a new file; the condition in file_io_netcdf.cc 176-177, 944-945, 985-986 and
file_io_netcdf.hh 1422-1423. -/
def creating (m : OpenMode) : Bool := m = .write || m = .overwrite

namespace AttFile

/-- `NetCDFGlobalAttributes::get_global_attribute_names`, file_io_netcdf.cc 1914-1924, and
`FileIONetCDF::read_global_attribute_names`, 460-464. -/
def names (s : AttFile V) : List String := s.atts.map fun g => g.att.name

/-- `NetCDFGlobalAttributes::get_attribute`, file_io_netcdf.cc 1874-1886, and `FileIONetCDF::read_global_attribute`, 455-458. -/
def readAtt (s : AttFile V) (name : String) : Res (Att V) :=
  match s.atts.find? fun g => g.att.name = name with
  | some g => .ok g.att
  | none => .throw .fileIOError

/-- `FileIONetCDF::write_global_attribute`, file_io_netcdf.hh 1413-1430, with `add_attribute` 1066-1073 and
`check_global_attribute_name`, file_io_netcdf.cc 2002-2014.  `ty` is the type of the argument `value`. -/
def writeAtt (s : AttFile V) (name : String) (ty : NcType) (value : List V) : Res Unit × AttFile V :=
  if s.defined then (.throw .fileIOError, s)
  else if ¬ creating s.mode then (.throw .fileIOError, s)
  else if name ∈ s.names then (.throw .fileIOError, s)
  else (.ok (), { s with atts := s.atts ++ [⟨.ofValue name ty value, false⟩] })

/-- `ncmu_put_att` (trusted) for a global attribute: in define mode the attribute is added or replaced, in data mode only
one that exists and is not smaller can be replaced.  Simplified: in data mode the type has to be the same (the library
compares the sizes in bytes).  Called at file_io_netcdf.cc 967 and file_io_netcdf.hh 1548. -/
def libPut (libDefine : Bool) (file : List (FileAtt V)) (a : FileAtt V) : Res (List (FileAtt V)) :=
  match file.find? fun f => f.name = a.name with
  | some f =>
      if libDefine ∨ (f.ty = a.ty ∧ a.value.length ≤ f.value.length) then
        .ok (file.map fun f => if f.name = a.name then a else f)
      else .throw .fileIOError
  | none => if libDefine then .ok (file ++ [a]) else .throw .fileIOError

/-- `ncmu_rename_att` (trusted) for a global attribute: the old name has to exist and the new one must not; in data mode
the name cannot become longer.  Called at file_io_netcdf.hh 1541. -/
def libRename (libDefine : Bool) (file : List (FileAtt V)) (old new : String) : Res (List (FileAtt V)) :=
  if old ∉ file.map FileAtt.name then .throw .fileIOError
  else if new ∈ file.map FileAtt.name then .throw .fileIOError
  else if ¬ libDefine ∧ old.utf8ByteSize < new.utf8ByteSize then .throw .fileIOError
  else .ok (file.map fun f => if f.name = old then { f with name := new } else f)

/-- The loop of `define_global_attributes`, file_io_netcdf.cc 964-976: what has been put before an error stays. -/
def putAll (libDefine : Bool) : List (FileAtt V) → List (GAtt V) → Res Unit × List (FileAtt V) × List (GAtt V)
  | file, [] => (.ok (), file, [])
  | file, g :: gs =>
      if g.written then
        let (o, file', gs') := putAll libDefine file gs
        (o, file', g :: gs')
      else
        match libPut libDefine file g.inFile with
        | .ok file1 =>
            let (o, file', gs') := putAll libDefine file1 gs
            (o, file', { g with written := true } :: gs')
        | .throw e => (.throw e, file, g :: gs)
        | .ub => (.ub, file, g :: gs)

/-- `FileIONetCDF::define_global_attributes`, file_io_netcdf.cc 931-981. -/
def defineGlobal (s : AttFile V) : Res Unit × AttFile V :=
  if s.defined then (.throw .fileIOError, s)
  else if ¬ creating s.mode then (.throw .fileIOError, s)
  else if s.flag ≠ .define then (.throw .fileIOError, s)
  else
    match putAll s.libDefine s.file s.atts with
    | (.ok (), file, atts) => (.ok (), { s with file := file, atts := atts, defined := true })
    | (.throw e, file, atts) => (.throw e, { s with file := file, atts := atts })
    | (.ub, file, atts) => (.ub, { s with file := file, atts := atts })

/-- The calls one after the other, until one fails.  Sequences of statements in file_io_netcdf.cc 64-171. -/
def andThen (r : Res Unit × AttFile V) (f : AttFile V → Res Unit × AttFile V) : Res Unit × AttFile V :=
  match r with
  | (.ok (), s) => f s
  | (.throw e, s) => (.throw e, s)
  | (.ub, s) => (.ub, s)

/-- `ncmu_redef` (trusted) and the assignment to `netcdf_mode` after it, as in file_io_netcdf.cc 117-121, 990-994, 1116-1120:
an error if the file is in define mode. -/
def redef (s : AttFile V) : Res Unit × AttFile V :=
  if s.libDefine then (.throw .fileIOError, s) else (.ok (), { s with libDefine := true, flag := .define })

/-- `ncmu_enddef` (trusted) and the assignment to `netcdf_mode`, as in file_io_netcdf.cc 132-137, 1000-1004: an error if the
file is not in define mode. -/
def enddef (s : AttFile V) : Res Unit × AttFile V :=
  if s.libDefine then (.ok (), { s with libDefine := false, flag := .data }) else (.throw .fileIOError, s)

/-- `FileIONetCDF::define_global_attributes_save_call`, file_io_netcdf.cc 984-1010. -/
def saveCall (s : AttFile V) : Res Unit × AttFile V :=
  if creating s.mode ∧ ¬ s.defined then
    match s.flag with
    | .data => andThen (andThen (redef s) defineGlobal) enddef
    | .define => defineGlobal s
    | .undefined => (.ok (), s)
  else (.ok (), s)

/-- `FileIONetCDF::netcdf_file_changes`, file_io_netcdf.cc 1138-1146. -/
def markChanged (s : AttFile V) : AttFile V :=
  if s.mode ≠ .read then { s with changed := true } else s

/-- The first attribute of that name is replaced: the attribute that `set_global_attribute` (file_io_netcdf.cc 1900-1911)
returns is changed in place. -/
def replaceFirst (old : String) (a : Att V) : List (GAtt V) → List (GAtt V)
  | [] => []
  | g :: gs => if g.att.name = old then { g with att := a } :: gs else g :: replaceFirst old a gs

/-- `NetCDFGlobalAtt::update_global_attribute`, file_io_netcdf.hh 526-557, with `update_attribute`, file_io_netcdf.cc
1820-1836.  The sizes in bytes of values of the same type are compared by their number of elements. -/
def updated (a : Att V) (new : String) (ty : NcType) (value : List V) : Res (Att V) :=
  if a.ty ≠ ty then .throw .fileIOError
  else if a.name.utf8ByteSize < new.utf8ByteSize then .throw .fileIOError
  else if a.value.length < value.length then .throw .fileIOError
  else { a with name := new, nelems := value.length }.registerValue value

/-- The second half of `update_global_attribute`, file_io_netcdf.hh 1539-1557: the library calls. -/
def updateLib (s : AttFile V) (old new : String) (a : Att V) : Res Unit × AttFile V :=
  match (if old ≠ new then libRename s.libDefine s.file old new else .ok s.file) with
  | .ok file1 =>
      match libPut s.libDefine file1 ⟨a.name, a.ty, a.value⟩ with
      | .ok file2 => (.ok (), markChanged { s with file := file2 })
      | .throw e => (.throw e, { s with file := file1 })
      | .ub => (.ub, { s with file := file1 })
  | .throw e => (.throw e, s)
  | .ub => (.ub, s)

/-- `FileIONetCDF::update_global_attribute`, file_io_netcdf.hh 1476-1558.  `NC_ENOTINDEFINE` is accepted when the data mode
is entered. -/
def updateAtt (s : AttFile V) (old new : String) (ty : NcType) (value : List V) : Res Unit × AttFile V :=
  if s.mode = .read then (.throw .fileIOError, s)
  else
    let s1 := if s.flag ≠ .data then { s with libDefine := false, flag := .data } else s
    match s1.atts.find? fun g => g.att.name = old with
    | none => (.throw .fileIOError, s1)
    | some g =>
        if ¬ g.written then (.throw .fileIOError, s1)
        else
          match updated g.att new ty value with
          | .ok a => updateLib { s1 with atts := replaceFirst old a s1.atts } old new a
          | .throw e => (.throw e, s1)
          | .ub => (.ub, s1)

/-- The end of `register_field_collection`, file_io_netcdf.cc 113-145, for a collection with fields that can be registered (`C64`): the
define mode is entered, and left again when the file is new. -/
def registerColl (s : AttFile V) : Res Unit × AttFile V :=
  andThen (if s.flag ≠ .define then redef s else (.ok (), s)) fun s =>
    if creating s.mode then andThen (enddef s) fun s => (.ok (), markChanged { s with registered := true })
    else (.ok (), { s with registered := true })

/-- `FileIONetCDF::write` of at least one variable in a frame that exists, file_io_netcdf.cc 344-387: the variable has to be
registered (3286-3311), and the library rejects the data in define mode and in files that are only read. -/
def writeData (s : AttFile V) : Res Unit × AttFile V :=
  andThen (saveCall s) fun s =>
    if ¬ s.registered ∨ s.libDefine ∨ s.mode = .read then (.throw .fileIOError, s) else (.ok (), markChanged s)

/-- `update_global_attribute_last_modified`, file_io_netcdf.cc 1080-1087; `date` and `time` are what `todays_date` and
`time_now` (1941-1964) return. -/
def lastModified (date time : List V) (s : AttFile V) : Res Unit × AttFile V :=
  andThen (s.updateAtt "last_modified_date" "last_modified_date" .char date) fun s =>
    s.updateAtt "last_modified_time" "last_modified_time" .char time

/-- `update_global_attribute_last_modified_save_call`, file_io_netcdf.cc 1090-1135. -/
def lastModifiedSave (date time : List V) (s : AttFile V) : Res Unit × AttFile V :=
  if s.mode ≠ .read ∧ s.changed then
    match s.flag with
    | .define =>
        andThen (lastModified date time { s with libDefine := false, flag := .data }) fun s' =>
          if s.libDefine then redef s' else (.ok (), s')
    | .data => lastModified date time { s with libDefine := false }
    | .undefined => (.ok (), s)
  else (.ok (), s)

/-- `FileIONetCDF::close`, file_io_netcdf.cc 293-311.  The library call that closes the file does not fail here. -/
def close (date time : List V) (s : AttFile V) : Res Unit × AttFile V :=
  andThen (andThen (saveCall s) (lastModifiedSave date time)) fun s => (.ok (), { s with flag := .undefined })

end AttFile

/-- The values of the attributes of a new file: date and time of the creation, twice, and the version info
(file_io_netcdf.cc 1967-1999). -/
structure AutoVals (V : Type) where
  date : List V
  time : List V
  info : List V
  hash : List V
  description : List V
  dirty : List V
  deriving DecidableEq, Repr

/-- `add_date_and_time("creation")`, `add_date_and_time("last_modified")` and `add_muGrid_version_info`, file_io_netcdf.cc
210-215, 1967-1999. -/
def AutoVals.atts (v : AutoVals V) : List (FileAtt V) :=
  [⟨"creation_date", .char, v.date⟩, ⟨"creation_time", .char, v.time⟩, ⟨"last_modified_date", .char, v.date⟩,
    ⟨"last_modified_time", .char, v.time⟩, ⟨"muGrid_version_info", .char, v.info⟩, ⟨"muGrid_git_hash", .char, v.hash⟩,
    ⟨"muGrid_description", .char, v.description⟩, ⟨"muGrid_git_branch_is_dirty", .char, v.dirty⟩]

namespace AttFile

/-- `FileIONetCDF::open` for a new file, file_io_netcdf.cc 176-215, 277. -/
def create (mode : OpenMode) (v : AutoVals V) : AttFile V :=
  ⟨mode, v.atts.map fun f => ⟨.ofValue f.name f.ty f.value, false⟩, false, .define, false, true, [], false⟩

variable [Zero V] [DecidableEq V]

/-- `register_netcdf_global_attribute_names`, file_io_netcdf.cc 1013-1038: at most `MAX_NB_GLOBAL_ATTRIBUTES` (30,
file_io_netcdf.hh 1207) attributes.  `register_attribute`, 1926-1938, is `registerAtt`. -/
def registerNames (file : List (FileAtt V)) : Res (List (Att V)) := registerAttNames [] (file.take 30)

/-- `FileIONetCDF::open` for an existing file, file_io_netcdf.cc 216-277, with
`register_netcdf_global_attribute_values`, 1041-1077, whose loop is the one for the attributes of variables
(`registerAttValues`); each attribute is marked as written.  The library opens files in data mode, but `netcdf_mode` is
`DefineMode`. -/
def openFile (mode : OpenMode) (file : List (FileAtt V)) : Res (AttFile V) := do
  let atts ← registerNames file
  let atts' ← registerAttValues file atts
  pure ⟨mode, atts'.map fun a => ⟨a, true⟩, false, .define, false, false, file, false⟩

end AttFile

/-- The calls of a program between opening and closing a file.  The calls are cited at the functions `step` uses.
For file_io_netcdf.cc 47-1150. -/
inductive AttOp (V : Type)
  | writeAtt (name : String) (ty : NcType) (value : List V)
  | updateAtt (old new : String) (ty : NcType) (value : List V)
  | register
  | writeData
  deriving DecidableEq, Repr

namespace AttFile

/-- One call.  The calls are cited at their definitions. For file_io_netcdf.cc 47-1150. -/
def step (s : AttFile V) : AttOp V → Res Unit × AttFile V
  | .writeAtt name ty value => s.writeAtt name ty value
  | .updateAtt old new ty value => s.updateAtt old new ty value
  | .register => s.registerColl
  | .writeData => s.writeData

/-- A sequence of calls; the program goes on after an exception.  Programs are not part of /repo.
For file_io_netcdf.cc 47-1150. -/
def run (s : AttFile V) : List (AttOp V) → List (Res Unit) × AttFile V
  | [] => ([], s)
  | op :: ops =>
      let (o, s1) := s.step op
      let (os, s2) := run s1 ops
      (o :: os, s2)

end AttFile

end Verif.NetCDFAtt
