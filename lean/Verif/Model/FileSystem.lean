import Verif.Model.FileJoin
import Verif.Model.PyFile
/-
Programs with several files: the objects that are open, and the files on the disk.
-/
namespace Verif.NetCDF
open Verif

/-- A `FileIONetCDF` object with its file: the dimensions and variables of the header and the members after the
registration of the collections, and the values in the file.  file_io_netcdf.hh 1640-1690. -/
structure FileObj (α : Type) where
  dims : List Dim
  vars : List String
  sess : Sess
  file : NcFile α

/-- The files on the disk, the open file objects of the program that runs, found by the name of the file, and the memory
of its fields.  What the disk has under the name of a file that is open is not looked at.  Model only; the file system
is not part of /repo.  For file_io_netcdf.cc 47-62, 175-311. -/
structure FileSystem (α : Type) where
  files : String → Option (Disk α)
  objs : String → Option (FileObj α)
  mem : Memory α

/-- What is given when a file is opened: the collections of each process, which are registered at once with the default
arguments (file_io_netcdf.cc 64-171), and the values that a new file happens to have where nothing has been written
(`NC_NOFILL`, file_io_netcdf.cc 279-289). -/
structure OpenArgs (α : Type) where
  colls : List (List IoColl)
  garbage : String → List Int → α
  garbageInt : String → List Int → Int

/-- What programs do, one after the other: `start` ends the program that runs and starts another; the constructor of
`FileIONetCDF` followed by the registration of collections (file_io_netcdf.cc 47-55, 64-171), `close` (293-311), the other
calls on the object of a file (314-393, file_io_base.cc 70-74), and a change of the memory of the fields. -/
inductive FsOp (S M C : Type)
  | start (s : S)
  | openFile (name : String) (mode : OpenMode) (c : C)
  | close (name : String)
  | on (name : String) (op : FileOp Empty)
  | compute (m : M)

/-- The outcome of several calls: the first that is not `ok`.  Model only, for file_io_netcdf.cc 64-171. -/
def firstBad : List (Res Unit) → Res Unit
  | [] => .ok ()
  | .ok () :: rs => firstBad rs
  | r :: _ => r

/-- The object after the registration of the collections, file_io_netcdf.cc 64-171. -/
def FileObj.make {α : Type} (mode : OpenMode) (regs : List (List (Res Unit) × Reg)) (file : Sess → NcFile α) :
    Res Unit × FileObj α :=
  let rs := regs.map Prod.snd
  let s := joinSess mode rs
  (firstBad (regs.map Prod.fst).flatten, ⟨(headerOf rs).1, (headerOf rs).2, s, file s⟩)

/-- A new file, file_io_netcdf.cc 180-218, and the registration of the collections. -/
def FileObj.create {α : Type} (mode : OpenMode) (a : OpenArgs α) : Res Unit × FileObj α :=
  FileObj.make mode (registerRanks mode [] [] 0 a.colls) fun s => NcFile.created s.vars s.hidden a.garbage a.garbageInt

/-- An existing file, file_io_netcdf.cc 219-274, and the registration of the collections. -/
def FileObj.reopen {α : Type} (mode : OpenMode) (a : OpenArgs α) (d : Disk α) : Res Unit × FileObj α :=
  FileObj.make mode (registerRanks mode d.dims d.vars d.data.numrecs a.colls) fun _ => d.data

/-- `FileIONetCDF::open`, file_io_netcdf.cc 175-290: `Write` asks the library not to replace a file (`NC_NOCLOBBER`) and
`Overwrite` replaces it; `Read` and `Append` need a file.  A missing file is not noticed where it is opened but at the
next call, with the invalid id -1 (file_io_netcdf.cc 247-251); both throw `FileIOError`.  Errors other than an existing or
a missing file (access rights, files of another kind) are not modelled. -/
def FileObj.open {α : Type} (mode : OpenMode) (a : OpenArgs α) (d : Option (Disk α)) : Res (Res Unit × FileObj α) :=
  match mode, d with
  | .write, some _ => .throw .fileIOError
  | .write, none => .ok (FileObj.create .write a)
  | .overwrite, _ => .ok (FileObj.create .overwrite a)
  | _, none => .throw .fileIOError
  | mode, some d => .ok (FileObj.reopen mode a d)

/-- The file that `close` leaves, file_io_netcdf.cc 293-311. -/
def FileObj.disk {α : Type} (o : FileObj α) : Disk α := ⟨o.dims, o.vars, o.file⟩

/-- Replace one entry.  Model only, for file_io_netcdf.cc 175-311. -/
def putAt {β : Type} (f : String → Option β) (n : String) (v : Option β) : String → Option β :=
  fun m => if m = n then v else f m

/-- One step: its outcome, and the state after it, also after an exception.  A program that ends destroys its objects,
which closes their files (file_io_netcdf.cc 57-62).  To open a file that is open already is undefined: the library does
not keep two accesses to a file consistent.  A call on an object that is not there, because it has not been made or the
constructor has thrown, is undefined; simplified: so is a call on an object after `close`. -/
def FileSystem.step {α : Type} (w : FileSystem α) :
    FsOp (Memory α) (Memory α) (OpenArgs α) → Res Unit × FileSystem α
  | .start mem =>
      (.ok (), ⟨fun n => match w.objs n with | some o => some o.disk | none => w.files n, fun _ => none, mem⟩)
  | .openFile name mode a =>
      match w.objs name with
      | some _ => (.ub, w)
      | none =>
          match FileObj.open mode a (w.files name) with
          | .ok r => (r.1, { w with objs := putAt w.objs name (some r.2) })
          | .throw e => (.throw e, w)
          | .ub => (.ub, w)
  | .close name =>
      match w.objs name with
      | none => (.ub, w)
      | some o => (.ok (), { w with files := putAt w.files name (some o.disk), objs := putAt w.objs name none })
  | .on name op =>
      match w.objs name with
      | none => (.ub, w)
      | some o =>
          let r := World.step ⟨o.sess, o.file, w.mem⟩ (PyFile.lift op)
          (r.1, { w with objs := putAt w.objs name (some { o with sess := r.2.sess, file := r.2.file }), mem := r.2.mem })
  | .compute mem => (.ok (), { w with mem := mem })

/-- A sequence of steps in programs that catch exceptions.  Programs are not part of /repo.
For file_io_netcdf.cc 47-1150. -/
def FileSystem.run {α : Type} : FileSystem α → List (FsOp (Memory α) (Memory α) (OpenArgs α)) →
    List (Res Unit) × FileSystem α
  | w, [] => ([], w)
  | w, op :: ops =>
      let r := w.step op
      let q := r.2.run ops
      (r.1 :: q.1, q.2)

/-- A disk without files, and no program.  Model only, for file_io_netcdf.cc 47-62. -/
def FileSystem.empty {α : Type} : FileSystem α := ⟨fun _ => none, fun _ => none, fun _ => []⟩

end Verif.NetCDF
