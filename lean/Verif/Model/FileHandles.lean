import Verif.Model.FileSystem
/-
File objects with the handles (`netcdf_id`) that they hold, and calls on objects that have been closed.
-/
namespace Verif.NetCDF
open Verif Verif.FileIO

/-! ### Calls on a closed object -/

/-- `var.write` or `var.read` with the id -1, file_io_netcdf.cc 2528-2690: the frame is checked, and the library refuses every request
(`NC_EBADID`), but a local field may have none.  Simplified: what the functions that compute the arguments of a request may throw is
left out, they throw `FileIOError` as well. -/
def Sess.refusedTransfer (s : Sess) (x : SessVar) (frame : Int) : Res Unit := do
  let _ ← varFrame s.nbFrames frame
  if s.asksNothing x then .ok () else .throw .fileIOError

/-- The part of the loop of `write` for the hidden variable, which is one of a global field, with the id -1: file_io_netcdf.cc
354-381. -/
def Sess.closedEntriesForWrite (s : Sess) (x : SessVar) : Res Unit :=
  match x.localName with
  | none => .ok ()
  | some l =>
      match s.mode with
      | .write | .overwrite => if l ∈ s.written then .ok () else .throw .fileIOError
      | .append => if l ∈ s.readIn then .ok () else .throw .fileIOError
      | .read => .ok ()

/-- The part of the loop of `read` for the hidden variable with the id -1, file_io_netcdf.cc 319-331. -/
def Sess.closedEntriesForRead (s : Sess) (x : SessVar) : Res Unit :=
  match x.localName with
  | none => .ok ()
  | some l => if l ∈ s.readIn then .ok () else .throw .fileIOError

/-- The loop of `write` with the id -1, file_io_netcdf.cc 350-385.  The global attributes are not touched, because the mode is
`UndefinedMode` (309-310, 984-1010). -/
def Sess.closedWrite (s : Sess) (frame : Int) : List String → Res Unit
  | [] => .ok ()
  | n :: ns =>
      match s.find n with
      | some x => do
          s.closedEntriesForWrite x
          s.refusedTransfer x frame
          s.closedWrite frame ns
      | none => .throw .fileIOError

/-- The loop of `read` with the id -1, file_io_netcdf.cc 317-334. -/
def Sess.closedRead (s : Sess) (frame : Int) : List String → Res Unit
  | [] => .ok ()
  | n :: ns =>
      match s.find n with
      | some x => do
          s.closedEntriesForRead x
          s.refusedTransfer x frame
          s.closedRead frame ns
      | none => .throw .fileIOError

/-- A call on an object after `close`: `append_frame` (file_io_base.cc 70-74) only counts, the others are file_io_netcdf.cc 314-393. -/
def Sess.closedStep (s : Sess) : FileOp Empty → Res Unit × Sess
  | .appendFrame => (.ok (), { s with nbFrames := s.nbFrames + 1 })
  | .write frame names => (s.closedWrite frame names, s)
  | .writeAll frame => (s.closedWrite frame s.names, s)
  | .read frame names => (s.closedRead frame names, s)
  | .readAll frame => (s.closedRead frame s.names, s)

/-! ### Objects and handles -/

/-- An open file of the library: the id, the name of the file, its dimensions, variables and values.  The library is not part of
/repo; for file_io_netcdf.cc 175-311. -/
structure Handle (α : Type) where
  id : Int
  name : String
  dims : List Dim
  vars : List String
  file : NcFile α

/-- The file when it is closed, see `FileObj.disk`.  For file_io_netcdf.cc 293-311. -/
def Handle.disk {α : Type} (c : Handle α) : Disk α := ⟨c.dims, c.vars, c.file⟩

/-- A `FileIONetCDF` object: the id of its file and the other members, file_io_netcdf.hh 1640-1690. -/
structure IdObj where
  id : Int
  sess : Sess

/-- The files on the disk, the files that are open in the library, the objects of the program (by numbers, which stand for its
variables) and the memory of its fields.  Model only, for file_io_netcdf.cc 47-62, 175-311. -/
structure HandleSystem (α : Type) where
  files : String → Option (Disk α)
  lib : List (Handle α)
  objs : Nat → Option IdObj
  mem : Memory α

/-- What programs do: as in `FsOp`, on objects that are found by their number, and `drop`, the destructor (file_io_netcdf.cc 57-62). -/
inductive ObjOp (S M C : Type)
  | start (s : S)
  | openFile (k : Nat) (name : String) (mode : OpenMode) (c : C)
  | close (k : Nat)
  | drop (k : Nat)
  | on (k : Nat) (op : FileOp Empty)
  | compute (m : M)

/-- The open file with the id.  The library is not part of /repo; for file_io_netcdf.cc 175-311. -/
def lookup {α : Type} (lib : List (Handle α)) (id : Int) : Option (Handle α) := lib.find? fun c => c.id = id

/-- Replace the values of the open file with the id.  The library is not part of /repo; for file_io_netcdf.cc 314-393. -/
def store {α : Type} (lib : List (Handle α)) (id : Int) (file : NcFile α) : List (Handle α) :=
  lib.map fun c => if c.id = id then { c with file := file } else c

/-- Close the open file with the id.  The library is not part of /repo; for file_io_netcdf.cc 302. -/
def forget {α : Type} (lib : List (Handle α)) (id : Int) : List (Handle α) := lib.filter fun c => c.id ≠ id

/-- Replace one entry.  Model only, for file_io_netcdf.cc 175-311. -/
def putObj {β : Type} (f : Nat → Option β) (k : Nat) (v : Option β) : Nat → Option β := fun j => if j = k then v else f j

/-- One step: its outcome and the state after it.  `fresh` is how the library chooses the id of a file that it opens, given the ids in
use.  The constructor is file_io_netcdf.cc 47-55 with 175-290 and 64-171; `close` (293-311) sets the id to -1, the destructor (57-62)
closes the file if the id is not -1 (an exception there would end the program, `ub`).  To open a file that is open already is
undefined, see `FileSystem.step`, and so are calls on objects that do not exist. -/
def HandleSystem.step {α : Type} (fresh : List Int → Int) (h : HandleSystem α) :
    ObjOp (Memory α) (Memory α) (OpenArgs α) → Res Unit × HandleSystem α
  | .start mem =>
      (.ok (), ⟨fun n => match h.lib.find? (fun c => c.name = n) with | some c => some c.disk | none => h.files n, [],
        fun _ => none, mem⟩)
  | .openFile k name mode a =>
      match h.objs k, h.lib.find? (fun c => c.name = name) with
      | none, none =>
          match FileObj.open mode a (h.files name) with
          | .ok r =>
              let id := fresh (h.lib.map Handle.id)
              (r.1, { h with lib := ⟨id, name, r.2.dims, r.2.vars, r.2.file⟩ :: h.lib,
                             objs := putObj h.objs k (some ⟨id, r.2.sess⟩) })
          | .throw e => (.throw e, h)
          | .ub => (.ub, h)
      | _, _ => (.ub, h)
  | .close k =>
      match h.objs k with
      | none => (.ub, h)
      | some o =>
          match lookup h.lib o.id with
          | none => (.throw .fileIOError, h)
          | some c => (.ok (), { h with files := putAt h.files c.name (some c.disk), lib := forget h.lib o.id,
                                        objs := putObj h.objs k (some { o with id := -1 }) })
  | .drop k =>
      match h.objs k with
      | none => (.ub, h)
      | some o =>
          if o.id = -1 then (.ok (), { h with objs := putObj h.objs k none })
          else
            match lookup h.lib o.id with
            | none => (.ub, h)
            | some c => (.ok (), { h with files := putAt h.files c.name (some c.disk), lib := forget h.lib o.id,
                                          objs := putObj h.objs k none })
  | .on k op =>
      match h.objs k with
      | none => (.ub, h)
      | some o =>
          match lookup h.lib o.id with
          | none =>
              let r := o.sess.closedStep op
              (r.1, { h with objs := putObj h.objs k (some { o with sess := r.2 }) })
          | some c =>
              let r := World.step ⟨o.sess, c.file, h.mem⟩ (PyFile.lift op)
              (r.1, { h with lib := store h.lib o.id r.2.file, objs := putObj h.objs k (some { o with sess := r.2.sess }),
                             mem := r.2.mem })
  | .compute mem => (.ok (), { h with mem := mem })

/-- A sequence of steps in programs that catch exceptions.  Programs are not part of /repo.
For file_io_netcdf.cc 47-1150. -/
def HandleSystem.run {α : Type} (fresh : List Int → Int) : HandleSystem α → List (ObjOp (Memory α) (Memory α) (OpenArgs α)) →
    List (Res Unit) × HandleSystem α
  | h, [] => ([], h)
  | h, op :: ops =>
      let r := h.step fresh op
      let q := r.2.run fresh ops
      (r.1 :: q.1, q.2)

/-- A disk without files, and no program.  Model only, for file_io_netcdf.cc 47-62. -/
def HandleSystem.empty {α : Type} : HandleSystem α := ⟨fun _ => none, [], fun _ => none, fun _ => []⟩

end Verif.NetCDF
