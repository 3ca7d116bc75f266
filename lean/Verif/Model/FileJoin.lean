import Verif.Model.FileRegister
import Verif.Model.FileSession
/-
The file object of a whole program: each process has registered its collections (`FileRegister.lean`), and the calls
of `write` and `read` are collective (`FileSession.lean`): every process looks up the same names.
-/
namespace Verif.NetCDF
open Verif

/-- The variables that are not hidden, file_io_netcdf.cc 3263-3273. -/
def Reg.visible (s : Reg) : List Var := (s.vars.map Prod.fst).filter fun v => !v.hidden

/-- The hidden variable with the entries of a local collection, found by its name in `write` and `read`,
file_io_netcdf.cc 325-328, 362-366, 3286-3311. -/
def Reg.hiddenVar (s : Reg) (l : String) : Option Var := (s.vars.map Prod.fst).find? fun v => v.hidden && v.name == l

/-- The variables of the program: for each variable of the first process the variables of that name on all processes
(`get_variable`, file_io_netcdf.cc 3286-3311); whether it belongs to a local collection is the validity domain of the
collection (file_io_netcdf.cc 322, 356). -/
def joinVars : List Reg → List SessVar
  | [] => []
  | r :: rs => r.visible.map fun v =>
      ⟨v.name, v.hist, (r :: rs).filterMap fun s => s.visible.find? fun w => w.name = v.name,
        if v.field.isGlobal then none else some v.localName⟩

/-- The hidden variables of all processes, file_io_netcdf.cc 698-742. -/
def joinHidden (regs : List Reg) (l : String) : Option (List Var) :=
  if regs.all fun r => (r.hiddenVar l).isSome then some (regs.filterMap fun r => r.hiddenVar l) else none

/-- The fields of `GFC_local_pixels` on all processes.  file_io_netcdf.cc 698-742. -/
def joinMarks (regs : List Reg) (l : String) : List (List Int) :=
  regs.map fun r => ((r.gfc.find? fun e => e.1 = l).map Prod.snd).getD []

/-- Each process opens the file and registers its collections one after the other, with the default arguments
(file_io_netcdf.cc 64-171): the outcomes and the members afterwards. -/
def registerRanks (mode : OpenMode) (fileDims : List Dim) (fileVars : List String) (numrecs : Int)
    (colls : List (List IoColl)) : List (List (Res Unit) × Reg) :=
  colls.map fun cs => (Reg.opened mode fileDims fileVars numrecs).run
    (cs.map fun c => .register c ["REGISTER_ALL_FIELDS"] ["REGISTER_ALL_STATE_FIELDS"])

/-- The file object of the program after registration; nothing has been written or read
(file_io_netcdf.hh 1679-1682). -/
def joinSess (mode : OpenMode) (regs : List Reg) : Sess :=
  ⟨mode, joinVars regs, joinHidden regs, match regs with | [] => 0 | r :: _ => r.nbFrames, joinMarks regs, [], []⟩

/-- A file on the disk: the dimensions and variables of its header, in the order in which they were defined
(file_io_netcdf.cc 745-779), and its values. -/
structure Disk (α : Type) where
  dims : List Dim
  vars : List String
  data : NcFile α

/-- What a program does with a file: the outcomes of the registrations on each process, the outcomes of the other
calls, the file afterwards, the memory of the fields, and the number of frames.  Programs are not part of /repo.
For file_io_netcdf.cc 47-1150. -/
structure ProgramRun (α : Type) where
  registered : List (List (Res Unit))
  results : List (Res Unit)
  disk : Disk α
  mem : Memory α
  nbFrames : Int

/-- The header of the file after the registration on all processes.  The calls that define dimensions and variables are
collective; the model takes what the first process defines (`C66_collective`: all define the same).
file_io_netcdf.cc 118-138. -/
def headerOf (regs : List Reg) : List Dim × List String :=
  match regs with
  | [] => ([], [])
  | r :: _ => (r.fileDims, r.fileVars)

/-- A program with one list of collections per process that creates a file (file_io_netcdf.cc 182-218), registers its
collections, runs the operations and closes the file (293-311).  The values in a new file are arbitrary. -/
def createFile {α : Type} (mode : OpenMode) (colls : List (List IoColl)) (garbage : String → List Int → α)
    (garbageInt : String → List Int → Int) (mem : Memory α) (ops : List (FileOp (Memory α))) : ProgramRun α :=
  let regs := registerRanks mode [] [] 0 colls
  let s := joinSess mode (regs.map Prod.snd)
  let w := World.run ⟨s, NcFile.created s.vars s.hidden garbage garbageInt, mem⟩ ops
  let h := headerOf (regs.map Prod.snd)
  ⟨regs.map Prod.fst, w.1, ⟨h.1, h.2, w.2.file⟩, w.2.mem, w.2.sess.nbFrames⟩

/-- A program that opens an existing file (file_io_netcdf.cc 220-262), registers its collections, runs the operations and
closes the file. -/
def useFile {α : Type} (mode : OpenMode) (colls : List (List IoColl)) (d : Disk α) (mem : Memory α)
    (ops : List (FileOp (Memory α))) : ProgramRun α :=
  let regs := registerRanks mode d.dims d.vars d.data.numrecs colls
  let s := joinSess mode (regs.map Prod.snd)
  let w := World.run ⟨s, d.data, mem⟩ ops
  let h := headerOf (regs.map Prod.snd)
  ⟨regs.map Prod.fst, w.1, ⟨h.1, h.2, w.2.file⟩, w.2.mem, w.2.sess.nbFrames⟩

end Verif.NetCDF
