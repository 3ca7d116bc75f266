import Verif.Model.FileAtts
import Verif.Model.FileJoin
/-
Data and global attributes of one file together: `FileJoin.lean` and `FileAtts.lean` in one state.  They share the library,
whose define mode stops all calls that transfer data.
-/
namespace Verif.NetCDF
open Verif Verif.NetCDFAtt

/-- A call on an open file, or a computation between the calls: those of `FileOp` (file_io_netcdf.cc 314-393,
file_io_base.cc 70-74), `write_global_attribute` and `update_global_attribute` (file_io_netcdf.hh 1413-1558). -/
inductive BothOp (C V : Type)
  | data (op : FileOp C)
  | writeAtt (name : String) (ty : NcType) (value : List V)
  | updateAtt (old new : String) (ty : NcType) (value : List V)

/-- An open file: its data with the memory of the program, and its attributes.  The members of `FileIONetCDF`,
file_io_netcdf.hh 1658-1690. -/
structure BothWorld (α V : Type) where
  data : World α
  atts : AttFile V

variable {α V : Type}

/-- The names whose variables are written, if the call is one of `write`, file_io_netcdf.cc 344-393. -/
def World.toWrite (w : World α) : FileOp (Memory α) → Option (List String)
  | .write _ names => some names
  | .writeAll _ => some w.sess.names
  | _ => none

/-- The names whose variables are read, if the call is one of `read`, file_io_netcdf.cc 314-341. -/
def World.toRead (w : World α) : FileOp (Memory α) → Option (List String)
  | .read _ names => some names
  | .readAll _ => some w.sess.names
  | _ => none

/-- The loop of `write` after the attributes have been stored, file_io_netcdf.cc 350-386: in define mode the first library call
fails (`NC_EINDEFINE`) and nothing has changed; an exception skips the call of `netcdf_file_changes`. -/
def BothWorld.writeLoop (d : World α) (a : AttFile V) (op : FileOp (Memory α)) (names : List String) :
    Res Unit × BothWorld α V :=
  if a.libDefine ∧ names ≠ [] then (.throw .fileIOError, ⟨d, a⟩)
  else
    match d.step op with
    | (.ok (), d') => (.ok (), ⟨d', a.markChanged⟩)
    | (.throw e, d') => (.throw e, ⟨d', a⟩)
    | (.ub, d') => (.ub, ⟨d', a⟩)

/-- `FileIONetCDF::write`, file_io_netcdf.cc 344-387: the attributes are stored before the first data. -/
def BothWorld.writeCall (w : BothWorld α V) (op : FileOp (Memory α)) (names : List String) : Res Unit × BothWorld α V :=
  match w.atts.saveCall with
  | (.ok (), a) => BothWorld.writeLoop w.data a op names
  | (.throw e, a) => (.throw e, ⟨w.data, a⟩)
  | (.ub, a) => (.ub, ⟨w.data, a⟩)

/-- `FileIONetCDF::read`, file_io_netcdf.cc 314-336, and the calls that do not use the library.  In define mode the library
does not read. -/
def BothWorld.otherCall (w : BothWorld α V) (op : FileOp (Memory α)) : Res Unit × BothWorld α V :=
  if w.atts.libDefine ∧ (w.data.toRead op).getD [] ≠ [] then (.throw .fileIOError, w)
  else ((w.data.step op).1, ⟨(w.data.step op).2, w.atts⟩)

/-- One call, file_io_netcdf.cc 314-393 and file_io_netcdf.hh 1413-1558. -/
def BothWorld.step (w : BothWorld α V) : BothOp (Memory α) V → Res Unit × BothWorld α V
  | .data op =>
      match w.data.toWrite op with
      | some names => w.writeCall op names
      | none => w.otherCall op
  | .writeAtt name ty value => ((w.atts.writeAtt name ty value).1, ⟨w.data, (w.atts.writeAtt name ty value).2⟩)
  | .updateAtt old new ty value =>
      ((w.atts.updateAtt old new ty value).1, ⟨w.data, (w.atts.updateAtt old new ty value).2⟩)

/-- A sequence of calls in a program that catches exceptions.  Programs are not part of /repo.
For file_io_netcdf.cc 47-1150. -/
def BothWorld.run : BothWorld α V → List (BothOp (Memory α) V) → List (Res Unit) × BothWorld α V
  | w, [] => ([], w)
  | w, op :: ops => ((w.step op).1 :: ((w.step op).2.run ops).1, ((w.step op).2.run ops).2)

/-- A file on the disk with its global attributes.  file_io_netcdf.cc 745-779, 931-981. -/
structure FullDisk (α V : Type) where
  disk : Disk α
  atts : List (FileAtt V)

/-- What a program does with a file: the outcomes of the registrations on each process (`Reg`), the outcomes of changing the
mode of the library when collections are registered (`register`) and of the attribute calls before, the outcomes of the other
calls, the outcome of closing, the file afterwards, the memory of the fields, the number of frames, and the attributes that the
file object has before it is closed.  Programs are not part of /repo.  For file_io_netcdf.cc 47-1150. -/
structure BothRun (α V : Type) where
  registered : List (List (Res Unit))
  before : List (Res Unit)
  results : List (Res Unit)
  closed : Res Unit
  full : FullDisk α V
  mem : Memory α
  nbFrames : Int
  atts : AttFile V

/-- The calls on the open file and its closing (file_io_netcdf.cc 293-393), when the registrations have left the file object
`s` with the file `d` and the attributes `a`. -/
def runOpen (registered : List (List (Res Unit))) (header : List Dim × List String) (w : World α)
    (a : List (Res Unit) × AttFile V) (ops : List (BothOp (Memory α) V)) (date time : List V) : BothRun α V :=
  let r := BothWorld.run ⟨w, a.2⟩ ops
  let c := r.2.atts.close date time
  ⟨registered, a.1, r.1, c.1, ⟨⟨header.1, header.2, r.2.data.file⟩, c.2.file⟩, r.2.data.mem, r.2.data.sess.nbFrames, r.2.atts⟩

/-- The number of collections: `register_field_collection` is collective, file_io_netcdf.cc 64-171. -/
def nbColls (colls : List (List IoColl)) : Nat := (colls.headD []).length

/-- A program that creates a file (file_io_netcdf.cc 174-215), makes the attribute calls `pre`, registers its collections, makes
the calls `ops` and closes the file (293-311).  The registration of the variables is `registerRanks`, that of the modes of the
library `AttFile.registerColl`.  Simplified: the two do not influence each other (a registration that throws on one side would
stop the other; in `C95` all succeed). -/
def createBoth (mode : OpenMode) (v : AutoVals V) (pre : List (AttOp V)) (colls : List (List IoColl))
    (garbage : String → List Int → α) (garbageInt : String → List Int → Int) (mem : Memory α)
    (ops : List (BothOp (Memory α) V)) (date time : List V) : BothRun α V :=
  let regs := registerRanks mode [] [] 0 colls
  let s := joinSess mode (regs.map Prod.snd)
  runOpen (regs.map Prod.fst) (headerOf (regs.map Prod.snd)) ⟨s, NcFile.created s.vars s.hidden garbage garbageInt, mem⟩
    ((AttFile.create mode v).run (pre ++ List.replicate (nbColls colls) .register)) ops date time

variable [Zero V] [DecidableEq V]

/-- A program that opens an existing file (file_io_netcdf.cc 216-277), makes the attribute calls `pre`, registers its
collections, makes the calls `ops` and closes the file. -/
def useBoth (mode : OpenMode) (pre : List (AttOp V)) (colls : List (List IoColl)) (d : FullDisk α V) (mem : Memory α)
    (ops : List (BothOp (Memory α) V)) (date time : List V) : Res (BothRun α V) :=
  match AttFile.openFile mode d.atts with
  | .ok a =>
      let regs := registerRanks mode d.disk.dims d.disk.vars d.disk.data.numrecs colls
      let s := joinSess mode (regs.map Prod.snd)
      .ok (runOpen (regs.map Prod.fst) (headerOf (regs.map Prod.snd)) ⟨s, d.disk.data, mem⟩
        (a.run (pre ++ List.replicate (nbColls colls) .register)) ops date time)
  | .throw e => .throw e
  | .ub => .ub

end Verif.NetCDF
