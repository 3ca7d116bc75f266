import Verif.Model.NetCDFState
/-
A file object over its lifetime: `FileIONetCDF::open`, `append_frame`, `write`, `read`
(file_io_netcdf.cc 173-421, file_io_base.cc 70-110) on all processes together.

Registration of collections is modelled in `NetCDF.lean` (one variable); here the variables are those already
registered.
-/
namespace Verif.NetCDF
open Verif Verif.RawMemory Verif.FileIO

/-- `FileIOBase::OpenMode`, file_io_base.hh 119. -/
inductive OpenMode
  | read
  | write
  | overwrite
  | append
  deriving DecidableEq, Repr

/-- A registered variable that is not hidden, file_io_netcdf.cc 2033-2041: the parts are those of the
processes; `localName` is `get_local_field_name()` for a field of a local collection, `none` for a
field of a global collection (`get_validity_domain`). -/
structure SessVar where
  name : String
  hist : Option Nat
  parts : List Var
  localName : Option String

/-- The memory behind a variable on one process: for a state field the indices and the memories of its
fields (state_field.hh 243-262), for a field one memory. -/
structure ProcMem (α : Type) where
  idx : List Nat
  bufs : List (Mem α)

/-- The memory of the registered fields of all processes, by the name of the variable.
The fields behind file_io_netcdf.hh 570-800 (`NetCDFVarBase`). -/
abbrev Memory (α : Type) := String → List (ProcMem α)

/-- The file in the NetCDF library: its variables, the hidden variables with the entries of the local
pixels, and the number of records, which is the length of the dimension `frame`.
Library state behind `netcdf_id`, file_io_netcdf.hh 1201-1690. -/
structure NcFile (α : Type) where
  vars : String → Option (FileVar α)
  hidden : String → Option (FileVar Int)
  numrecs : Int

/-- The members of `FileIONetCDF` that change after the registration, file_io_netcdf.hh 1660-1690 and
file_io_base.hh 330: `nb_frames`, `GFC_local_pixels` (per local collection, and for each process), `written_local_pixel_fields`,
`read_local_pixel_fields`; `vars` and `hidden` are its variables. -/
structure Sess where
  mode : OpenMode
  vars : List SessVar
  hidden : String → Option (List Var)
  nbFrames : Int
  marks : String → List (List Int)
  written : List String
  readIn : List String

/-- Change one entry of a table.  Model only. For file_io_netcdf.cc 47-1150. -/
def setAt {β : Type} (f : String → β) (n : String) (x : β) : String → β := fun m => if m = n then x else f m

/-- What each process brings to an operation on a variable.
The members of `NetCDFVarBase`, file_io_netcdf.hh 570-800. -/
def procData {α : Type} : List Var → List (List Int) → List (ProcMem α) → List (StateData α)
  | v :: vs, m :: ms, p :: ps => ⟨v, p.idx, p.bufs, m⟩ :: procData vs ms ps
  | _, _, _ => []

/-- The entries of the local pixels that are handed to `write` and `read`; they are used for local
fields only, file_io_netcdf.cc 2528-2560. -/
def Sess.marksOf (s : Sess) (x : SessVar) : List (List Int) :=
  match x.localName with
  | some l => s.marks l
  | none => x.parts.map fun _ => []

/-- `NetCDFVarField::write` and `NetCDFVarStateField::write` on all processes, file_io_netcdf.cc 2528-2606,
3183-3195. -/
def SessVar.put {α : Type} (x : SessVar) (nb frame : Int) (ws : List (StateData α)) (fv : FileVar α) :
    Res (FileVar α) :=
  match x.hist with
  | some nbMem => writeState nb frame nbMem ws fv
  | none => do
      let rs ← mapRes (fun w => do let b ← at! w.bufs 0; pure (w.v, w.marks, b)) ws
      Var.writeRanks nb frame 0 rs fv

/-- `NetCDFVarField::read` and `NetCDFVarStateField::read` on one process, file_io_netcdf.cc 2610-2691,
3198-3210: the memory afterwards. -/
def SessVar.get1 {α : Type} (x : SessVar) (nb frame numrecs : Int) (fv : FileVar α) (w : StateData α) :
    Res (ProcMem α) :=
  match x.hist with
  | some nbMem => do
      let bufs ← readState nb frame nbMem w numrecs fv
      pure ⟨w.idx, bufs⟩
  | none => do
      let b ← at! w.bufs 0
      let b' ← w.v.read nb frame 0 w.marks numrecs fv b
      pure ⟨w.idx, w.bufs.set 0 b'⟩

/-- Reading on all processes.  file_io_netcdf.cc 2610-2691, 3198-3210. -/
def SessVar.get {α : Type} (x : SessVar) (nb frame numrecs : Int) (ws : List (StateData α)) (fv : FileVar α) :
    Res (List (ProcMem α)) :=
  mapRes (x.get1 nb frame numrecs fv) ws

/-- The memory of the field of `GFC_local_pixels` with the given entries: scalar, column-major, one entry
per pixel (file_io_netcdf.cc 50-52, 690-705). -/
def entryBuf (marks : List Int) : Mem Int := fun a => if 0 ≤ a then marks[a.toNat]? else none

/-- The entries in that memory, in the order of `local_pixels_map`.  file_io_netcdf.cc 2793-2800, 3042-3050. -/
def entriesOf (size : Nat) (buf : Mem Int) : Res (List Int) :=
  mapRes (fun p : Nat => match buf p with | some x => .ok x | none => .ub) (List.range size)

/-- All processes write the hidden variable `l`, file_io_netcdf.cc 362-366. -/
def Sess.putEntries {α : Type} (s : Sess) (l : String) (frame : Int) (file : NcFile α) : Res (NcFile α) :=
  match s.hidden l, file.hidden l with
  | some vs, some fv =>
      if s.mode = .read then .throw .fileIOError
      else do
        let fv' ← Var.writeAll s.nbFrames frame 0 (List.zipWith (fun v m => (v, entryBuf m)) vs (s.marks l)) fv
        pure { file with hidden := setAt file.hidden l (some fv') }
  | _, _ => .throw .fileIOError

/-- All processes read the hidden variable `l`, file_io_netcdf.cc 325-328, 374-378. -/
def Sess.getEntries {α : Type} (s : Sess) (l : String) (frame : Int) (file : NcFile α) : Res Sess :=
  match s.hidden l, file.hidden l with
  | some vs, some fv => do
      let ms ← mapRes (fun vm : Var × List Int => do
        let b ← vm.1.readGlobal s.nbFrames frame 0 file.numrecs fv (entryBuf vm.2)
        entriesOf vm.2.length b) (vs.zip (s.marks l))
      pure { s with marks := setAt s.marks l ms }
  | _, _ => .throw .fileIOError

/-- The part of the loop of `write` for the hidden variable, file_io_netcdf.cc 354-381. -/
def Sess.entriesForWrite {α : Type} (s : Sess) (x : SessVar) (frame : Int) (file : NcFile α) :
    Res (Sess × NcFile α) :=
  match x.localName with
  | none => .ok (s, file)
  | some l =>
      match s.mode with
      | .write | .overwrite =>
          if l ∈ s.written then .ok (s, file)
          else do
            let file' ← s.putEntries l 0 file
            pure ({ s with written := s.written ++ [l] }, file')
      | .append =>
          if l ∈ s.readIn then .ok (s, file)
          else do
            let s' ← s.getEntries l frame file
            pure ({ s' with readIn := s'.readIn ++ [l] }, file)
      | .read => .ok (s, file)

/-- The part of the loop of `read` for the hidden variable, file_io_netcdf.cc 319-331. -/
def Sess.entriesForRead {α : Type} (s : Sess) (x : SessVar) (file : NcFile α) : Res Sess :=
  match x.localName with
  | none => .ok s
  | some l =>
      if l ∈ s.readIn then .ok s
      else do
        let s' ← s.getEntries l 0 file
        pure { s' with readIn := s'.readIn ++ [l] }

/-- `NetCDFVarBase::write` for a local field makes one request per pixel with an entry, file_io_netcdf.cc 2561-2580.  There is
none at all if all entries are -1 (`GFC_LOCAL_PIXELS_DEFAULT_VALUE`), on every process: in a file opened for reading this is
so until the hidden variable has been read (708, 714-732). -/
def Sess.asksNothing (s : Sess) (x : SessVar) : Bool :=
  x.localName.isSome && (s.marksOf x).all fun m => m.all fun i => i = -1

/-- `var.write`, file_io_netcdf.cc 383-384: the variable of the file changes, and the number of records
grows to include the frame.  A file opened for reading refuses every request (`NC_EPERM`), but there may be none.  A variable
that is not in the file is refused too.  (In the other modes the requests of all processes together are not empty: a domain
has points, and a local collection without pixels cannot be registered.) -/
def Sess.putVar {α : Type} (s : Sess) (mem : Memory α) (x : SessVar) (frame : Int) (file : NcFile α) :
    Res (NcFile α) :=
  match file.vars x.name with
  | none => .throw .fileIOError
  | some fv =>
      if s.mode = .read then
        if s.asksNothing x then do
          let _ ← varFrame s.nbFrames frame
          let _ ← x.put s.nbFrames frame (procData x.parts (s.marksOf x) (mem x.name)) fv
          pure file
        else .throw .fileIOError
      else do
        let fr ← varFrame s.nbFrames frame
        let fv' ← x.put s.nbFrames frame (procData x.parts (s.marksOf x) (mem x.name)) fv
        pure { file with vars := setAt file.vars x.name (some fv'), numrecs := max file.numrecs (fr + 1) }

/-- `var.read`, file_io_netcdf.cc 333. -/
def Sess.getVar {α : Type} (s : Sess) (file : NcFile α) (x : SessVar) (frame : Int) (mem : Memory α) :
    Res (Memory α) :=
  match file.vars x.name with
  | none => .throw .fileIOError
  | some fv => do
      let ms ← x.get s.nbFrames frame file.numrecs (procData x.parts (s.marksOf x) (mem x.name)) fv
      pure (setAt mem x.name ms)

/-- `NetCDFVariables::get_variable`, file_io_netcdf.cc 3286-3311, for the variables that are not hidden. -/
def Sess.find (s : Sess) (n : String) : Option SessVar := s.vars.find? fun x => x.name = n

/-- `NetCDFVariables::get_names`, file_io_netcdf.cc 3263-3273: hidden variables are left out. -/
def Sess.names (s : Sess) : List String := s.vars.map SessVar.name

/-- The loop of `FileIONetCDF::write(frame, field_names)`, file_io_netcdf.cc 350-385.  When a name throws,
the names before it have been written.  The name of a hidden variable writes that variable. -/
def writeNames {α : Type} (mem : Memory α) (frame : Int) : List String → Sess × NcFile α →
    Res Unit × (Sess × NcFile α)
  | [], st => (.ok (), st)
  | n :: ns, st =>
      match st.1.find n with
      | some x =>
          match st.1.entriesForWrite x frame st.2 with
          | .ok st1 =>
              match st1.1.putVar mem x frame st1.2 with
              | .ok file => writeNames mem frame ns (st1.1, file)
              | .throw e => (.throw e, st1)
              | .ub => (.ub, st1)
          | .throw e => (.throw e, st)
          | .ub => (.ub, st)
      | none =>
          match st.1.putEntries n frame st.2 with
          | .ok file => writeNames mem frame ns (st.1, file)
          | .throw e => (.throw e, st)
          | .ub => (.ub, st)

/-- The loop of `FileIONetCDF::read(frame, field_names)`, file_io_netcdf.cc 317-334. -/
def readNames {α : Type} (file : NcFile α) (frame : Int) : List String → Sess × Memory α →
    Res Unit × (Sess × Memory α)
  | [], st => (.ok (), st)
  | n :: ns, st =>
      match st.1.find n with
      | some x =>
          match st.1.entriesForRead x file with
          | .ok s1 =>
              match s1.getVar file x frame st.2 with
              | .ok mem => readNames file frame ns (s1, mem)
              | .throw e => (.throw e, (s1, st.2))
              | .ub => (.ub, (s1, st.2))
          | .throw e => (.throw e, st)
          | .ub => (.ub, st)
      | none =>
          match st.1.getEntries n frame file with
          | .ok s1 => readNames file frame ns (s1, st.2)
          | .throw e => (.throw e, st)
          | .ub => (.ub, st)

/-- What a program does with an open file, and between the calls: the fields get other values (by
computing, or by reading from another file).  The calls are cited in `World.step`.
For file_io_netcdf.cc 47-1150. -/
inductive FileOp (C : Type)
  | appendFrame
  | write (frame : Int) (names : List String)
  | writeAll (frame : Int)
  | read (frame : Int) (names : List String)
  | readAll (frame : Int)
  | compute (c : C)

/-- An open file and the memory of the program.  Model only: file object and memory of a program.
For file_io_netcdf.cc 47-1150. -/
structure World (α : Type) where
  sess : Sess
  file : NcFile α
  mem : Memory α

/-- One operation: its outcome and the state after it, also after an exception.
`FileIOBase::append_frame` file_io_base.cc 70-74, `FileIONetCDF::write` file_io_netcdf.cc 344-393,
`FileIONetCDF::read` file_io_netcdf.cc 314-341. -/
def World.step {α : Type} (w : World α) : FileOp (Memory α) → Res Unit × World α
  | .appendFrame => (.ok (), { w with sess := { w.sess with nbFrames := w.sess.nbFrames + 1 } })
  | .write frame names =>
      let r := writeNames w.mem frame names (w.sess, w.file)
      (r.1, { w with sess := r.2.1, file := r.2.2 })
  | .writeAll frame =>
      let r := writeNames w.mem frame w.sess.names (w.sess, w.file)
      (r.1, { w with sess := r.2.1, file := r.2.2 })
  | .read frame names =>
      let r := readNames w.file frame names (w.sess, w.mem)
      (r.1, { w with sess := r.2.1, mem := r.2.2 })
  | .readAll frame =>
      let r := readNames w.file frame w.sess.names (w.sess, w.mem)
      (r.1, { w with sess := r.2.1, mem := r.2.2 })
  | .compute mem => (.ok (), { w with mem := mem })

/-- A sequence of operations in a program that catches exceptions: the outcomes and the state at the end.
Programs are not part of /repo. For file_io_netcdf.cc 47-1150. -/
def World.run {α : Type} : World α → List (FileOp (Memory α)) → List (Res Unit) × World α
  | w, [] => ([], w)
  | w, op :: ops =>
      let r := w.step op
      let q := r.2.run ops
      (r.1 :: q.1, q.2)

/-- `open` for reading or appending followed by the registration of the collections, file_io_netcdf.cc
220-262 and 862-887: the number of frames is the number of records. -/
def Sess.opened {α : Type} (mode : OpenMode) (vars : List SessVar) (hidden : String → Option (List Var))
    (marks : String → List (List Int)) (file : NcFile α) : Sess :=
  ⟨mode, vars, hidden, file.numrecs, marks, [], []⟩

/-- `open` for writing and the registration of the collections, file_io_netcdf.cc 182-218: no frames. -/
def Sess.created (mode : OpenMode) (vars : List SessVar) (hidden : String → Option (List Var))
    (marks : String → List (List Int)) : Sess :=
  ⟨mode, vars, hidden, 0, marks, [], []⟩

/-- The variable in a new file, file_io_netcdf.cc 762-779, with the dimensions and the type of the first part (they are
the same on all processes); the values are arbitrary. -/
def newVar {α : Type} (garbage : List Int → α) (vs : List Var) : FileVar α :=
  ⟨match vs with | v :: _ => fileShape v.dims | [] => [], match vs with | v :: _ => v.dataType | [] => .other, garbage⟩

/-- The new file after the registration, file_io_netcdf.cc 118-138. -/
def NcFile.created {α : Type} (vars : List SessVar) (hidden : String → Option (List Var))
    (garbage : String → List Int → α) (garbageInt : String → List Int → Int) : NcFile α :=
  ⟨fun n => (vars.find? fun x => x.name = n).map fun x => newVar (garbage n) x.parts,
   fun l => (hidden l).map fun vs => newVar (garbageInt l) vs, 0⟩

end Verif.NetCDF
