import Verif.Model.FileJoin
import Verif.Model.ParallelFile
/-
A file object over its lifetime in the parallel build (`WITH_MPI`): the operations of `FileSession.lean`, with the branches of
`NetCDFVarBase::write` and `NetCDFVarBase::read` in `ParallelFile.lean`.  A call on all processes can also end with some
processes in an exception and others in a collective call.
-/
namespace Verif.NetCDF
open Verif Verif.RawMemory Verif.FileIO

/-- How a call ends that all processes make: on all of them in the same way, or on some with an exception and on the others
not (`apart`): those that go on wait for the others in `ncmpi_end_indep_data`, file_io_netcdf.cc 2603-2605, 2688-2690, or in
the next collective call.  Calls file_io_netcdf.cc 314-393. -/
inductive Joint (β : Type)
  | ok (x : β)
  | throw (e : Err)
  | ub
  | apart
  deriving DecidableEq, Repr

/-- Undefined behaviour.  Model only.  For file_io_netcdf.cc 2528-2691. -/
def isUb {β : Type} : Res β → Bool
  | .ub => true
  | _ => false

/-- An exception.  Model only.  For file_io_netcdf.cc 2528-2691. -/
def isThrow {β : Type} : Res β → Bool
  | .throw _ => true
  | _ => false

/-- The outcomes of the processes taken together.  Model only.  For file_io_netcdf.cc 2528-2691. -/
def jointly {β : Type} (rs : List (Res β)) : Joint (List β) :=
  if rs.any isUb then .ub
  else match mapRes id rs with
    | .ok xs => .ok xs
    | .throw e => if rs.all isThrow then .throw e else .apart
    | .ub => .ub

section
variable {α : Type}

/-- The parallel build of `NetCDFVarBase::write` on one process, file_io_netcdf.cc 2528-2606.  A file opened for reading refuses
every request (`NC_EPERM`); the collective call for a global field is refused in the independent mode (`NC_EINDEP`). -/
def Var.putPart (conv : Conv α) (writable indep : Bool) (v : Var) (nb frame : Int) (k : Nat) (marks : List Int) (buf : Mem α)
    (fv : FileVar α) : Res (FileVar α) :=
  if v.field.isGlobal then
    if indep || !writable then .throw .fileIOError else v.writeGlobalMpi conv nb frame k buf fv
  else do
    let p ← v.prepareLocal nb frame k marks
    if writable || p.1.isEmpty then v.putRequestsMpi conv p.2.1 p.2.2.1 p.2.2.2 buf p.1 0 fv else .throw .fileIOError

/-- The parallel build of `NetCDFVarBase::read` on one process, file_io_netcdf.cc 2610-2691. -/
def Var.getPart (conv : Conv α) (indep : Bool) (v : Var) (nb frame : Int) (k : Nat) (marks : List Int) (numrecs : Int)
    (fv : FileVar α) (buf : Mem α) : Res (Mem α) :=
  if v.field.isGlobal then
    if indep then .throw .fileIOError else v.readGlobalMpi conv nb frame k numrecs fv buf
  else do
    let p ← v.prepareLocal nb frame k marks
    v.getRequestsMpi conv p.2.1 p.2.2.1 p.2.2.2 fv numrecs p.1 0 buf

/-- All processes write, file_io_netcdf.cc 2528-2606: the outcome on each, and the variable afterwards.  Simplified: the
requests of a process before a failing one have no effect. -/
def putParts (conv : Conv α) (writable indep : Bool) (nb frame : Int) (k : Nat) :
    List (Var × List Int × Mem α) → FileVar α → List (Res Unit) × FileVar α
  | [], fv => ([], fv)
  | (v, marks, buf) :: ws, fv =>
      match v.putPart conv writable indep nb frame k marks buf fv with
      | .ok fv' => let r := putParts conv writable indep nb frame k ws fv'; (.ok () :: r.1, r.2)
      | .throw e => let r := putParts conv writable indep nb frame k ws fv; (.throw e :: r.1, r.2)
      | .ub => let r := putParts conv writable indep nb frame k ws fv; (.ub :: r.1, r.2)

/-- Whether a process calls `ncmpi_begin_indep_data`: `read` for a local field does so as soon as the frame has been checked
(file_io_netcdf.cc 2613, 2644-2646), `write` after it has computed the requests (2531, 2562-2577). -/
def Var.switches (read : Bool) (nb frame : Int) (k : Nat) (v : Var) (marks : List Int) : Bool :=
  !v.field.isGlobal &&
    if read then match handleFrame frame nb with | .ok _ => true | _ => false
    else match v.prepareLocal nb frame k marks with | .ok _ => true | _ => false

/-- Whether the file is in the independent mode after a transfer: `ncmpi_end_indep_data` is called if no exception came
before, file_io_netcdf.cc 2577, 2603-2605, 2645, 2688-2690. -/
def indepAfter {β : Type} (indep switched : Bool) : Joint β → Bool
  | .ok _ => if switched then false else indep
  | _ => if switched then true else indep

/-- `NetCDFVarBase::write` on all processes, file_io_netcdf.cc 2528-2606: the outcome, the mode of the file and the variable
afterwards. -/
def putCall (conv : Conv α) (writable indep : Bool) (nb frame : Int) (k : Nat) (ws : List (Var × List Int × Mem α))
    (fv : FileVar α) : Joint (List Unit) × Bool × FileVar α :=
  let r := putParts conv writable indep nb frame k ws fv
  let j := jointly r.1
  (j, indepAfter indep (ws.any fun w => w.1.switches false nb frame k w.2.1) j, r.2)

/-- `NetCDFVarBase::read` on all processes, file_io_netcdf.cc 2610-2691: the memories or the exception, and the mode
afterwards. -/
def getCall (conv : Conv α) (indep : Bool) (nb frame : Int) (k : Nat) (numrecs : Int) (fv : FileVar α)
    (ws : List (Var × List Int × Mem α)) : Joint (List (Mem α)) × Bool :=
  let j := jointly (ws.map fun w => w.1.getPart conv indep nb frame k w.2.1 numrecs fv w.2.2)
  (j, indepAfter indep (ws.any fun w => w.1.switches true nb frame k w.2.1) j)

/-- The loop of `NetCDFVarStateField::write`, file_io_netcdf.cc 3183-3195. -/
def putHist (conv : Conv α) (writable : Bool) (nb frame : Int) (ws : List (StateData α)) :
    List Nat → Bool → FileVar α → Joint (List Unit) × Bool × FileVar α
  | [], indep, fv => (.ok [], indep, fv)
  | k :: ks, indep, fv =>
      match mapRes (fun w : StateData α => do let b ← stateBuf w.idx w.bufs k; pure (w.v, w.marks, b)) ws with
      | .throw e => (.throw e, indep, fv)
      | .ub => (.ub, indep, fv)
      | .ok rs =>
          match putCall conv writable indep nb frame k rs fv with
          | (.ok _, indep', fv') => putHist conv writable nb frame ws ks indep' fv'
          | r => r

/-- The slot and the memory of the field that entry `k` of the history is read to.
`NetCDFVarStateField::get_field`, file_io_netcdf.cc 2942-2948. -/
def StateData.slot (k : Nat) (w : StateData α) : Res (StateData α × Nat × Mem α) := do
  let j ← stateSlot w.idx k
  let b ← at! w.bufs j
  pure (w, j, b)

/-- The loop of `NetCDFVarStateField::read`, file_io_netcdf.cc 3198-3210. -/
def getHist (conv : Conv α) (nb frame numrecs : Int) (fv : FileVar α) :
    List Nat → Bool → List (StateData α) → Joint (List (StateData α)) × Bool
  | [], indep, ws => (.ok ws, indep)
  | k :: ks, indep, ws =>
      match mapRes (StateData.slot k) ws with
      | .throw e => (.throw e, indep)
      | .ub => (.ub, indep)
      | .ok rs =>
          match getCall conv indep nb frame k numrecs fv (rs.map fun r => (r.1.v, r.1.marks, r.2.2)) with
          | (.ok bs, indep') => getHist conv nb frame numrecs fv ks indep'
              (List.zipWith (fun r b => { r.1 with bufs := r.1.bufs.set r.2.1 b }) rs bs)
          | (.throw e, indep') => (.throw e, indep')
          | (.ub, indep') => (.ub, indep')
          | (.apart, indep') => (.apart, indep')

/-- `NetCDFVarField::write` and `NetCDFVarStateField::write` on all processes, file_io_netcdf.cc 2528-2606, 3183-3195. -/
def SessVar.putPar (conv : Conv α) (writable indep : Bool) (x : SessVar) (nb frame : Int) (ws : List (StateData α))
    (fv : FileVar α) : Joint (List Unit) × Bool × FileVar α :=
  match x.hist with
  | some nbMem => putHist conv writable nb frame ws (List.range (nbMem + 1)) indep fv
  | none =>
      match mapRes (fun w : StateData α => do let b ← at! w.bufs 0; pure (w.v, w.marks, b)) ws with
      | .throw e => (.throw e, indep, fv)
      | .ub => (.ub, indep, fv)
      | .ok rs => putCall conv writable indep nb frame 0 rs fv

/-- `NetCDFVarField::read` and `NetCDFVarStateField::read` on all processes, file_io_netcdf.cc 2610-2691, 3198-3210. -/
def SessVar.getPar (conv : Conv α) (indep : Bool) (x : SessVar) (nb frame numrecs : Int) (ws : List (StateData α))
    (fv : FileVar α) : Joint (List (ProcMem α)) × Bool :=
  match x.hist with
  | some nbMem =>
      match getHist conv nb frame numrecs fv (List.range (nbMem + 1)) indep ws with
      | (.ok ws', i) => (.ok (ws'.map fun w => ⟨w.idx, w.bufs⟩), i)
      | (.throw e, i) => (.throw e, i)
      | (.ub, i) => (.ub, i)
      | (.apart, i) => (.apart, i)
  | none =>
      match mapRes (fun w : StateData α => do let b ← at! w.bufs 0; pure (w.v, w.marks, b)) ws with
      | .throw e => (.throw e, indep)
      | .ub => (.ub, indep)
      | .ok rs =>
          match getCall conv indep nb frame 0 numrecs fv rs with
          | (.ok bs, i) => (.ok (List.zipWith (fun w b => ⟨w.idx, w.bufs.set 0 b⟩) ws bs), i)
          | (.throw e, i) => (.throw e, i)
          | (.ub, i) => (.ub, i)
          | (.apart, i) => (.apart, i)

/-- An open file, the memory of the program, and whether PnetCDF is in its independent data mode.  Model only: file object and
memory of a program.  For file_io_netcdf.cc 47-1150. -/
structure ParWorld (α : Type) extends World α where
  indep : Bool

/-- What follows a call: nothing, unless it succeeded on all processes.  For file_io_netcdf.cc 314-393. -/
def Joint.next {β : Type} (r : Joint β × ParWorld α) (f : ParWorld α → Joint Unit × ParWorld α) : Joint Unit × ParWorld α :=
  match r with
  | (.ok _, p) => f p
  | (.throw e, p) => (.throw e, p)
  | (.ub, p) => (.ub, p)
  | (.apart, p) => (.apart, p)

/-- All processes write the hidden variable `l`, file_io_netcdf.cc 362-366. -/
def ParWorld.putEntries (conv : Conv Int) (l : String) (frame : Int) (p : ParWorld α) : Joint Unit × ParWorld α :=
  match p.sess.hidden l, p.file.hidden l with
  | some vs, some fv =>
      match putCall conv (p.sess.mode ≠ .read) p.indep p.sess.nbFrames frame 0
          (List.zipWith (fun v m => (v, [], entryBuf m)) vs (p.sess.marks l)) fv with
      | (.ok _, i, fv') =>
          (.ok (), { p with indep := i, file := { p.file with hidden := setAt p.file.hidden l (some fv') } })
      | (.throw e, i, _) => (.throw e, { p with indep := i })
      | (.ub, i, _) => (.ub, { p with indep := i })
      | (.apart, i, _) => (.apart, { p with indep := i })
  | _, _ => (.throw .fileIOError, p)

/-- All processes read the hidden variable `l`, file_io_netcdf.cc 325-328, 374-378. -/
def ParWorld.getEntries (conv : Conv Int) (l : String) (frame : Int) (p : ParWorld α) : Joint Unit × ParWorld α :=
  match p.sess.hidden l, p.file.hidden l with
  | some vs, some fv =>
      match getCall conv p.indep p.sess.nbFrames frame 0 p.file.numrecs fv
          ((vs.zip (p.sess.marks l)).map fun vm => (vm.1, [], entryBuf vm.2)) with
      | (.ok bs, i) =>
          match mapRes (fun mb : (Var × List Int) × Mem Int => entriesOf mb.1.2.length mb.2)
              ((vs.zip (p.sess.marks l)).zip bs) with
          | .ok ms => (.ok (), { p with indep := i, sess := { p.sess with marks := setAt p.sess.marks l ms } })
          | .throw e => (.throw e, { p with indep := i })
          | .ub => (.ub, { p with indep := i })
      | (.throw e, i) => (.throw e, { p with indep := i })
      | (.ub, i) => (.ub, { p with indep := i })
      | (.apart, i) => (.apart, { p with indep := i })
  | _, _ => (.throw .fileIOError, p)

/-- The part of the loop of `write` for the hidden variable, file_io_netcdf.cc 354-381. -/
def ParWorld.entriesForWrite (conv : Conv Int) (x : SessVar) (frame : Int) (p : ParWorld α) : Joint Unit × ParWorld α :=
  match x.localName with
  | none => (.ok (), p)
  | some l =>
      match p.sess.mode with
      | .write | .overwrite =>
          if l ∈ p.sess.written then (.ok (), p)
          else Joint.next (p.putEntries conv l 0) fun q =>
            (.ok (), { q with sess := { q.sess with written := q.sess.written ++ [l] } })
      | .append =>
          if l ∈ p.sess.readIn then (.ok (), p)
          else Joint.next (p.getEntries conv l frame) fun q =>
            (.ok (), { q with sess := { q.sess with readIn := q.sess.readIn ++ [l] } })
      | .read => (.ok (), p)

/-- The part of the loop of `read` for the hidden variable, file_io_netcdf.cc 319-331. -/
def ParWorld.entriesForRead (conv : Conv Int) (x : SessVar) (p : ParWorld α) : Joint Unit × ParWorld α :=
  match x.localName with
  | none => (.ok (), p)
  | some l =>
      if l ∈ p.sess.readIn then (.ok (), p)
      else Joint.next (p.getEntries conv l 0) fun q =>
        (.ok (), { q with sess := { q.sess with readIn := q.sess.readIn ++ [l] } })

/-- `var.write`, file_io_netcdf.cc 383-384.  A frame that is negative after the check is refused by all processes before
anything else happens (`get_start_global`, `get_start_local`).  A call that succeeds on a file opened for reading has made no
request, and the file stays as it is. -/
def ParWorld.putVar (conv : Conv α) (x : SessVar) (frame : Int) (p : ParWorld α) : Joint Unit × ParWorld α :=
  match p.file.vars x.name with
  | none => (.throw .fileIOError, p)
  | some fv =>
      match varFrame p.sess.nbFrames frame with
      | .throw e => (.throw e, p)
      | .ub => (.ub, p)
      | .ok fr =>
          match x.putPar conv (p.sess.mode ≠ .read) p.indep p.sess.nbFrames frame
              (procData x.parts (p.sess.marksOf x) (p.mem x.name)) fv with
          | (.ok _, i, fv') => (.ok (), { p with indep := i, file :=
              if p.sess.mode = .read then p.file
              else { p.file with vars := setAt p.file.vars x.name (some fv'), numrecs := max p.file.numrecs (fr + 1) } })
          | (.throw e, i, _) => (.throw e, { p with indep := i })
          | (.ub, i, _) => (.ub, { p with indep := i })
          | (.apart, i, _) => (.apart, { p with indep := i })

/-- `var.read`, file_io_netcdf.cc 333. -/
def ParWorld.getVar (conv : Conv α) (x : SessVar) (frame : Int) (p : ParWorld α) : Joint Unit × ParWorld α :=
  match p.file.vars x.name with
  | none => (.throw .fileIOError, p)
  | some fv =>
      match x.getPar conv p.indep p.sess.nbFrames frame p.file.numrecs
          (procData x.parts (p.sess.marksOf x) (p.mem x.name)) fv with
      | (.ok ms, i) => (.ok (), { p with indep := i, mem := setAt p.mem x.name ms })
      | (.throw e, i) => (.throw e, { p with indep := i })
      | (.ub, i) => (.ub, { p with indep := i })
      | (.apart, i) => (.apart, { p with indep := i })

/-- The loop of `FileIONetCDF::write(frame, field_names)`, file_io_netcdf.cc 350-385. -/
def ParWorld.writeNames (conv : Conv α) (convI : Conv Int) (frame : Int) : List String → ParWorld α → Joint Unit × ParWorld α
  | [], p => (.ok (), p)
  | n :: ns, p =>
      Joint.next
        (match p.sess.find n with
        | some x => Joint.next (p.entriesForWrite convI x frame) fun q => q.putVar conv x frame
        | none => p.putEntries convI n frame)
        (ParWorld.writeNames conv convI frame ns)

/-- The loop of `FileIONetCDF::read(frame, field_names)`, file_io_netcdf.cc 317-334. -/
def ParWorld.readNames (conv : Conv α) (convI : Conv Int) (frame : Int) : List String → ParWorld α → Joint Unit × ParWorld α
  | [], p => (.ok (), p)
  | n :: ns, p =>
      Joint.next
        (match p.sess.find n with
        | some x => Joint.next (p.entriesForRead convI x) fun q => q.getVar conv x frame
        | none => p.getEntries convI n frame)
        (ParWorld.readNames conv convI frame ns)

/-- One operation on all processes in the parallel build: its outcome and the state after it.
`FileIOBase::append_frame` file_io_base.cc 70-74, `FileIONetCDF::write` file_io_netcdf.cc 344-393,
`FileIONetCDF::read` file_io_netcdf.cc 314-341. -/
def ParWorld.step (conv : Conv α) (convI : Conv Int) (p : ParWorld α) : FileOp (Memory α) → Joint Unit × ParWorld α
  | .appendFrame => (.ok (), { p with sess := { p.sess with nbFrames := p.sess.nbFrames + 1 } })
  | .write frame names => p.writeNames conv convI frame names
  | .writeAll frame => p.writeNames conv convI frame p.sess.names
  | .read frame names => p.readNames conv convI frame names
  | .readAll frame => p.readNames conv convI frame p.sess.names
  | .compute mem => (.ok (), { p with mem := mem })

/-- A sequence of operations in a program that catches exceptions: the outcomes and the state at the end.  When the processes
have come apart, some wait for ever and the program goes no further.  Programs are not part of /repo.
For file_io_netcdf.cc 47-1150. -/
def ParWorld.run (conv : Conv α) (convI : Conv Int) : ParWorld α → List (FileOp (Memory α)) → List (Joint Unit) × ParWorld α
  | p, [] => ([], p)
  | p, op :: ops =>
      match p.step conv convI op with
      | (.apart, q) => ([.apart], q)
      | (j, q) => let r := ParWorld.run conv convI q ops; (j :: r.1, r.2)

/-- What a program does with a file in the parallel build, see `ProgramRun`.  Programs are not part of /repo.
For file_io_netcdf.cc 47-1150. -/
structure ParRun (α : Type) where
  registered : List (List (Res Unit))
  results : List (Joint Unit)
  disk : Disk α
  mem : Memory α
  nbFrames : Int

/-- A program in the parallel build that creates a file, registers its collections, runs the operations and closes the file,
file_io_netcdf.cc 182-218, 293-311; see `createFile`.  A new file is in the collective mode after `ncmpi_enddef` (1132-1149). -/
def createFilePar (conv : Conv α) (convI : Conv Int) (mode : OpenMode) (colls : List (List IoColl))
    (garbage : String → List Int → α) (garbageInt : String → List Int → Int) (mem : Memory α)
    (ops : List (FileOp (Memory α))) : ParRun α :=
  let regs := registerRanks mode [] [] 0 colls
  let s := joinSess mode (regs.map Prod.snd)
  let w := ParWorld.run conv convI ⟨⟨s, NcFile.created s.vars s.hidden garbage garbageInt, mem⟩, false⟩ ops
  let h := headerOf (regs.map Prod.snd)
  ⟨regs.map Prod.fst, w.1, ⟨h.1, h.2, w.2.file⟩, w.2.mem, w.2.sess.nbFrames⟩

/-- A program in the parallel build that opens an existing file, registers its collections, runs the operations and closes the
file, file_io_netcdf.cc 220-262, 293-311; see `useFile`.  After `ncmpi_open` a file is in the collective mode. -/
def useFilePar (conv : Conv α) (convI : Conv Int) (mode : OpenMode) (colls : List (List IoColl)) (d : Disk α)
    (mem : Memory α) (ops : List (FileOp (Memory α))) : ParRun α :=
  let regs := registerRanks mode d.dims d.vars d.data.numrecs colls
  let s := joinSess mode (regs.map Prod.snd)
  let w := ParWorld.run conv convI ⟨⟨s, d.data, mem⟩, false⟩ ops
  let h := headerOf (regs.map Prod.snd)
  ⟨regs.map Prod.fst, w.1, ⟨h.1, h.2, w.2.file⟩, w.2.mem, w.2.sess.nbFrames⟩

end
end Verif.NetCDF
