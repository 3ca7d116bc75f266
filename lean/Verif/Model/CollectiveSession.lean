import Verif.Model.Collective
import Verif.Model.ParallelSession
/-
The collective calls that a process makes while a program uses a file in the parallel build, beside the operations of
`ParallelSession.lean`.
-/
namespace Verif.NetCDF
open Verif Verif.RawMemory Verif.FileIO

/-- No exception.  Model only.  For file_io_netcdf.cc 2528-2691. -/
def isOk {β : Type} : Res β → Bool
  | .ok _ => true
  | _ => false

/-- Whether a process that transfers a global field comes to the collective call: everything before it succeeds.
file_io_netcdf.cc 2528-2545, 2610-2627. -/
def Var.asks (nb frame : Int) (k : Nat) (v : Var) : Bool :=
  isOk (do
    let f ← handleFrame frame nb
    let _ ← v.startGlobal f k
    let _ ← v.countGlobal
    let _ ← v.ncStride
    let _ ← v.imapGlobal
    mpiTypeOf v.dataType)

/-- The collective calls of `NetCDFVarBase::write` and `NetCDFVarBase::read` on a process, where `ok` says whether it ends without
an exception, file_io_netcdf.cc 2528-2606, 2610-2691: `ncmpi_put_varm_all` or `ncmpi_get_varm_all` for a global field; for a local
field `ncmpi_begin_indep_data`, requests that are not collective, and `ncmpi_end_indep_data` if none of them has thrown. -/
def Var.transferCalls (read : Bool) (nb frame : Int) (k : Nat) (v : Var) (marks : List Int) (ok : Bool) : List CollCall :=
  if v.field.isGlobal then
    if v.asks nb frame k then [if read then .getAll v.name else .putAll v.name] else []
  else if v.switches read nb frame k marks then .beginIndep :: if ok then [.endIndep] else []
  else []

section
variable {α : Type}

/-- The calls of process `i` in `NetCDFVarBase::write`, file_io_netcdf.cc 2528-2606. -/
def putTrace (conv : Conv α) (writable indep : Bool) (nb frame : Int) (k : Nat) (ws : List (Var × List Int × Mem α))
    (fv : FileVar α) (i : Nat) : List CollCall :=
  match ws[i]?, (putParts conv writable indep nb frame k ws fv).1[i]? with
  | some w, some r => w.1.transferCalls false nb frame k w.2.1 (isOk r)
  | _, _ => []

/-- The calls of process `i` in `NetCDFVarBase::read`, file_io_netcdf.cc 2610-2691. -/
def getTrace (conv : Conv α) (indep : Bool) (nb frame : Int) (k : Nat) (numrecs : Int) (fv : FileVar α)
    (ws : List (Var × List Int × Mem α)) (i : Nat) : List CollCall :=
  match ws[i]? with
  | some w => w.1.transferCalls true nb frame k w.2.1 (isOk (w.1.getPart conv indep nb frame k w.2.1 numrecs fv w.2.2))
  | none => []

/-- The loop of `NetCDFVarStateField::write`, file_io_netcdf.cc 3183-3195. -/
def putHistTrace (conv : Conv α) (writable : Bool) (nb frame : Int) (ws : List (StateData α)) (i : Nat) :
    List Nat → Bool → FileVar α → List CollCall
  | [], _, _ => []
  | k :: ks, indep, fv =>
      match mapRes (fun w : StateData α => do let b ← stateBuf w.idx w.bufs k; pure (w.v, w.marks, b)) ws with
      | .ok rs =>
          putTrace conv writable indep nb frame k rs fv i ++
            match putCall conv writable indep nb frame k rs fv with
            | (.ok _, indep', fv') => putHistTrace conv writable nb frame ws i ks indep' fv'
            | _ => []
      | _ => []

/-- The loop of `NetCDFVarStateField::read`, file_io_netcdf.cc 3198-3210. -/
def getHistTrace (conv : Conv α) (nb frame numrecs : Int) (fv : FileVar α) (i : Nat) :
    List Nat → Bool → List (StateData α) → List CollCall
  | [], _, _ => []
  | k :: ks, indep, ws =>
      match mapRes (StateData.slot k) ws with
      | .ok rs =>
          let cs := rs.map fun r => (r.1.v, r.1.marks, r.2.2)
          getTrace conv indep nb frame k numrecs fv cs i ++
            match getCall conv indep nb frame k numrecs fv cs with
            | (.ok bs, indep') => getHistTrace conv nb frame numrecs fv i ks indep'
                (List.zipWith (fun r b => { r.1 with bufs := r.1.bufs.set r.2.1 b }) rs bs)
            | _ => []
      | _ => []

/-- `NetCDFVarField::write` and `NetCDFVarStateField::write`, file_io_netcdf.cc 2528-2606, 3183-3195. -/
def SessVar.putTrace (conv : Conv α) (writable indep : Bool) (x : SessVar) (nb frame : Int) (ws : List (StateData α))
    (fv : FileVar α) (i : Nat) : List CollCall :=
  match x.hist with
  | some nbMem => putHistTrace conv writable nb frame ws i (List.range (nbMem + 1)) indep fv
  | none =>
      match mapRes (fun w : StateData α => do let b ← at! w.bufs 0; pure (w.v, w.marks, b)) ws with
      | .ok rs => NetCDF.putTrace conv writable indep nb frame 0 rs fv i
      | _ => []

/-- `NetCDFVarField::read` and `NetCDFVarStateField::read`, file_io_netcdf.cc 2610-2691, 3198-3210. -/
def SessVar.getTrace (conv : Conv α) (indep : Bool) (x : SessVar) (nb frame numrecs : Int) (ws : List (StateData α))
    (fv : FileVar α) (i : Nat) : List CollCall :=
  match x.hist with
  | some nbMem => getHistTrace conv nb frame numrecs fv i (List.range (nbMem + 1)) indep ws
  | none =>
      match mapRes (fun w : StateData α => do let b ← at! w.bufs 0; pure (w.v, w.marks, b)) ws with
      | .ok rs => NetCDF.getTrace conv indep nb frame 0 numrecs fv rs i
      | _ => []

/-- The calls of a step and of what follows if it succeeds on all processes.  For file_io_netcdf.cc 314-393. -/
def Joint.nextTrace {β : Type} (l : List CollCall) (r : Joint β × ParWorld α) (f : ParWorld α → List CollCall) : List CollCall :=
  l ++ match r with
    | (.ok _, p) => f p
    | _ => []

/-- The hidden variable `l` is written, file_io_netcdf.cc 362-366. -/
def ParWorld.putEntriesTrace (conv : Conv Int) (l : String) (frame : Int) (p : ParWorld α) (i : Nat) : List CollCall :=
  match p.sess.hidden l, p.file.hidden l with
  | some vs, some fv => putTrace conv (p.sess.mode ≠ .read) p.indep p.sess.nbFrames frame 0
      (List.zipWith (fun v m => (v, [], entryBuf m)) vs (p.sess.marks l)) fv i
  | _, _ => []

/-- The hidden variable `l` is read, file_io_netcdf.cc 325-328, 374-378. -/
def ParWorld.getEntriesTrace (conv : Conv Int) (l : String) (frame : Int) (p : ParWorld α) (i : Nat) : List CollCall :=
  match p.sess.hidden l, p.file.hidden l with
  | some vs, some fv => getTrace conv p.indep p.sess.nbFrames frame 0 p.file.numrecs fv
      ((vs.zip (p.sess.marks l)).map fun vm => (vm.1, [], entryBuf vm.2)) i
  | _, _ => []

/-- The part of the loop of `write` for the hidden variable, file_io_netcdf.cc 354-381. -/
def ParWorld.entriesForWriteTrace (conv : Conv Int) (x : SessVar) (frame : Int) (p : ParWorld α) (i : Nat) : List CollCall :=
  match x.localName with
  | none => []
  | some l =>
      match p.sess.mode with
      | .write | .overwrite => if l ∈ p.sess.written then [] else p.putEntriesTrace conv l 0 i
      | .append => if l ∈ p.sess.readIn then [] else p.getEntriesTrace conv l frame i
      | .read => []

/-- The part of the loop of `read` for the hidden variable, file_io_netcdf.cc 319-331. -/
def ParWorld.entriesForReadTrace (conv : Conv Int) (x : SessVar) (p : ParWorld α) (i : Nat) : List CollCall :=
  match x.localName with
  | none => []
  | some l => if l ∈ p.sess.readIn then [] else p.getEntriesTrace conv l 0 i

/-- `var.write`, file_io_netcdf.cc 383-384. -/
def ParWorld.putVarTrace (conv : Conv α) (x : SessVar) (frame : Int) (p : ParWorld α) (i : Nat) : List CollCall :=
  match p.file.vars x.name with
  | none => []
  | some fv =>
      match varFrame p.sess.nbFrames frame with
      | .ok _ => x.putTrace conv (p.sess.mode ≠ .read) p.indep p.sess.nbFrames frame
          (procData x.parts (p.sess.marksOf x) (p.mem x.name)) fv i
      | _ => []

/-- `var.read`, file_io_netcdf.cc 333. -/
def ParWorld.getVarTrace (conv : Conv α) (x : SessVar) (frame : Int) (p : ParWorld α) (i : Nat) : List CollCall :=
  match p.file.vars x.name with
  | none => []
  | some fv => x.getTrace conv p.indep p.sess.nbFrames frame p.file.numrecs
      (procData x.parts (p.sess.marksOf x) (p.mem x.name)) fv i

/-- The loop of `FileIONetCDF::write(frame, field_names)`, file_io_netcdf.cc 350-385.  Simplified: the calls for the global
attributes before the loop (348, 984-1010) are left out. -/
def ParWorld.writeTrace (conv : Conv α) (convI : Conv Int) (frame : Int) (i : Nat) : List String → ParWorld α → List CollCall
  | [], _ => []
  | n :: ns, p =>
      Joint.nextTrace
        (match p.sess.find n with
        | some x => Joint.nextTrace (p.entriesForWriteTrace convI x frame i) (p.entriesForWrite convI x frame)
            fun q => q.putVarTrace conv x frame i
        | none => p.putEntriesTrace convI n frame i)
        (match p.sess.find n with
        | some x => Joint.next (p.entriesForWrite convI x frame) fun q => q.putVar conv x frame
        | none => p.putEntries convI n frame)
        (ParWorld.writeTrace conv convI frame i ns)

/-- The loop of `FileIONetCDF::read(frame, field_names)`, file_io_netcdf.cc 317-334. -/
def ParWorld.readTrace (conv : Conv α) (convI : Conv Int) (frame : Int) (i : Nat) : List String → ParWorld α → List CollCall
  | [], _ => []
  | n :: ns, p =>
      Joint.nextTrace
        (match p.sess.find n with
        | some x => Joint.nextTrace (p.entriesForReadTrace convI x i) (p.entriesForRead convI x)
            fun q => q.getVarTrace conv x frame i
        | none => p.getEntriesTrace convI n frame i)
        (match p.sess.find n with
        | some x => Joint.next (p.entriesForRead convI x) fun q => q.getVar conv x frame
        | none => p.getEntries convI n frame)
        (ParWorld.readTrace conv convI frame i ns)

/-- The calls of process `i` in one operation, file_io_base.cc 70-74, file_io_netcdf.cc 314-393. -/
def ParWorld.stepTrace (conv : Conv α) (convI : Conv Int) (p : ParWorld α) (i : Nat) : FileOp (Memory α) → List CollCall
  | .appendFrame => []
  | .write frame names => p.writeTrace conv convI frame i names
  | .writeAll frame => p.writeTrace conv convI frame i p.sess.names
  | .read frame names => p.readTrace conv convI frame i names
  | .readAll frame => p.readTrace conv convI frame i p.sess.names
  | .compute _ => []

/-- The calls of process `i` in a sequence of operations; nothing is said about what processes do that have come apart.
Programs are not part of /repo.  For file_io_netcdf.cc 47-1150. -/
def ParWorld.runTrace (conv : Conv α) (convI : Conv Int) (i : Nat) : ParWorld α → List (FileOp (Memory α)) → List CollCall
  | _, [] => []
  | p, op :: ops =>
      p.stepTrace conv convI i op ++
        match p.step conv convI op with
        | (.apart, _) => []
        | (_, q) => ParWorld.runTrace conv convI i q ops

/-- The registrations of a process with the default arguments, see `registerRanks`.  file_io_netcdf.cc 64-171. -/
def registrations (cs : List IoColl) : List RegOp :=
  cs.map fun c => .register c ["REGISTER_ALL_FIELDS"] ["REGISTER_ALL_STATE_FIELDS"]

/-- The calls of process `i` in a program that creates a file, between opening and closing it (which are one call each); a new
file is in define mode (file_io_netcdf.cc 182-218).  See `createFilePar`. -/
def createTrace (conv : Conv α) (convI : Conv Int) (mode : OpenMode) (colls : List (List IoColl))
    (garbage : String → List Int → α) (garbageInt : String → List Int → Int) (mem : Memory α)
    (ops : List (FileOp (Memory α))) (i : Nat) : List CollCall :=
  let s := joinSess mode ((registerRanks mode [] [] 0 colls).map Prod.snd)
  Reg.runCalls true (Reg.opened mode [] [] 0) (registrations ((colls[i]?).getD [])) ++
    ParWorld.runTrace conv convI i ⟨⟨s, NcFile.created s.vars s.hidden garbage garbageInt, mem⟩, false⟩ ops

/-- The calls of process `i` in a program that opens a file, between opening and closing it; the flag `netcdf_mode` says
define mode there too (file_io_netcdf.cc 220-262, 277).  See `useFilePar`. -/
def useTrace (conv : Conv α) (convI : Conv Int) (mode : OpenMode) (colls : List (List IoColl)) (d : Disk α)
    (mem : Memory α) (ops : List (FileOp (Memory α))) (i : Nat) : List CollCall :=
  let s := joinSess mode ((registerRanks mode d.dims d.vars d.data.numrecs colls).map Prod.snd)
  Reg.runCalls true (Reg.opened mode d.dims d.vars d.data.numrecs) (registrations ((colls[i]?).getD [])) ++
    ParWorld.runTrace conv convI i ⟨⟨s, d.data, mem⟩, false⟩ ops

end
end Verif.NetCDF
