import Verif.Model.NetCDF
import Verif.Model.Collection
/-
State fields in NetCDF files: file_io_netcdf.cc 2932-3211.
-/
namespace Verif.NetCDF
open Verif Verif.RawMemory

namespace Var

/-- `NetCDFVarBase::write`, file_io_netcdf.cc 2528-2606: global and local fields. -/
def write {α : Type} (v : Var) (nb frame : Int) (k : Nat) (marks : List Int) (buf : Mem α)
    (fv : FileVar α) : Res (FileVar α) :=
  if v.field.isGlobal then v.writeGlobal nb frame k buf fv else v.writeLocal nb frame k marks buf fv

/-- `NetCDFVarBase::read`, file_io_netcdf.cc 2610-2691. -/
def read {α : Type} (v : Var) (nb frame : Int) (k : Nat) (marks : List Int) (numrecs : Int)
    (fv : FileVar α) (buf : Mem α) : Res (Mem α) :=
  if v.field.isGlobal then v.readGlobal nb frame k numrecs fv buf
  else v.readLocal nb frame k marks numrecs fv buf

/-- All processes call `NetCDFVarBase::write`; they are served one after the other.  file_io_netcdf.cc 2530-2600. -/
def writeRanks {α : Type} (nb frame : Int) (k : Nat) :
    List (Var × List Int × Mem α) → FileVar α → Res (FileVar α)
  | [], fv => .ok fv
  | (v, marks, buf) :: ws, fv => do
      let fv' ← v.write nb frame k marks buf fv
      writeRanks nb frame k ws fv'

end Var

/-- The place in `StateField::fields` of the field that `NetCDFVarStateField::get_field` returns,
file_io_netcdf.cc 2942-2948: `current()` uses `indices[0]` (unchecked), `old(k)` uses `indices.at(k)`
(state_field.cc 100-110). -/
def stateSlot (idx : List Nat) (k : Nat) : Res Nat :=
  match idx[k]? with
  | some j => .ok j
  | none => if k = 0 then .ub else .throw .outOfRange

/-- The memory of that field, `get_buf`, file_io_netcdf.cc 2097-2099 (`fields[...]` is unchecked). -/
def stateBuf {α : Type} (idx : List Nat) (bufs : List (Mem α)) (k : Nat) : Res (Mem α) := do
  let j ← stateSlot idx k
  at! bufs j

/-- The loops `for (new_state_field_index = 0; ...)`, file_io_netcdf.cc 3187-3194, 3202-3209. -/
def histLoop {β : Type} (step : Nat → β → Res β) : List Nat → β → Res β
  | [], s => .ok s
  | k :: ks, s => do
      let s' ← step k s
      histLoop step ks s'

/-- A process with a state field: the variable, the indices of the state field, the memories of its
fields and the entries of the local pixels.  file_io_netcdf.hh 883-960. -/
structure StateData (α : Type) where
  v : Var
  idx : List Nat
  bufs : List (Mem α)
  marks : List Int

/-- `NetCDFVarStateField::write`, file_io_netcdf.cc 3183-3195, called on all processes; `nbMem` is
`get_nb_memory()` (the same on all processes).  For each entry of the history the processes write
collectively. -/
def writeState {α : Type} (nb frame : Int) (nbMem : Nat) (ws : List (StateData α)) (fv : FileVar α) :
    Res (FileVar α) :=
  histLoop (fun k fv => do
    let rs ← mapRes (fun w => do let b ← stateBuf w.idx w.bufs k; pure (w.v, w.marks, b)) ws
    Var.writeRanks nb frame k rs fv) (List.range (nbMem + 1)) fv

/-- `NetCDFVarStateField::read`, file_io_netcdf.cc 3198-3210, on one process: the memories of the
fields afterwards. -/
def readState {α : Type} (nb frame : Int) (nbMem : Nat) (w : StateData α) (numrecs : Int) (fv : FileVar α) :
    Res (List (Mem α)) :=
  histLoop (fun k bufs => do
    let j ← stateSlot w.idx k
    let b ← at! bufs j
    let b' ← w.v.read nb frame k w.marks numrecs fv b
    pure (bufs.set j b')) (List.range (nbMem + 1)) w.bufs

end Verif.NetCDF
