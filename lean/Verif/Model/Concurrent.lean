import Verif.Model.NetCDFState
import Mathlib.Logic.Function.Basic
import Mathlib.Data.List.FinRange
/-
Processes that run at the same time and share a file.

Every process goes through its own sequence of actions: it copies single elements between its memory and the file, and
it makes collective calls, in which all processes have to take part.  Between the collective calls the processes run at
any speed.  (The other models serve the processes one after the other.)
-/
namespace Verif.Concurrent
open Verif Verif.NetCDF Verif.RawMemory Verif.Ccoord Verif.FileIO

/-- An action of a process: an element goes from the address `a` of its memory to the place `c` of the file (inside
`ncmu_put_varm_all` and `ncmu_put_varm`, file_io_netcdf.cc 2541, 2585) or back (`ncmu_get_varm_all` and `ncmu_get_varm`,
2623, 2670), or it makes the collective call `t` (`ncmu_put_varm_all`, `ncmu_get_varm_all`, `ncmu_begin_indep_data`,
`ncmu_end_indep_data`, 2541, 2576, 2604, 2623, 2644, 2689). -/
inductive Act (C A : Type)
  | store (c : C) (a : A)
  | load (c : C) (a : A)
  | sync (t : String)
  deriving DecidableEq

variable {C A V : Type} [DecidableEq C] [DecidableEq A]

/-- The effect of copying one element; an address outside of the memory is undefined (`none`).  NetCDF library (trusted),
called at file_io_netcdf.cc 2541-2590 and 2623-2680. -/
def exec (d : C → V) (m : A → Option V) : Act C A → Option ((C → V) × (A → Option V))
  | .store c a => (m a).map fun v => (fun y => if y = c then v else d y, m)
  | .load c a => (m a).map fun _ => (d, fun b => if b = a then some (d c) else m b)
  | .sync _ => none

/-- A process: what it still has to do, and its memory.  A process that runs file_io_netcdf.cc 2528-2691. -/
structure Proc (C A V : Type) where
  prog : List (Act C A)
  mem : A → Option V

/-- The file and the processes.  The processes of the communicator, communicator.hh 92-107. -/
structure Config (n : Nat) (C A V : Type) where
  data : C → V
  procs : Fin n → Proc C A V

/-- A step of the whole program: one process copies its next element, or all processes take part in the next collective
call.  MPI and PnetCDF (trusted): a collective call does not return before all processes have called it; what was
copied is seen by the other processes.  file_io_netcdf.cc 2528-2691. -/
inductive Step {n : Nat} : Config n C A V → Config n C A V → Prop
  | act {s : Config n C A V} (i : Fin n) {a : Act C A} {rest : List (Act C A)} {d' : C → V} {m' : A → Option V} :
      (s.procs i).prog = a :: rest → exec s.data (s.procs i).mem a = some (d', m') →
      Step s ⟨d', Function.update s.procs i ⟨rest, m'⟩⟩
  | collective {s : Config n C A V} (t : String) :
      (∀ i, ∃ rest, (s.procs i).prog = .sync t :: rest) →
      Step s ⟨s.data, fun i => ⟨(s.procs i).prog.tail, (s.procs i).mem⟩⟩

/-- Any number of steps.  Executions of file_io_netcdf.cc 2528-2691 on all processes. -/
inductive Steps {n : Nat} : Config n C A V → Config n C A V → Prop
  | refl {s : Config n C A V} : Steps s s
  | tail {s t u : Config n C A V} : Steps s t → Step t u → Steps s u

/-! ### The actions of a transfer -/

/-- The places in the file and the offsets in memory of one request, in the order in which the library copies.  For the
calls file_io_netcdf.cc 2541-2590 and 2623-2680. -/
def requestCells (stride imap : List Int) (off : Int) (start count : List Int) : List (List Int × Int) :=
  (boxIndices count).map fun c => (target start stride c, off + linearIndex c imap)

/-- The loop over the requests of a local field, file_io_netcdf.cc 2579-2602 and 2664-2687. -/
def requestsCells (stride imap : List Int) : List (List Int × List Int) → Int → List (List Int × Int)
  | [], _ => []
  | (start, count) :: rest, off =>
      requestCells stride imap off start count ++ requestsCells stride imap rest (off + getSize count)

/-- Which elements `NetCDFVarBase::write` and `read` copy on one process, file_io_netcdf.cc 2528-2606, 2610-2691: pairs of
a place in the variable and an address in memory. -/
def cells (v : Var) (nb frame : Int) (k : Nat) (marks : List Int) : Res (List (List Int × Int)) :=
  if v.field.isGlobal then do
    let f ← handleFrame frame nb
    let start ← v.startGlobal f k
    let count ← v.countGlobal
    let stride ← v.ncStride
    let imap ← v.imapGlobal
    pure (requestCells stride imap 0 start count)
  else do
    let f ← handleFrame frame nb
    let starts ← v.startLocal f k marks
    let counts ← v.countLocal marks
    let stride ← v.ncStride
    let imap ← v.imapLocal
    pure (requestsCells stride imap (starts.zip counts) 0)

/-- A call of `NetCDFVarBase::write` or `read` on one process (file_io_netcdf.cc 2528-2691): the name of the variable, the
arguments, the variable, the entries of the local pixels (`GFC_local_pixels`) and the number of the memory of the field. -/
structure Call where
  isWrite : Bool
  name : String
  nb : Int
  frame : Int
  k : Nat
  part : Var
  marks : List Int
  buf : Nat

/-- A place in the file: variable and coordinates.  The file behind `netcdf_id`, file_io_netcdf.hh 1201-1690. -/
abbrev Cell := String × List Int

/-- A place in the memory of a process: number of the memory, address.  `get_buf`, file_io_netcdf.cc 2097-2099. -/
abbrev Addr := Nat × Int

namespace Call

/-- The copies of a call, file_io_netcdf.cc 2528-2691. -/
def acts (x : Call) : Res (List (Act Cell Addr)) := do
  let l ← cells x.part x.nb x.frame x.k x.marks
  pure (l.map fun p => if x.isWrite then .store (x.name, p.1) (x.buf, p.2) else .load (x.name, p.1) (x.buf, p.2))

/-- The collective call for a global field, file_io_netcdf.cc 2541-2551, 2623-2633.  All processes have to name the same
variable. -/
def globalTag (x : Call) : String := if x.isWrite then "put_varm_all " ++ x.name else "get_varm_all " ++ x.name

/-- What a process does in a call: a collective transfer for a global field (file_io_netcdf.cc 2541-2551, 2623-2633),
independent ones between two collective calls for a local field (2576-2604, 2644-2689).  A wrong argument ends the call with
an exception, in `handle_frame` before any collective call (2532, 2614); the reading of a local field has made the first
one already when it looks up its entries (2644-2652).  The second component says whether the call returns.  Simplified:
undefined behaviour in the lookup of the entries also ends the call; requests that the library refuses are not among the
actions (2552, 2593, 2635, 2678). -/
def prog (x : Call) : List (Act Cell Addr) × Bool :=
  match x.acts with
  | .ok as =>
      if x.part.field.isGlobal then (.sync x.globalTag :: as, true)
      else (.sync "begin_indep_data" :: (as ++ [.sync "end_indep_data"]), true)
  | _ =>
      match handleFrame x.frame x.nb with
      | .ok _ => if !x.isWrite && !x.part.field.isGlobal then ([.sync "begin_indep_data"], false) else ([], false)
      | _ => ([], false)

end Call

/-- What a process does that makes the calls one after the other; an exception ends it.  (Nothing catches it in
file_io_base.cc or file_io_netcdf.cc.)  file_io_netcdf.cc 314-393. -/
def program : List Call → List (Act Cell Addr)
  | [] => []
  | x :: xs => if x.prog.2 then x.prog.1 ++ program xs else x.prog.1

/-! ### The same calls, one process after the other -/

/-- The file and the memories of the processes.  file_io_netcdf.hh 1201-1690, `get_buf` file_io_netcdf.cc 2097-2099. -/
structure State (n : Nat) (α : Type) where
  file : String → FileVar α
  mem : Fin n → Nat → Mem α

/-- A call on one process as in `NetCDF.lean` and `NetCDFState.lean`; `numrecs` is the number of records of the file at the
time of the call.  file_io_netcdf.cc 2528-2691. -/
def Call.serve {n : Nat} {α : Type} (x : Call) (i : Fin n) (numrecs : Int) (s : State n α) : Res (State n α) :=
  if x.isWrite then do
    let fv ← x.part.write x.nb x.frame x.k x.marks (s.mem i x.buf) (s.file x.name)
    pure { s with file := fun m => if m = x.name then fv else s.file m }
  else do
    let b ← x.part.read x.nb x.frame x.k x.marks numrecs (s.file x.name) (s.mem i x.buf)
    pure { s with mem := fun j c => if j = i ∧ c = x.buf then b else s.mem j c }

/-- A call that all processes make, served in the order of the list.  file_io_netcdf.cc 2528-2691. -/
def serveRanks {n : Nat} {α : Type} (x : Fin n → Call) (numrecs : Int) : List (Fin n) → State n α → Res (State n α)
  | [], s => .ok s
  | i :: is, s => do
      let s' ← (x i).serve i numrecs s
      serveRanks x numrecs is s'

/-- The calls one after the other, each with the number of records at its time; in each call the processes are served in the
order of their ranks.  file_io_netcdf.cc 314-393. -/
def serveAll {n : Nat} {α : Type} : List ((Fin n → Call) × Int) → State n α → Res (State n α)
  | [], s => .ok s
  | (x, r) :: xs, s => do
      let s' ← serveRanks x r (List.finRange n) s
      serveAll xs s'

/-- The file and the processes before the first of the calls.  file_io_netcdf.cc 314-393. -/
def start {n : Nat} {α : Type} (s : State n α) (xs : List (Fin n → Call)) : Config n Cell Addr α :=
  ⟨fun c => (s.file c.1).data c.2, fun i => ⟨program (xs.map fun x => x i), fun a => s.mem i a.1 a.2⟩⟩

end Verif.Concurrent
