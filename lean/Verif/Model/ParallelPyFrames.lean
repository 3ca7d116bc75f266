import Verif.Model.PyFrames
import Verif.Model.CollectiveSession
import Verif.Model.ParallelFrames
/-
Python programs with frame objects and iterators in the parallel build.
-/
namespace Verif.NetCDF
open Verif Verif.FileIO

section
variable {α : Type}

/-- Python programs on all processes that run the same code: the file and the fields, the frame objects and the iterators, which
have the same numbers on all processes; see `PyFrames`.  bind_py_file_io.cc 134-162. -/
structure ParPyFrames (α : Type) where
  world : ParWorld α
  frames : List Int
  iters : List PyIter

/-- A step that is not collective has the same outcome on all processes.  Model only.  For bind_py_file_io.cc 134-162. -/
def onEach {β : Type} : Res β → Joint β
  | .ok x => .ok x
  | .throw e => .throw e
  | .ub => .ub

/-- One step on all processes, see `PyFrames.step`.  Only `read` and `write` of a frame object reach the file library; the other steps
use members of the file object that are the same in both builds, file_io_base.cc 45-113, bind_py_file_io.cc 134-162. -/
def ParPyFrames.step (conv : Conv α) (convI : Conv Int) (s : ParPyFrames α) :
    PyFrameStep (Memory α) → Joint (PyFrameOut Int) × ParPyFrames α
  | .use h u =>
      match s.frames[h]? with
      | none => (.ub, s)
      | some fr =>
          let r := s.world.step conv convI (u.op fr)
          (match r.1 with
            | .ok _ => .ok .done
            | .throw e => .throw e
            | .ub => .ub
            | .apart => .apart, { s with world := r.2 })
  | x =>
      let r := PyFrames.step ⟨s.world.toWorld, s.frames, s.iters⟩ x
      (onEach r.1, ⟨⟨r.2.world, s.world.indep⟩, r.2.frames, r.2.iters⟩)

/-- A sequence of steps of a program that goes on after exceptions.  When the processes have come apart, some wait for ever and the
program goes no further.  Programs are not part of /repo.  For bind_py_file_io.cc 134-162. -/
def ParPyFrames.run (conv : Conv α) (convI : Conv Int) :
    ParPyFrames α → List (PyFrameStep (Memory α)) → List (Joint (PyFrameOut Int)) × ParPyFrames α
  | s, [] => ([], s)
  | s, x :: xs =>
      let r := s.step conv convI x
      match r.1 with
      | .apart => ([.apart], r.2)
      | _ =>
          let r' := ParPyFrames.run conv convI r.2 xs
          (r.1 :: r'.1, r'.2)

/-- The collective calls of process `i` in a step, see `ParWorld.stepTrace`.  bind_py_file_io.cc 134-162. -/
def ParPyFrames.stepTrace (conv : Conv α) (convI : Conv Int) (i : Nat) (s : ParPyFrames α) : PyFrameStep (Memory α) → List CollCall
  | .use h u =>
      match s.frames[h]? with
      | none => []
      | some fr => s.world.stepTrace conv convI i (u.op fr)
  | _ => []

/-- The collective calls of process `i` in a sequence of steps; nothing is said about what processes do that have come apart.
Programs are not part of /repo.  For bind_py_file_io.cc 134-162. -/
def ParPyFrames.runTrace (conv : Conv α) (convI : Conv Int) (i : Nat) : ParPyFrames α → List (PyFrameStep (Memory α)) → List CollCall
  | _, [] => []
  | s, x :: xs =>
      s.stepTrace conv convI i x ++
        match s.step conv convI x with
        | (.apart, _) => []
        | (_, s') => ParPyFrames.runTrace conv convI i s' xs

/-- A program that creates a file, see `createPyFrames` and `createFramesPar`.  file_io_netcdf.cc 47-62, 182-218. -/
def createPyFramesPar (conv : Conv α) (convI : Conv Int) (mode : OpenMode) (colls : List (List IoColl))
    (garbage : String → List Int → α) (garbageInt : String → List Int → Int) (mem : Memory α) (xs : List (PyFrameStep (Memory α))) :
    List (Joint (PyFrameOut Int)) × Disk α × ParWorld α :=
  let regs := registerRanks mode [] [] 0 colls
  let s := joinSess mode (regs.map Prod.snd)
  let w := ParPyFrames.run conv convI ⟨⟨⟨s, NcFile.created s.vars s.hidden garbage garbageInt, mem⟩, false⟩, [], []⟩ xs
  let h := headerOf (regs.map Prod.snd)
  (w.1, ⟨h.1, h.2, w.2.world.file⟩, w.2.world)

/-- A program that opens an existing file, see `usePyFrames` and `useFramesPar`.  file_io_netcdf.cc 47-62, 220-262. -/
def usePyFramesPar (conv : Conv α) (convI : Conv Int) (mode : OpenMode) (colls : List (List IoColl)) (d : Disk α) (mem : Memory α)
    (xs : List (PyFrameStep (Memory α))) : List (Joint (PyFrameOut Int)) × Disk α × ParWorld α :=
  let regs := registerRanks mode d.dims d.vars d.data.numrecs colls
  let s := joinSess mode (regs.map Prod.snd)
  let w := ParPyFrames.run conv convI ⟨⟨⟨s, d.data, mem⟩, false⟩, [], []⟩ xs
  let h := headerOf (regs.map Prod.snd)
  (w.1, ⟨h.1, h.2, w.2.world.file⟩, w.2.world)

/-- The calls of process `i` in a program that creates a file, between opening and closing it, see `createFramesTrace`.
file_io_netcdf.cc 47-62, 182-218. -/
def createPyTrace (conv : Conv α) (convI : Conv Int) (mode : OpenMode) (colls : List (List IoColl))
    (garbage : String → List Int → α) (garbageInt : String → List Int → Int) (mem : Memory α) (xs : List (PyFrameStep (Memory α)))
    (i : Nat) : List CollCall :=
  let s := joinSess mode ((registerRanks mode [] [] 0 colls).map Prod.snd)
  Reg.runCalls true (Reg.opened mode [] [] 0) (registrations ((colls[i]?).getD [])) ++
    ParPyFrames.runTrace conv convI i ⟨⟨⟨s, NcFile.created s.vars s.hidden garbage garbageInt, mem⟩, false⟩, [], []⟩ xs

/-- The calls of process `i` in a program that opens a file, between opening and closing it, see `useFramesTrace`.
file_io_netcdf.cc 47-62, 220-262. -/
def usePyTrace (conv : Conv α) (convI : Conv Int) (mode : OpenMode) (colls : List (List IoColl)) (d : Disk α)
    (mem : Memory α) (xs : List (PyFrameStep (Memory α))) (i : Nat) : List CollCall :=
  let s := joinSess mode ((registerRanks mode d.dims d.vars d.data.numrecs colls).map Prod.snd)
  Reg.runCalls true (Reg.opened mode d.dims d.vars d.data.numrecs) (registrations ((colls[i]?).getD [])) ++
    ParPyFrames.runTrace conv convI i ⟨⟨⟨s, d.data, mem⟩, false⟩, [], []⟩ xs

end
end Verif.NetCDF
