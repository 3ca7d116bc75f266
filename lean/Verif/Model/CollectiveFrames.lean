import Verif.Model.CollectiveSession
import Verif.Model.ParallelFrames
/-
The collective calls that a process makes while a program uses a file through its frame objects in the parallel build.
-/
namespace Verif.NetCDF
open Verif Verif.FileIO

section
variable {α : Type}

/-- The calls of a process in the loop `for (auto && frame : file)`, see `forFramesPar`: `body` is what all processes do, and `calls`
has the calls of the process in it.  `!=`, `*` and `++` of the iterator are not collective, file_io_base.hh 509-549. -/
def forFramesTrace (body : Int → ParWorld α → Joint Unit × ParWorld α) (calls : Int → ParWorld α → List CollCall) (stop : Int) :
    Nat → Int → ParWorld α → List CollCall
  | n, i, p =>
    if i = stop then []
    else
      match n with
      | 0 => []
      | n + 1 =>
        match frameAt p.sess.nbFrames i with
        | .ok fr => Joint.nextTrace (calls fr p) (body fr p) (forFramesTrace body calls stop n (i + 1))
        | _ => []

/-- The calls of process `i` in a program, see `ParWorld.exec`.  `operator[]`, `append_frame`, `begin` and `end` are not collective;
the functions of `FileFrame` are those of the file, file_io_base.cc 45-113. -/
def ParWorld.execTrace (conv : Conv α) (convI : Conv Int) (i : Nat) :
    FrameProg (Memory α) → List Int → ParWorld α → List CollCall
  | .done, _, _ => []
  | .take k q, env, p =>
      match frameAt p.sess.nbFrames k with
      | .ok fr => ParWorld.execTrace conv convI i q (fr :: env) p
      | _ => []
  | .append q, env, p =>
      p.stepTrace conv convI i .appendFrame ++
        ParWorld.execTrace conv convI i q ((appendFrame p.sess.nbFrames).1 :: env) (p.step conv convI .appendFrame).2
  | .use h u q, env, p =>
      match env[h]? with
      | some fr => Joint.nextTrace (p.stepTrace conv convI i (u.op fr)) (p.step conv convI (u.op fr))
          (ParWorld.execTrace conv convI i q env)
      | none => []
  | .compute mem q, env, p =>
      Joint.nextTrace (p.stepTrace conv convI i (.compute mem)) (p.step conv convI (.compute mem))
        (ParWorld.execTrace conv convI i q env)
  | .forEach body q, env, p =>
      Joint.nextTrace
        (forFramesTrace (fun fr => ParWorld.exec conv convI body (fr :: env))
          (fun fr => ParWorld.execTrace conv convI i body (fr :: env)) (size p.sess.nbFrames) (size p.sess.nbFrames).toNat 0 p)
        (forFramesPar (fun fr => ParWorld.exec conv convI body (fr :: env)) (size p.sess.nbFrames) (size p.sess.nbFrames).toNat 0 p)
        (ParWorld.execTrace conv convI i q env)
  | .attempt body q, env, p =>
      ParWorld.execTrace conv convI i body env p ++
        match ParWorld.exec conv convI body env p with
        | (.ub, _) => []
        | (.apart, _) => []
        | (_, p') => ParWorld.execTrace conv convI i q env p'

/-- The calls of process `i` in a program that creates a file, between opening and closing it, see `createTrace` and
`createFramesPar`.  file_io_netcdf.cc 47-62, 182-218. -/
def createFramesTrace (conv : Conv α) (convI : Conv Int) (mode : OpenMode) (colls : List (List IoColl))
    (garbage : String → List Int → α) (garbageInt : String → List Int → Int) (mem : Memory α) (q : FrameProg (Memory α))
    (i : Nat) : List CollCall :=
  let s := joinSess mode ((registerRanks mode [] [] 0 colls).map Prod.snd)
  Reg.runCalls true (Reg.opened mode [] [] 0) (registrations ((colls[i]?).getD [])) ++
    ParWorld.execTrace conv convI i q [] ⟨⟨s, NcFile.created s.vars s.hidden garbage garbageInt, mem⟩, false⟩

/-- The calls of process `i` in a program that opens a file, between opening and closing it, see `useTrace` and `useFramesPar`.
file_io_netcdf.cc 47-62, 220-262. -/
def useFramesTrace (conv : Conv α) (convI : Conv Int) (mode : OpenMode) (colls : List (List IoColl)) (d : Disk α)
    (mem : Memory α) (q : FrameProg (Memory α)) (i : Nat) : List CollCall :=
  let s := joinSess mode ((registerRanks mode d.dims d.vars d.data.numrecs colls).map Prod.snd)
  Reg.runCalls true (Reg.opened mode d.dims d.vars d.data.numrecs) (registrations ((colls[i]?).getD [])) ++
    ParWorld.execTrace conv convI i q [] ⟨⟨s, d.data, mem⟩, false⟩

end
end Verif.NetCDF
