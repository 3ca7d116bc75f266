import Verif.Model.FrameObjects
import Verif.Model.ParallelSession
/-
Programs that use a file through its frame objects in the parallel build.
-/
namespace Verif.NetCDF
open Verif Verif.FileIO

section
variable {α : Type}

/-- The loop `for (auto && frame : file)` on all processes, file_io_base.hh 509-549; see `forFrames`.  The iterators have the same
index on all processes. -/
def forFramesPar (body : Int → ParWorld α → Joint Unit × ParWorld α) (stop : Int) : Nat → Int → ParWorld α → Joint Unit × ParWorld α
  | n, i, p =>
    if i = stop then (.ok (), p)
    else
      match n with
      | 0 => (.ub, p)
      | n + 1 =>
        match frameAt p.sess.nbFrames i with
        | .ok fr => Joint.next (body fr p) (forFramesPar body stop n (i + 1))
        | .throw e => (.throw e, p)
        | .ub => (.ub, p)

/-- What a program does on all processes; see `World.exec`.  After `apart` some processes wait for ever.  `operator[]`,
`append_frame`, `begin`, `end` and the functions of `FileFrame`, file_io_base.cc 45-113. -/
def ParWorld.exec (conv : Conv α) (convI : Conv Int) : FrameProg (Memory α) → List Int → ParWorld α → Joint Unit × ParWorld α
  | .done, _, p => (.ok (), p)
  | .take i q, env, p =>
      match frameAt p.sess.nbFrames i with
      | .ok fr => ParWorld.exec conv convI q (fr :: env) p
      | .throw e => (.throw e, p)
      | .ub => (.ub, p)
  | .append q, env, p =>
      ParWorld.exec conv convI q ((appendFrame p.sess.nbFrames).1 :: env) (p.step conv convI .appendFrame).2
  | .use h u q, env, p =>
      match env[h]? with
      | some fr => Joint.next (p.step conv convI (u.op fr)) (ParWorld.exec conv convI q env)
      | none => (.ub, p)
  | .compute mem q, env, p => Joint.next (p.step conv convI (.compute mem)) (ParWorld.exec conv convI q env)
  | .forEach body q, env, p =>
      Joint.next (forFramesPar (fun fr => ParWorld.exec conv convI body (fr :: env)) (size p.sess.nbFrames)
        (size p.sess.nbFrames).toNat 0 p) (ParWorld.exec conv convI q env)
  | .attempt body q, env, p =>
      let r := ParWorld.exec conv convI body env p
      match r.1 with
      | .ub => (.ub, r.2)
      | .apart => (.apart, r.2)
      | _ => ParWorld.exec conv convI q env r.2

/-- A program that creates a file, see `createFilePar` and `createFrames`.  file_io_netcdf.cc 47-62, 182-218. -/
def createFramesPar (conv : Conv α) (convI : Conv Int) (mode : OpenMode) (colls : List (List IoColl))
    (garbage : String → List Int → α) (garbageInt : String → List Int → Int) (mem : Memory α) (p : FrameProg (Memory α)) :
    Joint Unit × Disk α × ParWorld α :=
  let regs := registerRanks mode [] [] 0 colls
  let s := joinSess mode (regs.map Prod.snd)
  let w := ParWorld.exec conv convI p [] ⟨⟨s, NcFile.created s.vars s.hidden garbage garbageInt, mem⟩, false⟩
  let h := headerOf (regs.map Prod.snd)
  (w.1, ⟨h.1, h.2, w.2.file⟩, w.2)

/-- A program that opens an existing file, see `useFilePar` and `useFrames`.  file_io_netcdf.cc 47-62, 220-262. -/
def useFramesPar (conv : Conv α) (convI : Conv Int) (mode : OpenMode) (colls : List (List IoColl)) (d : Disk α) (mem : Memory α)
    (p : FrameProg (Memory α)) : Joint Unit × Disk α × ParWorld α :=
  let regs := registerRanks mode d.dims d.vars d.data.numrecs colls
  let s := joinSess mode (regs.map Prod.snd)
  let w := ParWorld.exec conv convI p [] ⟨⟨s, d.data, mem⟩, false⟩
  let h := headerOf (regs.map Prod.snd)
  (w.1, ⟨h.1, h.2, w.2.file⟩, w.2)

end
end Verif.NetCDF
