import Verif.Model.FileJoin
/-
Programs that use a file through its frame objects (`FileFrame`), with loops over the frames and exceptions that are caught.
-/
namespace Verif.NetCDF
open Verif Verif.FileIO

/-- The functions of a `FileFrame`, file_io_base.hh 394-420. -/
inductive FrameUse
  | readAll
  | read (names : List String)
  | writeAll
  | write (names : List String)

/-- They hand the number of the frame to the functions of the file, file_io_base.cc 97-113. -/
def FrameUse.op {C : Type} (fr : Int) : FrameUse → FileOp C
  | .readAll => .readAll fr
  | .read names => .read fr names
  | .writeAll => .writeAll fr
  | .write names => .write fr names

/-- A program.  `take i p` is `auto frame = file[i]; p`, `append p` is `auto frame = file.append_frame(); p`, `use h u p` calls `u` of
the frame object that was defined last but `h` (the last one is number 0) and goes on with `p`, `compute c p` gives the fields other
values, `forEach body p` is `for (auto && frame : file) body` followed by `p`, and `attempt body p` goes on with `p` also after an
exception in `body`.  Programs are not part of /repo.  For file_io_base.cc 45-113. -/
inductive FrameProg (C : Type)
  | done
  | take (i : Int) (next : FrameProg C)
  | append (next : FrameProg C)
  | use (h : Nat) (u : FrameUse) (next : FrameProg C)
  | compute (c : C) (next : FrameProg C)
  | forEach (body next : FrameProg C)
  | attempt (body next : FrameProg C)

section
variable {α : Type}

/-- What follows if there was no exception.  Model only.  For file_io_base.cc 45-113. -/
def unlessThrown {W : Type} (r : Res Unit × W) (k : W → Res Unit × W) : Res Unit × W :=
  match r.1 with
  | .ok _ => k r.2
  | e => (e, r.2)

/-- The loop `for (auto && frame : file)` from the iterator with index `i` to the one with index `stop`, which is made before the loop:
`!=`, `*` and `++` of the iterator, file_io_base.hh 509-549.  Simplified: the first argument bounds the number of iterations; if the
index has not come to `stop` after that, the loop does not end (`ub`). -/
def forFrames (body : Int → World α → Res Unit × World α) (stop : Int) : Nat → Int → World α → Res Unit × World α
  | n, i, w =>
    if i = stop then (.ok (), w)
    else
      match n with
      | 0 => (.ub, w)
      | n + 1 =>
        match frameAt w.sess.nbFrames i with
        | .ok fr => unlessThrown (body fr w) (forFrames body stop n (i + 1))
        | .throw e => (.throw e, w)
        | .ub => (.ub, w)

/-- What a program does; `env` has the numbers held by its frame objects.  `operator[]`, `append_frame`, `begin`, `end` and the
functions of `FileFrame`, file_io_base.cc 45-113. -/
def World.exec : FrameProg (Memory α) → List Int → World α → Res Unit × World α
  | .done, _, w => (.ok (), w)
  | .take i p, env, w =>
      match frameAt w.sess.nbFrames i with
      | .ok fr => World.exec p (fr :: env) w
      | .throw e => (.throw e, w)
      | .ub => (.ub, w)
  | .append p, env, w => World.exec p ((appendFrame w.sess.nbFrames).1 :: env) (w.step .appendFrame).2
  | .use h u p, env, w =>
      match env[h]? with
      | some fr => unlessThrown (w.step (u.op fr)) (World.exec p env)
      | none => (.ub, w)
  | .compute mem p, env, w => unlessThrown (w.step (.compute mem)) (World.exec p env)
  | .forEach body p, env, w =>
      unlessThrown (forFrames (fun fr => World.exec body (fr :: env)) (size w.sess.nbFrames)
        (size w.sess.nbFrames).toNat 0 w) (World.exec p env)
  | .attempt body p, env, w =>
      let r := World.exec body env w
      match r.1 with
      | .ub => (.ub, r.2)
      | _ => World.exec p env r.2

/-- A program that creates a file, see `createFile`: its outcome, the file and the memory.  file_io_netcdf.cc 47-62, 182-218. -/
def createFrames (mode : OpenMode) (colls : List (List IoColl)) (garbage : String → List Int → α)
    (garbageInt : String → List Int → Int) (mem : Memory α) (p : FrameProg (Memory α)) : Res Unit × Disk α × World α :=
  let regs := registerRanks mode [] [] 0 colls
  let s := joinSess mode (regs.map Prod.snd)
  let w := World.exec p [] ⟨s, NcFile.created s.vars s.hidden garbage garbageInt, mem⟩
  let h := headerOf (regs.map Prod.snd)
  (w.1, ⟨h.1, h.2, w.2.file⟩, w.2)

/-- A program that opens an existing file, see `useFile`.  file_io_netcdf.cc 47-62, 220-262. -/
def useFrames (mode : OpenMode) (colls : List (List IoColl)) (d : Disk α) (mem : Memory α) (p : FrameProg (Memory α)) :
    Res Unit × Disk α × World α :=
  let regs := registerRanks mode d.dims d.vars d.data.numrecs colls
  let s := joinSess mode (regs.map Prod.snd)
  let w := World.exec p [] ⟨s, d.data, mem⟩
  let h := headerOf (regs.map Prod.snd)
  (w.1, ⟨h.1, h.2, w.2.file⟩, w.2)

end
end Verif.NetCDF
