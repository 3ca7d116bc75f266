import Verif.Model.FrameObjects
/-
Frames and iterators of a file as python objects.
-/
namespace Verif.NetCDF
open Verif Verif.FileIO

/-- An iterator of python over the frames of a file.  `forward i stop fresh` is the object that `py::make_iterator` makes in `__iter__`,
bind_py_file_io.cc 136-139: the indices of the two C++ iterators (file_io_base.hh 447-559) and the flag `first_or_done` of pybind11's
`iterator_state`.  `backward i` is what `reversed(file)` makes from `__len__` and `__getitem__` (bind_py_file_io.cc 134-135): the next
index, negative when there is none.  pybind11 and CPython are trusted here. -/
inductive PyIter
  | forward (i stop : Int) (fresh : Bool)
  | backward (i : Int)

/-- `next(it)` for a file with `nb` frames: the number held by the frame object, or `none` for `StopIteration`.  Forward:
pybind11 increments the iterator unless it is `first_or_done`, compares it with the end and dereferences it, which calls `operator[]`
(file_io_base.hh 509-549).  Backward: CPython calls `__getitem__` with the index and counts down; after an exception the iterator
is at its end. -/
def PyIter.next (nb : Int) : PyIter → Res (Option Int) × PyIter
  | .forward i stop fresh =>
      let i := if fresh then i else i + 1
      if i = stop then (.ok none, .forward i stop true)
      else
        match frameAt nb i with
        | .ok fr => (.ok (some fr), .forward i stop false)
        | .throw e => (.throw e, .forward i stop false)
        | .ub => (.ub, .forward i stop false)
  | .backward i =>
      if i < 0 then (.ok none, .backward i)
      else
        match frameAt nb i with
        | .ok fr => (.ok (some fr), .backward (i - 1))
        | .throw e => (.throw e, .backward (-1))
        | .ub => (.ub, .backward (-1))

/-- A step of a program.  The frame objects and iterators that a program has made are numbered in the order in which it has made
them.  Programs are not part of /repo.  For bind_py_file_io.cc 134-162. -/
inductive PyFrameStep (C : Type)
  | len
  | getitem (i : Int)
  | append
  | use (h : Nat) (u : FrameUse)
  | compute (c : C)
  | iter
  | reversed
  | next (k : Nat)

/-- What a step gives: nothing, a number, a frame object (with the number it holds), or `StopIteration`.
Model only.  For bind_py_file_io.cc 134-162. -/
inductive PyFrameOut (F : Type)
  | done
  | number (n : Int)
  | frame (f : F)
  | stop
deriving DecidableEq, Repr

/-- A program with a file: the file and the fields, the frame objects and the iterators.  bind_py_file_io.cc 134-162. -/
structure PyFrames (α : Type) where
  world : World α
  frames : List Int
  iters : List PyIter

section
variable {α : Type}

/-- A program makes a frame object if there was no exception.  Model only.  For bind_py_file_io.cc 134-141. -/
def PyFrames.bound (s : PyFrames α) : Res (Option Int) → Res (PyFrameOut Int) × PyFrames α
  | .ok (some fr) => (.ok (.frame fr), { s with frames := s.frames ++ [fr] })
  | .ok none => (.ok .stop, s)
  | .throw e => (.throw e, s)
  | .ub => (.ub, s)

/-- One step.  `__len__`, `__getitem__`, `__iter__`, `append_frame`, and `read` and `write` of a frame object, bind_py_file_io.cc
134-162.  An object that the program has not made is the outcome `ub`. -/
def PyFrames.step (s : PyFrames α) : PyFrameStep (Memory α) → Res (PyFrameOut Int) × PyFrames α
  | .len => (.ok (.number (size s.world.sess.nbFrames)), s)
  | .getitem i =>
      match frameAt s.world.sess.nbFrames i with
      | .ok fr => s.bound (.ok (some fr))
      | .throw e => s.bound (.throw e)
      | .ub => s.bound .ub
  | .append =>
      PyFrames.bound { s with world := (s.world.step .appendFrame).2 } (.ok (some (appendFrame s.world.sess.nbFrames).1))
  | .use h u =>
      match s.frames[h]? with
      | none => (.ub, s)
      | some fr =>
          let r := s.world.step (u.op fr)
          (match r.1 with
            | .ok _ => .ok .done
            | .throw e => .throw e
            | .ub => .ub, { s with world := r.2 })
  | .compute mem => (.ok .done, { s with world := (s.world.step (.compute mem)).2 })
  | .iter => (.ok .done, { s with iters := s.iters ++ [.forward 0 (size s.world.sess.nbFrames) true] })
  | .reversed => (.ok .done, { s with iters := s.iters ++ [.backward (size s.world.sess.nbFrames - 1)] })
  | .next k =>
      match s.iters[k]? with
      | none => (.ub, s)
      | some it =>
          let r := it.next s.world.sess.nbFrames
          PyFrames.bound { s with iters := s.iters.set k r.2 } r.1

/-- A sequence of steps of a program that goes on after exceptions, and what they give.  Programs are not part of /repo.
For bind_py_file_io.cc 134-162. -/
def PyFrames.run : PyFrames α → List (PyFrameStep (Memory α)) → List (Res (PyFrameOut Int)) × PyFrames α
  | s, [] => ([], s)
  | s, x :: xs =>
      let r := s.step x
      let r' := PyFrames.run r.2 xs
      (r.1 :: r'.1, r'.2)

/-- A program that creates a file, see `createFrames`.  file_io_netcdf.cc 47-62, 182-218. -/
def createPyFrames (mode : OpenMode) (colls : List (List IoColl)) (garbage : String → List Int → α)
    (garbageInt : String → List Int → Int) (mem : Memory α) (xs : List (PyFrameStep (Memory α))) :
    List (Res (PyFrameOut Int)) × Disk α × World α :=
  let regs := registerRanks mode [] [] 0 colls
  let s := joinSess mode (regs.map Prod.snd)
  let w := PyFrames.run ⟨⟨s, NcFile.created s.vars s.hidden garbage garbageInt, mem⟩, [], []⟩ xs
  let h := headerOf (regs.map Prod.snd)
  (w.1, ⟨h.1, h.2, w.2.world.file⟩, w.2.world)

/-- A program that opens an existing file, see `useFrames`.  file_io_netcdf.cc 47-62, 220-262. -/
def usePyFrames (mode : OpenMode) (colls : List (List IoColl)) (d : Disk α) (mem : Memory α) (xs : List (PyFrameStep (Memory α))) :
    List (Res (PyFrameOut Int)) × Disk α × World α :=
  let regs := registerRanks mode d.dims d.vars d.data.numrecs colls
  let s := joinSess mode (regs.map Prod.snd)
  let w := PyFrames.run ⟨⟨s, d.data, mem⟩, [], []⟩ xs
  let h := headerOf (regs.map Prod.snd)
  (w.1, ⟨h.1, h.2, w.2.world.file⟩, w.2.world)

end
end Verif.NetCDF
