import Verif.Model.PySession
import Verif.Model.FileJoin
/-
A python program, on any number of processes, that works with the arrays of a global field collection and with a file:
the bindings of `PySession.lean`, and `/repo/language_bindings/python/bind_py_file_io.cc` 118-205.
-/
namespace Verif.PyFile
open Verif Verif.Ccoord Verif.Layout Verif.RawMemory Verif.Numpy Verif.Collection Verif.PyField Verif.PySession Verif.NetCDF

variable {α U : Type} [Inhabited α] [DecidableEq U]

/-- What the file code asks of a field of a global collection: `get_name`, `get_sub_division_tag`, strides and shapes
(field.hh 107-260, 330-350), `get_nb_domain_grid_pts` and `get_subdomain_locations` (field_collection_global.hh 140-170). -/
def ioField (c : Coll α U) (e : String × Field α U) : IoField :=
  ⟨e.1, e.2.tag, c.layout e.2, c.nbPixels, c.global, c.domainPts, c.pixels.loc, e.2.ty⟩

/-- What the file code asks of a global collection: its fields in the order of `list_fields` (field_collection.cc 441-447)
and its domain.  Collections without state fields. -/
def ioColl (c : Coll α U) : IoColl :=
  ⟨"", c.initialised, c.fields.map (ioField c), [], .global c.domainPts c.pixels.nb c.pixels.loc⟩

/-- The memory of the field of this name on one process: `data()`, field_typed.hh 274. -/
def memOf (c : Coll α U) (n : String) : ProcMem α :=
  match c.fields.find n with
  | some f => ⟨[], [Coll.Field.mem f]⟩
  | none => ⟨[], []⟩

/-- The memory of the fields of all processes.  Model only; for file_io_netcdf.cc 2528-2691. -/
def memory (cs : List (Coll α U)) : Memory α := fun n => cs.map fun c => memOf c n

/-- A field after the file code has written to its memory.  For file_io_netcdf.cc 2610-2691. -/
def received (f : Field α U) (m : Option (ProcMem α)) : Field α U :=
  match m with
  | some ⟨_, b :: _⟩ => Coll.Field.ofMem f b
  | _ => f

/-- A collection after the file code has written to the memory of the fields with the names `known`, the registered ones.
For file_io_netcdf.cc 2610-2691. -/
def receive (known : List String) (m : String → Option (ProcMem α)) (c : Coll α U) : Coll α U :=
  { c with fields := c.fields.map fun e => (e.1, if e.1 ∈ known then received e.2 (m e.1) else e.2) }

/-- The collections of all processes after that.  For file_io_netcdf.cc 2610-2691. -/
def takeBack (known : List String) (mem : Memory α) (cs : List (Coll α U)) : List (Coll α U) :=
  cs.mapIdx fun r c => receive known (fun n => (mem n)[r]?) c

/-- A statement of the program: a call of process `r` with its collection (`PyCall`), or a collective call with the file:
`append_frame` bind_py_file_io.cc 140, `read` and `write` 179-204, or through the frame `file[i]` 134, 147-161 (`C34`).
There are no other computations: `Empty`. -/
inductive PyOp (α U : Type)
  | py (r : Nat) (c : PyCall α U)
  | file (op : FileOp Empty)

/-- The same operation on a memory.  Model only, for bind_py_file_io.cc 140-204. -/
def lift {C : Type} : FileOp Empty → FileOp C
  | .appendFrame => .appendFrame
  | .write frame names => .write frame names
  | .writeAll frame => .writeAll frame
  | .read frame names => .read frame names
  | .readAll frame => .readAll frame
  | .compute c => c.elim

/-- The collections of the processes, the file object and the file.  Model only; objects of bind_py_field_collection.cc
64-513 and bind_py_file_io.cc 163-180. -/
structure PyWorld (α U : Type) where
  colls : List (Coll α U)
  sess : Sess
  file : NcFile α

/-- Outcome of a call that returns nothing.  Model only, for bind_py_file_io.cc 140-204. -/
def noResult : Res Unit → Res (Out α)
  | .ok _ => .ok .nothing
  | .throw e => .throw e
  | .ub => .ub

/-- One statement; see `PyOp`.  The file code works on the memory of the fields (`World.step`).
bind_py_field_collection.cc 64-440, bind_py_field.cc 69-131, bind_py_file_io.cc 134-204. -/
def PyWorld.step (srt : SortFn) (size : ElemType → Int) (w : PyWorld α U) : PyOp α U → Res (Out α) × PyWorld α U
  | .py r op =>
      match w.colls[r]? with
      | none => (.ok .nothing, w)
      | some c => let q := call srt size c op; (q.1, { w with colls := w.colls.set r q.2 })
  | .file op =>
      let q := World.step ⟨w.sess, w.file, memory w.colls⟩ (lift op)
      (noResult q.1, ⟨takeBack w.sess.names q.2.mem w.colls, q.2.sess, q.2.file⟩)

/-- A program that catches exceptions: the outcomes and the state at the end.  Programs are not part of /repo; for
bind_py_file_io.cc 134-204. -/
def PyWorld.run (srt : SortFn) (size : ElemType → Int) : PyWorld α U → List (PyOp α U) → List (Res (Out α)) × PyWorld α U
  | w, [] => ([], w)
  | w, op :: ops =>
      let q := w.step srt size op
      let s := q.2.run srt size ops
      (q.1 :: s.1, s.2)

/-- What a program does with a file: outcomes of the registration on each process, outcomes of the statements, the file
afterwards, the collections, and `len(file)` (bind_py_file_io.cc 135) before it is closed. -/
structure PyRun (α U : Type) where
  registered : List (List (Res Unit))
  results : List (Res (Out α))
  disk : Disk α
  colls : List (Coll α U)
  len : Int

/-- `FileIONetCDF(name, Write, comm)` and `register_field_collection(fc)` on each process, the statements, and `close()`:
bind_py_file_io.cc 168-178; `createFile`. -/
def createPy (srt : SortFn) (size : ElemType → Int) (mode : OpenMode) (cs : List (Coll α U))
    (garbage : String → List Int → α) (garbageInt : String → List Int → Int) (ops : List (PyOp α U)) : PyRun α U :=
  let regs := registerRanks mode [] [] 0 (cs.map fun c => [ioColl c])
  let s := joinSess mode (regs.map Prod.snd)
  let w := PyWorld.run srt size ⟨cs, s, NcFile.created s.vars s.hidden garbage garbageInt⟩ ops
  let h := headerOf (regs.map Prod.snd)
  ⟨regs.map Prod.fst, w.1, ⟨h.1, h.2, w.2.file⟩, w.2.colls, w.2.sess.nbFrames⟩

/-- `FileIONetCDF(name, Read, comm)` or `Append`, `register_field_collection(fc)` on each process, the statements, and
`close()`: bind_py_file_io.cc 168-178; `useFile`. -/
def usePy (srt : SortFn) (size : ElemType → Int) (mode : OpenMode) (cs : List (Coll α U)) (d : Disk α)
    (ops : List (PyOp α U)) : PyRun α U :=
  let regs := registerRanks mode d.dims d.vars d.data.numrecs (cs.map fun c => [ioColl c])
  let s := joinSess mode (regs.map Prod.snd)
  let w := PyWorld.run srt size ⟨cs, s, d.data⟩ ops
  let h := headerOf (regs.map Prod.snd)
  ⟨regs.map Prod.fst, w.1, ⟨h.1, h.2, w.2.file⟩, w.2.colls, w.2.sess.nbFrames⟩

/-- What a process does before there is a file: `GlobalFieldCollection(nb_domain_grid_pts, sub, loc, sub_pts, order)` and calls
with the collection.  Programs are not part of /repo; for bind_py_field_collection.cc 463-470. -/
structure PyProc (α U : Type) where
  sub : List Int
  loc : List Int
  subPts : SMap String Int
  order : StorageOrder
  setup : List (PyCall α U)

/-- The outcomes of the calls and the collection after them.  bind_py_field_collection.cc 64-440, 463-470. -/
def PyProc.make (srt : SortFn) (size : ElemType → Int) (dom : List Int) (p : PyProc α U) :
    Res (List (Res (Out α)) × Coll α U) :=
  match newGlobal srt dom p.sub p.loc p.subPts p.order with
  | .ok c => .ok (PySession.run srt size c p.setup)
  | .throw e => .throw e
  | .ub => .ub

end Verif.PyFile
