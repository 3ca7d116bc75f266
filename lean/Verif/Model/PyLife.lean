import Verif.Model.Basic
/-
Lifetimes of the python objects of muGrid, `/repo/language_bindings/python`.

Python destroys an object when no reference to it is left.  Objects refer to the names of the program's variables and
to the objects they keep (`keeps`): pybind11 adds such a reference for `py::keep_alive<0, 1>` and for
`return_value_policy::reference_internal` when a reference is returned.  It does not for functions that return a value
(the policy is then `move`), nor for `keep_alive` among the arguments of `def_property` (pybind11 2.11.1,
/repo/subprojects/pybind11.wrap 2, applies it to functions given to `def` only).  The C++ object behind a
wrapper that is not owned by python lives in the object that owns it, here always a collection (fields, state fields,
pixels); `needs` are the owners whose memory is used when the object is used.
-/
namespace Verif.PyLife
open Verif

/-- What a python object is; for wrappers of C++ objects that python does not own also which C++ object it shows
(an object is never wrapped twice at a time).  Classes: bind_py_field_collection.cc 64-513, bind_py_field.cc
69-172, bind_py_state_field.cc 62-92, bind_py_common_mugrid.cc 157-178, bind_py_file_io.cc 118-176. -/
inductive What
  | coll
  | field (c : Nat) (name : String)
  | state (c : Nat) (pre : String)
  /-- `f.array()` -/
  | array
  /-- `f.s`, `f.p` -/
  | window
  /-- `memoryview(f)`, `np.asarray(f)` -/
  | buffer
  /-- A view of a NumPy array made by NumPy. -/
  | slice (a : Nat)
  | map
  | pixels (c : Nat)
  | enumerator
  | pixIter
  | file
  | frame
  | frameIter
  deriving DecidableEq, Repr

/-- A python object: its class, the objects whose C++ memory its functions use, and the objects it keeps alive.
Model only, see the beginning of this file. For bind_py_field_collection.cc 64-513. -/
structure PyObj where
  what : What
  needs : List Nat
  keeps : List Nat
  deriving DecidableEq, Repr

/-- The objects made so far (numbered) and the references the program's variables hold.  Model only.
For bind_py_field_collection.cc 64-513. -/
structure Py where
  objs : List PyObj
  names : List Nat
  deriving DecidableEq, Repr

/-- Sweep from the newest object to the oldest: what is kept by an object that is alive is alive.  Objects keep
older ones only.  Model of python's reference counts. For bind_py_field_collection.cc 64-513. -/
def heldFrom (objs : List PyObj) : Nat → List Nat → List Nat
  | 0, acc => acc
  | k + 1, acc => heldFrom objs k (match objs[k]? with
      | some o => if k ∈ acc then o.keeps ++ acc else acc
      | none => acc)

namespace Py

/-- The objects that are not destroyed.  Model of python's reference counts.
For bind_py_field_collection.cc 64-513. -/
def held (s : Py) : List Nat := heldFrom s.objs s.objs.length s.names

/-- The owners that object `i` needs.  Model only. For bind_py_field_collection.cc 64-513. -/
def needsOf (s : Py) (i : Nat) : List Nat := match s.objs[i]? with
  | some o => o.needs
  | none => []

/-- Whose memory is used when object `i` is used: a frame calls `read` and `write` of its file
(file_io_base.cc 96-110), which use the registered collections. -/
def touch (s : Py) (i : Nat) : List Nat := match s.objs[i]? with
  | some o => if o.what = .frame then o.needs ++ o.needs.flatMap s.needsOf else o.needs
  | none => []

/-- An object the program has a reference to.  Model only: other objects cannot be named.
For bind_py_field_collection.cc 64-513. -/
def named (s : Py) (i : Nat) : Res PyObj := match s.objs[i]? with
  | some o => if i ∈ s.names then .ok o else .throw .keyError
  | none => .throw .keyError

/-- Use of object `i` of the program: undefined if memory it uses belongs to a destroyed object.  Model only.
For bind_py_field_collection.cc 64-513. -/
def use (s : Py) (i : Nat) : Res PyObj := do
  let o ← s.named i
  if ∀ n ∈ s.touch i, n ∈ s.held then .ok o else .ub

/-- A new object, assigned to a new variable.  Model only. For bind_py_field_collection.cc 64-513. -/
def give (s : Py) (o : PyObj) : Py := ⟨s.objs ++ [o], s.objs.length :: s.names⟩

/-- The python object for a C++ object that python does not own: the existing one, which is returned as it is, or a
new one.  Model of `type_caster_generic::cast` of pybind11 with `reference_internal`.
For bind_py_field_collection.cc 64-513. -/
def wrap (s : Py) (o : PyObj) : Py :=
  match s.held.find? (fun j => decide ((s.objs[j]?).map (·.what) = some o.what)) with
  | some j => { s with names := j :: s.names }
  | none => s.give o

/-- The collection is registered with the file: `register_field_collection` is bound without `keep_alive`,
bind_py_file_io.cc 184-189; the file refers to the fields, file_io_netcdf.hh (`NetCDFVarField`). -/
def addNeed (s : Py) (fi c : Nat) : Py := match s.objs[fi]? with
  | some o => { s with objs := s.objs.set fi { o with needs := c :: o.needs } }
  | none => s

end Py

/-- What a python program does with these objects.  Numbers are those of objects the program has references to.
For bind_py_field_collection.cc 64-513. -/
inductive Op
  /-- `GlobalFieldCollection(...)`, `LocalFieldCollection(...)` -/
  | collection
  /-- `c.real_field(name)`, `c.get_field(name)` and the like -/
  | field (c : Nat) (name : String)
  /-- `c.real_state_field(pre, ...)`, `c.get_state_field(pre)` and the like -/
  | stateField (c : Nat) (pre : String)
  /-- `st.current()`, `st.old(k)`; the field's name depends on the state -/
  | current (st : Nat) (name : String)
  /-- `f.clone(name, ...)` -/
  | clone (f : Nat) (name : String)
  /-- `f.collection` -/
  | collectionOf (f : Nat)
  /-- `f.array()` -/
  | array (f : Nat)
  /-- `f.s` or `f.p` -/
  | window (f : Nat)
  /-- `np.asarray(f)` -/
  | buffer (f : Nat)
  /-- `a[1:]` and the like -/
  | slice (a : Nat)
  /-- `f.get_pixel_map()`, `f.get_sub_pt_map()` -/
  | map (f : Nat)
  /-- `c.pixels` -/
  | pixels (c : Nat)
  /-- `p.enumerate()` -/
  | enumerate (p : Nat)
  /-- `iter(p)`, the beginning of a loop over pixels -/
  | iterPixels (p : Nat)
  /-- `FileIONetCDF(...)` -/
  | file
  /-- `fi.register_field_collection(c)` -/
  | register (fi c : Nat)
  /-- `fi[k]`, `fi.append_frame()` -/
  | frame (fi : Nat)
  /-- `iter(fi)` -/
  | iterFile (fi : Nat)
  /-- `next(it)` -/
  | nextFrame (it : Nat)
  /-- Any other call on an object: access to elements, `mean`, `read`, `write`, the next pixel, ... -/
  | use (i : Nat)
  /-- `b = a` -/
  | hold (i : Nat)
  /-- A reference goes away: `del a`, end of a function, assignment of something else. -/
  | drop (i : Nat)
  deriving DecidableEq, Repr

namespace Py

/-- One action of a program; a wrong argument is a `TypeError`.  Calls are taken to succeed otherwise (C++ exceptions
make no objects).
`collection`, `field`, `stateField`: bind_py_field_collection.cc 66-453, 463-513 (`reference_internal`).
`current`: bind_py_state_field.cc 66-91 (`reference_internal`).
`clone`: bind_py_field.cc 150-152 (`reference_internal`).  `collectionOf`: 80 (a property, the collection has its
python object).
`array`: 122-128 (`keep_alive<0, 1>`).  `window`: 129-134 (`keep_alive` in `def_property`, not applied).
`buffer`: 112-121 (python's buffers keep the exporting object).  `slice`: NumPy views keep the array.
`map`: 135-148 (`reference_internal` with a returned value: the map is moved, nothing is kept).
`pixels`: bind_py_field_collection.cc 491 (property).  `enumerate`, `iterPixels`: bind_py_common_mugrid.cc 158-172
(no `keep_alive`; the iterators refer to the pixels, ccoord_operations.hh 771).
`file`, `register`: bind_py_file_io.cc 178-189.  `frame`: 134, 140-141 (returned by value).
`iterFile`, `nextFrame`: 136-139. -/
def step (s : Py) : Op → Res Py
  | .collection => .ok (s.give ⟨.coll, [], []⟩)
  | .field c name => do
      let o ← s.use c
      if o.what = .coll then .ok (s.wrap ⟨.field c name, [c], [c]⟩) else .throw .valueError
  | .stateField c pre => do
      let o ← s.use c
      if o.what = .coll then .ok (s.wrap ⟨.state c pre, [c], [c]⟩) else .throw .valueError
  | .current st name => do
      let o ← s.use st
      match o.what with
      | .state c _ => .ok (s.wrap ⟨.field c name, [c], [st]⟩)
      | _ => .throw .valueError
  | .clone f name => do
      let o ← s.use f
      match o.what with
      | .field c _ => .ok (s.wrap ⟨.field c name, [c], [f]⟩)
      | _ => .throw .valueError
  | .collectionOf f => do
      let o ← s.use f
      match o.what with
      | .field c _ => .ok { s with names := c :: s.names }
      | _ => .throw .valueError
  | .array f => do
      let o ← s.use f
      match o.what with
      | .field c _ => .ok (s.give ⟨.array, [c], [f]⟩)
      | _ => .throw .valueError
  | .window f => do
      let o ← s.use f
      match o.what with
      | .field c _ => .ok (s.give ⟨.window, [c], []⟩)
      | _ => .throw .valueError
  | .buffer f => do
      let o ← s.use f
      match o.what with
      | .field c _ => .ok (s.give ⟨.buffer, [c], [f]⟩)
      | _ => .throw .valueError
  | .slice a => do
      let o ← s.use a
      match o.what with
      | .array | .window | .buffer | .slice _ => .ok (s.give ⟨.slice a, o.needs, [a]⟩)
      | _ => .throw .valueError
  | .map f => do
      let o ← s.use f
      match o.what with
      | .field c _ => .ok (s.give ⟨.map, [c], []⟩)
      | _ => .throw .valueError
  | .pixels c => do
      let o ← s.use c
      if o.what = .coll then .ok (s.wrap ⟨.pixels c, [c], [c]⟩) else .throw .valueError
  | .enumerate p => do
      let o ← s.use p
      match o.what with
      | .pixels c => .ok (s.give ⟨.enumerator, [c], []⟩)
      | _ => .throw .valueError
  | .iterPixels p => do
      let o ← s.use p
      match o.what with
      | .pixels _ | .enumerator => .ok (s.give ⟨.pixIter, o.needs, []⟩)
      | _ => .throw .valueError
  | .file => .ok (s.give ⟨.file, [], []⟩)
  | .register fi c => do
      let o ← s.named fi
      let p ← s.use c
      if o.what = .file ∧ p.what = .coll then .ok (s.addNeed fi c) else .throw .valueError
  | .frame fi => do
      let o ← s.named fi
      if o.what = .file then .ok (s.give ⟨.frame, [fi], []⟩) else .throw .valueError
  | .iterFile fi => do
      let o ← s.named fi
      if o.what = .file then .ok (s.give ⟨.frameIter, [fi], []⟩) else .throw .valueError
  | .nextFrame it => do
      let o ← s.use it
      if o.what = .frameIter then .ok (s.give ⟨.frame, o.needs, []⟩) else .throw .valueError
  | .use i => do
      let _ ← s.use i
      .ok s
  | .hold i => do
      let _ ← s.named i
      .ok { s with names := i :: s.names }
  | .drop i => do
      let _ ← s.named i
      .ok { s with names := s.names.erase i }

/-- A program; exceptions are caught and change nothing, undefined behaviour ends it (`none`).  Programs are not
part of /repo. For bind_py_field_collection.cc 64-513. -/
def run (s : Py) : List Op → Option Py
  | [] => some s
  | op :: ops => match s.step op with
      | .ok s' => s'.run ops
      | .throw _ => s.run ops
      | .ub => none

end Py

/-- The beginning of a program.  Model only. For bind_py_field_collection.cc 64-513. -/
def start : Py := ⟨[], []⟩

end Verif.PyLife
