import Verif.Model.Communicator
/-
Reductions and broadcasts of `Communicator`, `/repo/src/libmugrid/communicator.hh`, and their python overloads,
`/repo/language_bindings/python/bind_py_communicator.cc`.  A collective call is one function of what all ranks pass.
MPI functions are trusted primitives; if the ranks do not pass the same type and number of elements the program is
erroneous (`ub`, which here also covers ranks that wait forever for one that has thrown).
-/
namespace Verif.Reduce
open Verif Verif.Communicator

/-- The element types of the reductions used from python: `Int`, `Uint`, `Index_t`, `Real`, `Complex`,
grid_common.hh 81-87, with the MPI types of communicator.hh 53-110. -/
inductive Ty
  | i32
  | u32
  | i64
  | f64
  | c128
  deriving DecidableEq, Repr

/-- A value of one of these types; `ρ` are the values of `double`.  grid_common.hh 81-87. -/
inductive Sc (ρ : Type)
  | int (v : Int)
  | real (x : ρ)
  | cplx (x y : ρ)
  deriving DecidableEq, Repr

/-- Smallest and largest value of an integer type; LP64 machines.  grid_common.hh 81-84. -/
def Ty.lo : Ty → Int
  | .i32 => -2147483648
  | .i64 => -9223372036854775808
  | _ => 0

/-- See `Ty.lo`.  grid_common.hh 81-84. -/
def Ty.hi : Ty → Int
  | .i32 => 2147483647
  | .u32 => 4294967295
  | .i64 => 9223372036854775807
  | _ => 0

/-- Whether the value can be represented.  grid_common.hh 81-84. -/
def Ty.fits (t : Ty) (v : Int) : Prop := t.lo ≤ v ∧ v ≤ t.hi

instance (t : Ty) (v : Int) : Decidable (t.fits v) := inferInstanceAs (Decidable (_ ∧ _))

/-- Arithmetic modulo 2^32 or 2^64, as MPI implementations add integers.  grid_common.hh 81-84. -/
def Ty.wrap (t : Ty) (v : Int) : Int := (v - t.lo) % (t.hi - t.lo + 1) + t.lo

variable {ρ : Type}

/-- `MPI_SUM` on two elements, communicator.hh 167, 190, 203, 217, 234. -/
def add [Add ρ] (t : Ty) : Sc ρ → Sc ρ → Res (Sc ρ)
  | .int a, .int b => .ok (.int (t.wrap (a + b)))
  | .real a, .real b => .ok (.real (a + b))
  | .cplx a b, .cplx c d => .ok (.cplx (a + c) (b + d))
  | _, _ => .ub

/-- Reduction of the elements of all ranks, one operation after the other in the order of the ranks.
Model of `MPI_Allreduce`. For communicator.hh 162-345. -/
def reduce {α : Type} (op : α → α → Res α) : List α → Res α
  | [] => .ub
  | x :: xs => xs.foldlM op x

/-- What ranks pass to a collective call: type and value.  Type arguments at communicator.hh 167, 177, 234, 341. -/
abbrev Args (ρ : Type) := List (Ty × Sc ρ)

/-- The common type of all ranks; there is none if the program is erroneous.  Model of the MPI standard.
For communicator.hh 162-345. -/
def commonTy {β : Type} : List (Ty × β) → Option Ty
  | [] => none
  | (t, _) :: rest => if ∀ x ∈ rest, x.1 = t then some t else none

/-- `sum` of scalars, communicator.hh 162-169: result on every rank. -/
def sum [Add ρ] (args : Args ρ) : Res (List (Sc ρ)) := match commonTy args with
  | none => .ub
  | some t => do
      let r ← reduce (add t) (args.map (·.2))
      .ok (args.map fun _ => r)

/-- `max` of integers, communicator.hh 172-179 (not bound to python). -/
def maxInt (vs : List Int) : Res (List Int) := do
  let r ← reduce (fun a b => .ok (max a b)) vs
  .ok (vs.map fun _ => r)

/-- `logical_and`, communicator.hh 347-355. -/
def logicalAnd (vs : List Bool) : Res (List Bool) := do
  let r ← reduce (fun a b => .ok (a && b)) vs
  .ok (vs.map fun _ => r)

/-- `logical_or`, communicator.hh 358-366. -/
def logicalOr (vs : List Bool) : Res (List Bool) := do
  let r ← reduce (fun a b => .ok (a || b)) vs
  .ok (vs.map fun _ => r)

/-- `cumulative_sum`, communicator.hh 228-236: rank `r` gets the reduction of the ranks up to its own. -/
def scan [Add ρ] (args : Args ρ) : Res (List (Sc ρ)) := match commonTy args with
  | none => .ub
  | some t => (List.range args.length).mapM fun r => reduce (add t) ((args.map (·.2)).take (r + 1))

/-- `bcast`, communicator.hh 336-345.  A root that is no rank is an error of MPI, which ends the program. -/
def bcast (args : Args ρ) (root : Int) : Res (List (Sc ρ)) := match commonTy args with
  | none => .ub
  | some _ => if root < 0 then .ub else match args[root.toNat]? with
      | none => .ub
      | some x => .ok (args.map fun _ => x.2)

/-- Element-wise operation on buffers.  Model of `MPI_Allreduce`. For communicator.hh 162-345. -/
def zipM {α : Type} (op : α → α → Res α) : List α → List α → Res (List α)
  | [], [] => .ok []
  | x :: xs, y :: ys => do
      let z ← op x y
      let zs ← zipM op xs ys
      .ok (z :: zs)
  | _, _ => .ub

/-- `sum` of matrices, communicator.hh 210-220: `arg.size()` elements from `arg.data()` on are reduced, whatever the
outer stride of the reference; the result has the shape of the rank's own argument. -/
def sumMat [Add ρ] (args : List (Ty × MatRef (Sc ρ))) : Res (List (Mat (Sc ρ))) := match commonTy args with
  | none => .ub
  | some t => do
      let bufs ← args.mapM fun x => readBuf x.2.mem x.2.size
      let r ← reduce (zipM (add t)) bufs
      .ok (args.map fun x => ⟨x.2.rows, x.2.cols, r⟩)

/-- `sum` of a matrix without MPI or with `MPI_COMM_NULL`, communicator.hh 212-213, 395-398: the argument. -/
def sumMatSerial (arg : MatRef (Sc ρ)) : Res (Mat (Sc ρ)) := gatherSerial arg

/-! ### Python -/

/-- A number that a python program passes: `int` (also NumPy integers), `float` (also `np.float64`), `complex`, or
another number that is neither, like `np.float32`.  Arguments of bind_py_communicator.cc 70-160. -/
inductive PyNum (ρ : Type)
  | int (v : Int)
  | float (x : ρ)
  | complex (x y : ρ)
  | other (x : ρ)
  deriving DecidableEq, Repr

/-- Conversions between integers and `double`: `float(v)`, which fails for huge numbers, and `int(x)`, which
truncates (or fails).  Python's, used for the arguments of bind_py_communicator.cc 70-160. -/
structure Conv (ρ : Type) where
  zero : ρ
  ofInt : Int → Option ρ
  trunc : ρ → Option Int

/-- Conversion of an argument to an integer type.  Model of `type_caster<T>::load` of pybind11 2.11.1 for the
arguments of bind_py_communicator.cc 70-160: a `float` is refused; other numbers are truncated if conversions are
allowed. -/
def loadInt (cv : Conv ρ) (t : Ty) (convert : Bool) : PyNum ρ → Option (Sc ρ)
  | .int v => if t.fits v then some (.int v) else none
  | .float _ => none
  | .complex _ _ => none
  | .other x => if convert then match cv.trunc x with
      | some v => if t.fits v then some (.int v) else none
      | none => none
    else none

/-- Conversion of an argument to `double` or `std::complex<double>`.  Model of `type_caster<T>::load` of pybind11
2.11.1 for the arguments of bind_py_communicator.cc 70-160. -/
def loadReal (cv : Conv ρ) (convert : Bool) : PyNum ρ → Option ρ
  | .int v => if convert then cv.ofInt v else none
  | .float x => some x
  | .complex _ _ => none
  | .other x => if convert then some x else none

/-- Conversion of an argument to an overload's type; bind_py_communicator.cc 70-160. -/
def load (cv : Conv ρ) (convert : Bool) (x : PyNum ρ) : Ty → Option (Sc ρ)
  | .f64 => (loadReal cv convert x).map .real
  | .c128 => match x with
      | .complex a b => some (.cplx a b)
      | _ => if convert then (loadReal cv true x).map (fun a => .cplx a cv.zero) else none
  | t => loadInt cv t convert x

/-- The first overload that takes the argument; bind_py_communicator.cc 70-160 in the order of the definitions. -/
def firstOf (cv : Conv ρ) (convert : Bool) (x : PyNum ρ) : List Ty → Option (Ty × Sc ρ)
  | [] => none
  | t :: ts => match load cv convert x t with
      | some v => some (t, v)
      | none => firstOf cv convert x ts

/-- Choice of an overload: without conversions, then with.  Model of the dispatcher of pybind11 for
bind_py_communicator.cc 70-160. -/
def choose (cv : Conv ρ) (ts : List Ty) (x : PyNum ρ) : Option (Ty × Sc ρ) :=
  match firstOf cv false x ts with
  | some r => some r
  | none => firstOf cv true x ts

/-- Overloads of `sum` for scalars, bind_py_communicator.cc 70-73. -/
def sumTys : List Ty := [.i32, .f64]

/-- Overloads of `cumulative_sum`, bind_py_communicator.cc 99-103. -/
def scanTys : List Ty := [.i32, .f64, .u32, .i64, .c128]

/-- Overloads of `bcast`, bind_py_communicator.cc 129-160. -/
def bcastTys : List Ty := [.f64, .i32, .u32, .i64, .c128]

/-- The overloads that the ranks choose; a `TypeError` on all of them, or a rank that never comes.
bind_py_communicator.cc 70-160. -/
def chooseAll (cv : Conv ρ) (ts : List Ty) (xs : List (PyNum ρ)) : Res (Args ρ) :=
  if xs ≠ [] ∧ ∀ x ∈ xs, choose cv ts x = none then .throw .valueError
  else match xs.mapM (choose cv ts) with
    | some args => .ok args
    | none => .ub

/-- `comm.sum(x)` in python, bind_py_communicator.cc 70-73. -/
def pySum [Add ρ] (cv : Conv ρ) (xs : List (PyNum ρ)) : Res (List (Sc ρ)) := do
  let args ← chooseAll cv sumTys xs
  sum args

/-- `comm.cumulative_sum(x)` in python, bind_py_communicator.cc 99-103. -/
def pyScan [Add ρ] (cv : Conv ρ) (xs : List (PyNum ρ)) : Res (List (Sc ρ)) := do
  let args ← chooseAll cv scanTys xs
  scan args

/-- `comm.bcast(x, root)` in python, bind_py_communicator.cc 129-160. -/
def pyBcast (cv : Conv ρ) (xs : List (PyNum ρ)) (root : Int) : Res (List (Sc ρ)) := do
  let args ← chooseAll cv bcastTys xs
  bcast args root

/-! ### The factory -/

/-- What is passed to `muGrid.Communicator`: nothing, a communicator of muGrid with its size, an object with a
method `Get_size`, or something else.  Parallel.py 45-85. -/
inductive CommArg
  | nothing
  | own (handle size : Nat)
  | mpi4py (handle size : Nat)
  | else_
  deriving DecidableEq, Repr

/-- `Communicator(communicator)`, Parallel.py 45-85: handle and size of the communicator; `self` is the handle of
`MPI_COMM_SELF` (without MPI the stub, of size one). -/
def factory (hasMpi mpi4pyLoaded : Bool) (self : Nat) : CommArg → Res (Nat × Nat)
  | .nothing => .ok (self, 1)
  | .own h n => .ok (h, n)
  | .mpi4py h n =>
      if n = 1 then .ok (self, 1)
      else if hasMpi then if mpi4pyLoaded then .ok (h, n) else .throw .runtimeError
      else .throw .runtimeError
  | .else_ => .throw .runtimeError

end Verif.Reduce
