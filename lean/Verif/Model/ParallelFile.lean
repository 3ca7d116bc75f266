import Verif.Model.NetCDF
/-
The parallel build (`WITH_MPI`) of `NetCDFVarBase::write` and `NetCDFVarBase::read`, file_io_netcdf.cc 2528-2691: the calls of
PnetCDF also get a number of elements and an MPI type, the buffer pointer advances in bytes, and transfers of local fields
switch the file to the independent data mode.  `NetCDF.lean` has the serial build.
-/
namespace Verif.NetCDF
open Verif Verif.Ccoord Verif.RawMemory Verif.FileIO
open Verif.NetCDFAtt (NcType)
open Verif.Collection (ElemType)

/-- The MPI types used by `nc_type_to_mpi_datatype`, file_io_netcdf.cc 2259-2297. -/
inductive MpiType
  | char | short | int | float | double | ushort | uint | longLong | ulongLong
  deriving DecidableEq, Repr

/-- `NetCDFVarBase::nc_type_to_mpi_datatype`, file_io_netcdf.cc 2259-2297. -/
def mpiTypeOf : NcType → Res MpiType
  | .char => .ok .char
  | .short => .ok .short
  | .int => .ok .int
  | .float => .ok .float
  | .double => .ok .double
  | .ushort => .ok .ushort
  | .uint => .ok .uint
  | .int64 => .ok .longLong
  | .uint64 => .ok .ulongLong
  | .other => .throw .fileIOError

/-- Which elements PnetCDF takes the memory for when it gets an MPI type (trusted, MPI standard), as the type of a variable
with such elements.  For the calls file_io_netcdf.cc 2541-2690. -/
def MpiType.elements : MpiType → NcType
  | .char => .char
  | .short => .short
  | .int => .int
  | .float => .float
  | .double => .double
  | .ushort => .ushort
  | .uint => .uint
  | .longLong => .int64
  | .ulongLong => .uint64

/-- The size in bytes of an element of a field: `Int`, `Uint`, `Index_t`, `Real` and `Complex`, grid_common.hh 81-88, on
platforms with 32 bit `int` and 64 bit `ptrdiff_t` (those for which file_io_netcdf.hh 134-205 chooses the types of
`ncTypeOf`). -/
def elemBytes : ElemType → Int
  | .int | .uint => 4
  | .index | .real => 8
  | .complex => 16

/-- The size of the C++ type that `increment_buf_ptr` casts the pointer to, file_io_netcdf.cc 2394-2427; other types throw. -/
def castBytes : NcType → Res Int
  | .char => .ok 1
  | .int | .uint => .ok 4
  | .int64 | .double => .ok 8
  | _ => .throw .fileIOError

/-- `NetCDFVarBase::increment_buf_ptr`, file_io_netcdf.cc 2394-2427, for a pointer given as its distance in bytes from the
start of the memory of the field. -/
def incrementBufPtr (ty : NcType) (ptr n : Int) : Res Int := do
  let s ← castBytes ty
  pure (ptr + s * n)

namespace Var

/-- `get_bufcount_mpi_global`, file_io_netcdf.cc 2100-2105. -/
def bufcountGlobal (v : Var) : Int := v.field.nbPixels * v.field.layout.nbSub * v.field.layout.nbComp

/-- `get_bufcount_mpi_local`, file_io_netcdf.cc 2107-2111. -/
def bufcountLocal (v : Var) : Int := v.field.layout.nbSub * v.field.layout.nbComp

end Var

/-- Conversion of an element between two types (trusted: PnetCDF).  Simplified: values that the other type cannot represent
(`NC_ERANGE`) are converted to some value.  For the calls file_io_netcdf.cc 2541-2690. -/
abbrev Conv (α : Type) := NcType → NcType → α → α

/-- The memory of a field of elements of type `ty` as seen from a pointer `ptr` bytes behind its start; between two elements
there is no element.  For the calls file_io_netcdf.cc 2541-2690. -/
def fromPtr {α : Type} (ty : ElemType) (ptr : Int) (buf : Mem α) : Mem α := fun a =>
  if ptr % elemBytes ty = 0 then buf (ptr / elemBytes ty + a) else none

/-- The memory of the field after the library has changed it through the pointer.  For file_io_netcdf.cc 2641-2690. -/
def behindPtr {α : Type} (ty : ElemType) (ptr : Int) (buf : Mem α) : Mem α := fun a => buf (a - ptr / elemBytes ty)

/-- `ncmpi_put_varm` (trusted) on memory with elements of type `ty`: as `putVarm`, and the number of elements must be that of
the request (`NC_EIOMISMATCH`); memory that holds other elements than announced is undefined behaviour.  Elements are
converted to the type of the variable.  Called at file_io_netcdf.cc 2541-2545, 2583-2585. -/
def putVarmMpi {α : Type} (conv : Conv α) (ty : ElemType) (fv : FileVar α) (start count stride imap : List Int) (buf : Mem α)
    (bufcount : Int) (t : MpiType) : Res (FileVar α) := do
  let _ ← checkArgs none fv.shape start count stride
  if getSize count ≠ bufcount then .throw .fileIOError
  else if ncTypeOf ty ≠ .ok t.elements then .ub
  else if imap.length < count.length then .ub
  else do
    let d ← putLoop start stride imap (fun a => (buf a).map (conv t.elements fv.ty)) (boxIndices count) fv.data
    pure { fv with data := d }

/-- `ncmpi_get_varm` (trusted), the inverse copy.  Called at file_io_netcdf.cc 2623-2627, 2668-2670. -/
def getVarmMpi {α : Type} (conv : Conv α) (ty : ElemType) (fv : FileVar α) (numrecs : Int)
    (start count stride imap : List Int) (buf : Mem α) (bufcount : Int) (t : MpiType) : Res (Mem α) := do
  let _ ← checkArgs (some numrecs) fv.shape start count stride
  if getSize count ≠ bufcount then .throw .fileIOError
  else if ncTypeOf ty ≠ .ok t.elements then .ub
  else if imap.length < count.length then .ub
  else getLoop start stride imap (fun y => conv fv.ty t.elements (fv.data y)) (boxIndices count) buf

namespace Var
variable {α : Type}

/-- The parallel build of `write` for a global field, file_io_netcdf.cc 2528-2556. -/
def writeGlobalMpi (conv : Conv α) (v : Var) (nb frame : Int) (k : Nat) (buf : Mem α) (fv : FileVar α) : Res (FileVar α) := do
  let f ← handleFrame frame nb
  let start ← v.startGlobal f k
  let count ← v.countGlobal
  let stride ← v.ncStride
  let imap ← v.imapGlobal
  let t ← mpiTypeOf v.dataType
  putVarmMpi conv v.field.ty fv start count stride imap buf v.bufcountGlobal t

/-- The parallel build of `read` for a global field, file_io_netcdf.cc 2610-2640. -/
def readGlobalMpi (conv : Conv α) (v : Var) (nb frame : Int) (k : Nat) (numrecs : Int) (fv : FileVar α) (buf : Mem α) :
    Res (Mem α) := do
  let f ← handleFrame frame nb
  let start ← v.startGlobal f k
  let count ← v.countGlobal
  let stride ← v.ncStride
  let imap ← v.imapGlobal
  let t ← mpiTypeOf v.dataType
  getVarmMpi conv v.field.ty fv numrecs start count stride imap buf v.bufcountGlobal t

/-- The loop over the requests for a local field, file_io_netcdf.cc 2577-2602: the pointer is moved by `increment_buf_ptr`. -/
def putRequestsMpi (conv : Conv α) (v : Var) (stride imap : List Int) (t : MpiType) (buf : Mem α) :
    List (List Int × List Int) → Int → FileVar α → Res (FileVar α)
  | [], _, fv => .ok fv
  | (start, count) :: rest, ptr, fv => do
      let fv' ← putVarmMpi conv v.field.ty fv start count stride imap (fromPtr v.field.ty ptr buf) v.bufcountLocal t
      let ptr' ← incrementBufPtr v.dataType ptr (getSize count)
      putRequestsMpi conv v stride imap t buf rest ptr' fv'

/-- The loop over the requests of `read` for a local field, file_io_netcdf.cc 2662-2687. -/
def getRequestsMpi (conv : Conv α) (v : Var) (stride imap : List Int) (t : MpiType) (fv : FileVar α) (numrecs : Int) :
    List (List Int × List Int) → Int → Mem α → Res (Mem α)
  | [], _, buf => .ok buf
  | (start, count) :: rest, ptr, buf => do
      let buf' ← getVarmMpi conv v.field.ty fv numrecs start count stride imap (fromPtr v.field.ty ptr buf) v.bufcountLocal t
      let ptr' ← incrementBufPtr v.dataType ptr (getSize count)
      getRequestsMpi conv v stride imap t fv numrecs rest ptr' (behindPtr v.field.ty ptr buf')

/-- What `write` computes for a local field before it switches to the independent mode: the requests, strides and type,
file_io_netcdf.cc 2531, 2562-2579. -/
def prepareLocal (v : Var) (nb frame : Int) (k : Nat) (marks : List Int) :
    Res (List (List Int × List Int) × List Int × List Int × MpiType) := do
  let f ← handleFrame frame nb
  let starts ← v.startLocal f k marks
  let counts ← v.countLocal marks
  let stride ← v.ncStride
  let imap ← v.imapLocal
  let t ← mpiTypeOf v.dataType
  pure (starts.zip counts, stride, imap, t)

end Var

/-! ### Transfers one after the other -/

/-- The file as one process sees it: the variables, the number of records, and in the parallel build whether PnetCDF is in
its independent data mode.  Library state behind `netcdf_id`, file_io_netcdf.hh 1201-1690. -/
structure ParFile (α : Type) where
  var : String → Option (FileVar α)
  numrecs : Int
  indep : Bool

/-- A transfer of one variable: `var.write` or `var.read`, file_io_netcdf.cc 333 and 383; `nb` is the number of frames, `k` the
number of the field of a state field, `marks` the entries of the local pixels. -/
structure Transfer where
  v : Var
  nb : Int
  frame : Int
  k : Nat
  marks : List Int
  read : Bool

/-- Change the variable of a transfer.  Model only.  For file_io_netcdf.cc 2528-2606. -/
def ParFile.put {α : Type} (s : ParFile α) (n : String) (fv : FileVar α) (fr : Int) : ParFile α :=
  { s with var := fun m => if m = n then some fv else s.var m, numrecs := max s.numrecs (fr + 1) }

section
variable {α : Type}

/-- The values moved by a transfer in the serial build: the file and the memory of the field afterwards,
file_io_netcdf.cc 2528-2691.  Simplified: requests before a failing one have no effect. -/
def Transfer.serial (x : Transfer) (s : ParFile α) (buf : Mem α) : Res (ParFile α × Mem α) :=
  match s.var x.v.name with
  | none => .throw .fileIOError
  | some fv => do
      let fr ← handleFrame x.frame x.nb
      match x.read, x.v.field.isGlobal with
      | false, true => do
          let fv' ← x.v.writeGlobal x.nb x.frame x.k buf fv
          pure (s.put x.v.name fv' fr, buf)
      | true, true => do
          let b ← x.v.readGlobal x.nb x.frame x.k s.numrecs fv buf
          pure (s, b)
      | false, false => do
          let fv' ← x.v.writeLocal x.nb x.frame x.k x.marks buf fv
          pure (s.put x.v.name fv' fr, buf)
      | true, false => do
          let b ← x.v.readLocal x.nb x.frame x.k x.marks s.numrecs fv buf
          pure (s, b)

/-- The requests of a local field in the parallel build, with `ncmu_begin_indep_data` before and `ncmu_end_indep_data` after
them, file_io_netcdf.cc 2573-2606, 2644-2691: an exception leaves the file in the independent mode.  (In a read the mode is
switched before the requests are computed, 2645; the frame is checked before, 2613.)  The return values of the two calls are
not looked at; `ncmpi_begin_indep_data` in the independent mode changes nothing. -/
def Transfer.localMpi (conv : Conv α) (x : Transfer) (fr : Int) (fv : FileVar α) (s : ParFile α) (buf : Mem α) :
    Res Unit × ParFile α × Mem α :=
  match x.v.prepareLocal x.nb x.frame x.k x.marks with
  | .throw e => (.throw e, { s with indep := s.indep || x.read }, buf)
  | .ub => (.ub, s, buf)
  | .ok (reqs, stride, imap, t) =>
      if x.read then
        match x.v.getRequestsMpi conv stride imap t fv s.numrecs reqs 0 buf with
        | .ok b => (.ok (), { s with indep := false }, b)
        | .throw e => (.throw e, { s with indep := true }, buf)
        | .ub => (.ub, s, buf)
      else
        match x.v.putRequestsMpi conv stride imap t buf reqs 0 fv with
        | .ok fv' => (.ok (), { s.put x.v.name fv' fr with indep := false }, buf)
        | .throw e => (.throw e, { s with indep := true }, buf)
        | .ub => (.ub, s, buf)

/-- A global field in the parallel build: the collective calls are refused in the independent mode (`NC_EINDEP`),
file_io_netcdf.cc 2534-2556, 2616-2640. -/
def Transfer.globalMpi (conv : Conv α) (x : Transfer) (fr : Int) (fv : FileVar α) (s : ParFile α) (buf : Mem α) :
    Res Unit × ParFile α × Mem α :=
  if s.indep then (.throw .fileIOError, s, buf)
  else if x.read then
    match x.v.readGlobalMpi conv x.nb x.frame x.k s.numrecs fv buf with
    | .ok b => (.ok (), s, b)
    | .throw e => (.throw e, s, buf)
    | .ub => (.ub, s, buf)
  else
    match x.v.writeGlobalMpi conv x.nb x.frame x.k buf fv with
    | .ok fv' => (.ok (), s.put x.v.name fv' fr, buf)
    | .throw e => (.throw e, s, buf)
    | .ub => (.ub, s, buf)

/-- A transfer in the parallel build, file_io_netcdf.cc 2528-2691.  The frame is checked first (2531, 2613). -/
def Transfer.parallel (conv : Conv α) (x : Transfer) (s : ParFile α) (buf : Mem α) : Res Unit × ParFile α × Mem α :=
  match s.var x.v.name with
  | none => (.throw .fileIOError, s, buf)
  | some fv =>
      match handleFrame x.frame x.nb with
      | .throw e => (.throw e, s, buf)
      | .ub => (.ub, s, buf)
      | .ok fr => if x.v.field.isGlobal then x.globalMpi conv fr fv s buf else x.localMpi conv fr fv s buf

/-- Transfers one after the other in the serial build, up to the first one that does not succeed.  The memory of the fields is
given by the name of the variable and the number of the field of a state field.  Programs are not part of /repo.
For file_io_netcdf.cc 2528-2691. -/
def runSerial : List Transfer → ParFile α → (String × Nat → Mem α) → Res (ParFile α × (String × Nat → Mem α))
  | [], s, mem => .ok (s, mem)
  | x :: xs, s, mem => do
      let r ← x.serial s (mem (x.v.name, x.k))
      runSerial xs r.1 (fun n => if n = (x.v.name, x.k) then r.2 else mem n)

/-- Transfers one after the other in the parallel build, in a program that catches exceptions: the outcomes and the state at
the end.  Programs are not part of /repo.  For file_io_netcdf.cc 2528-2691. -/
def runParallel (conv : Conv α) : List Transfer → ParFile α → (String × Nat → Mem α) →
    List (Res Unit) × ParFile α × (String × Nat → Mem α)
  | [], s, mem => ([], s, mem)
  | x :: xs, s, mem =>
      let r := x.parallel conv s (mem (x.v.name, x.k))
      let q := runParallel conv xs r.2.1 (fun n => if n = (x.v.name, x.k) then r.2.2 else mem n)
      (r.1 :: q.1, q.2)

end
end Verif.NetCDF
