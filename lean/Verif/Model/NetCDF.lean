import Verif.Model.FileIO
import Verif.Model.Layout
import Verif.Model.Collection
import Verif.Model.NetCDFAtt
/-
Model of `/repo/src/libmugrid/file_io_netcdf.cc`: names of dimensions, the dimensions of variables,
the arguments handed to the NetCDF library, writing and reading of variables.

The NetCDF (PnetCDF) library itself is trusted: `putVarm` and `getVarm` state what `nc_put_varm` and
`nc_get_varm` do.
-/
namespace Verif.NetCDF
open Verif Verif.Ccoord Verif.Layout Verif.RawMemory Verif.FileIO
open Verif.Collection (ElemType)
open Verif.NetCDFAtt (NcType)

/-! ### Names of dimensions -/

/-- `full_name.rfind("__")`, file_io_netcdf.cc 1344: position of the last occurrence. -/
def rfindSep : List Char → Option Nat
  | a :: b :: t =>
      match rfindSep (b :: t) with
      | some p => some (p + 1)
      | none => if a = '_' ∧ b = '_' then some 0 else none
  | _ => none

/-- `NetCDFDim::compute_base_name`, file_io_netcdf.cc 1340-1349. -/
def baseName (full : String) : String :=
  match rfindSep full.toList with
  | some p => String.ofList (full.toList.take p)
  | none => full

/-- `NetCDFDim::compute_dim_name`, file_io_netcdf.cc 1352-1361. -/
def dimName (base suffix : String) : String :=
  if suffix = "" then base else base ++ "__" ++ suffix

/-- `name.substr(name.find_last_of("-") + 1)`, file_io_netcdf.cc 1369-1370; without a dash
`npos + 1 = 0` gives the whole name. -/
def afterLastDash : List Char → List Char
  | [] => []
  | a :: t => if '-' ∈ t then afterLastDash t else if a = '-' then t else a :: t

/-- Value of decimal digits, for `std::stoi`.  Called at file_io_netcdf.cc 1370. -/
def digitsVal (l : List Char) : Nat := l.foldl (fun n c => 10 * n + (c.toNat - 48)) 0

/-- `std::stoi`, used in file_io_netcdf.cc 1370, on text without leading blanks and sign: the
leading digits; without digits it throws `std::invalid_argument` (here `valueError`), beyond `int`
`std::out_of_range`. -/
def stoi (l : List Char) : Res Nat :=
  let ds := l.takeWhile Char.isDigit
  if ds = [] then .throw .valueError
  else if 2147483647 < digitsVal ds then .throw .outOfRange
  else .ok (digitsVal ds)

/-- `NetCDFDim::compute_tensor_dim_index`, file_io_netcdf.cc 1364-1378, for a dimension with base name
`tensor_dim` (the callers, 2174 and 2214, only use it for those; the other branch builds an exception
without throwing it). -/
def tensorDimIndex (name : String) : Res Nat := stoi (afterLastDash name.toList)

/-- `NetCDFDim`, file_io_netcdf.cc 1310-1313: name and size; ids of the file are looked up by name.
`NC_UNLIMITED` is 0. -/
structure Dim where
  name : String
  size : Int
  deriving DecidableEq, Repr

/-! ### Fields and variables -/

/-- What the file code asks of a field and its collection: name, sub-division tag, layout (storage
order, components, sub-points; shape, strides and buffer size of the pixels of this process),
number of pixels, for a global collection the extents of the domain and the location of the
subdomain, and the type of the elements (`get_stored_typeid`).  `Field` as used by file_io_netcdf.hh 570-960. -/
structure IoField where
  name : String
  tag : String
  layout : FieldLayout
  nbPixels : Int
  isGlobal : Bool
  nbDomain : List Int
  loc : List Int
  ty : ElemType
  deriving DecidableEq, Repr

/-- `NetCDFVarBase::typeid_to_nc_type`, file_io_netcdf.cc 2229-2257, for the types a field can have; there is no type for
complex numbers. -/
def ncTypeOf : ElemType → Res NcType
  | .real => .ok .double
  | .int => .ok .int
  | .uint => .ok .uint
  | .index => .ok .int64
  | .complex => .throw .fileIOError

/-- The names of the tensor dimensions, file_io_netcdf.cc 1185-1193 and 1249-1257. -/
def tensorDims (fname : String) : Nat → List Int → List Dim
  | _, [] => []
  | k, n :: comps =>
      ⟨dimName "tensor_dim" (fname ++ "-" ++ toString k), n⟩ :: tensorDims fname (k + 1) comps

/-- The sub-point dimension, file_io_netcdf.cc 1195-1200 and 1259-1264. -/
def subPtDims (f : IoField) : List Dim :=
  if f.layout.nbSub ≠ 1 ∨ f.layout.nbComp ≠ 1 then
    [⟨dimName "subpt" (f.tag ++ "-" ++ toString f.layout.nbSub), f.layout.nbSub⟩]
  else []

/-- `grid_names`, file_io_netcdf.cc 1173. -/
def gridNames : List String := ["nx", "ny", "nz"]

/-- The loop over the grid directions of `add_field_dims_global`, file_io_netcdf.cc 1202-1223, with
`global_domain_grid` (one entry per direction, 0 as long as nothing was registered).  Returns the
dimensions and the updated entries.  `grid_names[i]` and `global_domain_grid[i]` are unchecked. -/
def gridDims : List String → List Int → List Int → Res (List Dim × List Int)
  | _, grid, [] => .ok ([], grid)
  | nm :: names, g :: grid, n :: nb =>
      if g ≠ 0 ∧ g ≠ n then .throw .fileIOError
      else do
        let r ← gridDims names grid nb
        pure (⟨dimName nm "", n⟩ :: r.1, n :: r.2)
  | _, _, _ :: _ => .ub

/-- The leading dimensions: `frame` (not for hidden variables) and for state fields the history,
file_io_netcdf.cc 491-496, 541-545, 609-614, 653-654. -/
def leadDims (hidden : Bool) : Option Nat → List Dim
  | none => if hidden then [] else [⟨"frame", 0⟩]
  | some nbMem =>
      [⟨"frame", 0⟩, ⟨"history_index__" ++ toString (nbMem + 1), (nbMem : Int) + 1⟩]

/-- The dimensions of a variable of a global field, file_io_netcdf.cc 488-501, 538-549 and
`add_field_dims_global` 1164-1224.  `vname` is the field name, or the prefix of the state field. -/
def globalDims (vname : String) (f : IoField) (hidden : Bool) (hist : Option Nat) (grid : List Int) :
    Res (List Dim × List Int) := do
  let g ← gridDims gridNames grid f.nbDomain
  pure (leadDims hidden hist ++ (tensorDims vname 0 f.layout.comps ++ (subPtDims f ++ g.1)), g.2)

/-- The dimensions of a variable of a local field, file_io_netcdf.cc 606-620, 650-659 and
`add_field_dims_local` 1227-1274; `total` is the number of pixels summed over the processes. -/
def localDims (vname : String) (f : IoField) (hist : Option Nat) (total : Int) : List Dim :=
  leadDims false hist ++ (tensorDims vname 0 f.layout.comps ++
    (subPtDims f ++ (if total ≠ 0 then [⟨dimName "pts" vname, total⟩] else [])))

/-- `NetCDFVarField` (`hist = none`) and `NetCDFVarStateField` (`hist = some nb_memory`),
file_io_netcdf.cc 2033-2041, 2695-2702, 2891-2899.  The field of a state field variable is any of
its fields: they agree in shape and layout. -/
structure Var where
  name : String
  field : IoField
  hist : Option Nat
  dims : List Dim
  hidden : Bool
  localName : String
  deriving DecidableEq, Repr

/-- The type of the variable that a process defines, `data_type`, file_io_netcdf.cc 3225 and 3241. -/
def Var.dataType (v : Var) : NcType :=
  match ncTypeOf v.field.ty with
  | .ok t => t
  | _ => .other

/-- Apply a function that may fail to each element, in order.  Model only. For file_io_netcdf.cc 2520-2690. -/
def mapRes {β γ : Type} (g : β → Res γ) : List β → Res (List γ)
  | [] => .ok []
  | x :: xs => do
      let y ← g x
      let ys ← mapRes g xs
      pure (y :: ys)

/-- The direction of a grid dimension, file_io_netcdf.cc 2139-2168. -/
def gridAxis (base : String) : Option Nat :=
  if base = "nx" then some 0 else if base = "ny" then some 1 else if base = "nz" then some 2 else none

namespace Var

/-- The loop body of `get_start_global` for fields and state fields, file_io_netcdf.cc 2727-2772,
2950-2999; `k` is `state_field_index`. -/
def startGlobal1 (v : Var) (frame : Int) (k : Nat) (d : Dim) : Res Int :=
  let base := baseName d.name
  if base = "frame" then .ok frame
  else if base = "history_index" ∧ v.hist.isSome then .ok k
  else match gridAxis base with
    | some a => if v.field.isGlobal then at! v.field.loc a else .throw .fileIOError
    | none =>
        if base = "subpt" then .ok 0
        else if base = "tensor_dim" then .ok 0
        else .throw .fileIOError

/-- `get_start_global`, file_io_netcdf.cc 2711-2776, 2933-3002. -/
def startGlobal (v : Var) (frame : Int) (k : Nat) : Res (List Int) :=
  if frame < 0 then .throw .fileIOError else mapRes (v.startGlobal1 frame k) v.dims

/-- The loop body of `get_count_global`, file_io_netcdf.cc 2129-2182.  The extents of the subdomain
are the shape of the pixels (field_collection_global.cc 172-175). -/
def countGlobal1 (v : Var) (d : Dim) : Res Int :=
  let base := baseName d.name
  if base = "frame" then .ok 1
  else if base = "history_index" then .ok 1
  else match gridAxis base with
    | some a => if v.field.isGlobal then at! v.field.layout.pixShape a else .throw .fileIOError
    | none =>
        if base = "subpt" then .ok v.field.layout.nbSub
        else if base = "tensor_dim" then do
          let i ← tensorDimIndex d.name
          at! v.field.layout.comps i
        else .throw .fileIOError

/-- `get_count_global`, file_io_netcdf.cc 2127-2185. -/
def countGlobal (v : Var) : Res (List Int) := mapRes v.countGlobal1 v.dims

/-- The loop body of `get_nc_stride`, file_io_netcdf.cc 2824-2853, 3064-3096. -/
def ncStride1 (v : Var) (d : Dim) : Res Int :=
  let base := baseName d.name
  if base = "frame" then .ok 1
  else if base = "history_index" ∧ v.hist.isSome then .ok ((v.hist.getD 0 : Nat) + 1)
  else if (gridAxis base).isSome then .ok 1
  else if base = "pts" then .ok 1
  else if base = "subpt" then .ok 1
  else if base = "tensor_dim" then .ok 1
  else .throw .fileIOError

/-- `get_nc_stride`, file_io_netcdf.cc 2821-2856, 3061-3100. -/
def ncStride (v : Var) : Res (List Int) := mapRes v.ncStride1 v.dims

/-- Drop the leading entries when the variable has no dimension `frame`, file_io_netcdf.cc 2874-2885;
fewer entries than dimensions would move the iterator before the beginning (`ub`). -/
def cutImap (v : Var) (imap : List Int) : Res (List Int) :=
  if "frame" ∈ v.dims.map Dim.name then .ok imap
  else if imap.length < v.dims.length then .ub
  else .ok (imap.drop (imap.length - v.dims.length))

/-- `iter_type`, file_io_netcdf.cc 2861-2864, 2891-2894, 3104-3107, 3143-3146. -/
def iterUnit (v : Var) : IterUnit := if v.field.layout.nbComp = 1 then .pixel else .subPt

/-- `get_nc_imap_global`, file_io_netcdf.cc 2859-2887, 3102-3139. -/
def imapGlobal (v : Var) : Res (List Int) := do
  let s ← v.field.layout.strides v.iterUnit 1
  let dofs := v.field.nbPixels * v.field.layout.nbDof
  match v.hist with
  | none => v.cutImap (dofs :: s)
  | some m =>
      v.cutImap (dofs * ((m : Int) + 1) :: Int.tdiv (dofs * ((m : Int) + 1)) ((m : Int) + 1) :: s)

/-- `get_nc_imap_local`, file_io_netcdf.cc 2889-2918, 3141-3180. -/
def imapLocal (v : Var) : Res (List Int) := do
  let s ← v.field.layout.strides v.iterUnit 1
  let dofs := v.field.nbPixels * v.field.layout.nbDof
  match v.hist with
  | none => v.cutImap (dofs :: s)
  | some m => v.cutImap (dofs :: Int.tdiv dofs ((m : Int) + 1) :: s)

/-- The loop body of `get_start_local`, file_io_netcdf.cc 2799-2814, 3031-3053; `off` is the entry of
`GFC_local_pixels` for the pixel. -/
def startLocal1 (v : Var) (frame : Int) (k : Nat) (off : Int) (d : Dim) : Res Int :=
  let base := baseName d.name
  if base = "frame" then .ok frame
  else if base = "history_index" ∧ v.hist.isSome then .ok k
  else if base = "pts" then .ok off
  else if base = "subpt" then .ok 0
  else if base = "tensor_dim" then .ok 0
  else .throw .fileIOError

/-- The loop body of `get_count_local`, file_io_netcdf.cc 2201-2219. -/
def countLocal1 (v : Var) (d : Dim) : Res Int :=
  let base := baseName d.name
  if base = "frame" then .ok 1
  else if base = "history_index" then .ok 1
  else if base = "pts" then .ok 1
  else if base = "subpt" then .ok v.field.layout.nbSub
  else if base = "tensor_dim" then do
    let i ← tensorDimIndex d.name
    at! v.field.layout.comps i
  else .throw .fileIOError

/-- The pixels with an entry in `GFC_local_pixels`: the loops over `local_pixels_map` skip those with
`GFC_LOCAL_PIXELS_DEFAULT_VALUE` (-1), file_io_netcdf.cc 2196-2199, 2795-2797. -/
def marked (marks : List Int) : List Int := marks.filter (· ≠ -1)

/-- `get_start_local`, file_io_netcdf.cc 2780-2819, 3010-3058.  The code stores the vectors of all
pixels one after the other and cuts them apart again (2566-2576); here they are kept apart. -/
def startLocal (v : Var) (frame : Int) (k : Nat) (marks : List Int) : Res (List (List Int)) :=
  if frame < 0 then .throw .fileIOError
  else mapRes (fun off => mapRes (v.startLocal1 frame k off) v.dims) (marked marks)

/-- `get_count_local`, file_io_netcdf.cc 2188-2230, kept apart like the starts. -/
def countLocal (v : Var) (marks : List Int) : Res (List (List Int)) :=
  mapRes (fun _ => mapRes v.countLocal1 v.dims) (marked marks)

/-- `consistency_check_global_var`, file_io_netcdf.cc 2430-2474. -/
def checkGlobal (v : Var) : Res Unit := do
  if ¬ v.field.isGlobal then .throw .fileIOError
  else do
    let start ← v.startGlobal 0 0
    let count ← v.countGlobal
    let stride ← v.ncStride
    let imap ← v.imapGlobal
    if start.length = count.length ∧ start.length = stride.length ∧ start.length = imap.length then
      .ok ()
    else .throw .fileIOError

/-- `consistency_check_local_var`, file_io_netcdf.cc 2477-2525.  The sizes of `start` and `count` are
those of the concatenated vectors. -/
def checkLocal (v : Var) (marks : List Int) : Res Unit := do
  if v.field.isGlobal then .throw .fileIOError
  else do
    let start ← v.startLocal 0 0 marks
    let count ← v.countLocal marks
    let stride ← v.ncStride
    let imap ← v.imapLocal
    if stride.length = 0 then .ub
    else if start.flatten.length % stride.length = 0 ∧ count.flatten.length % stride.length = 0 ∧
        stride.length = imap.length ∧ start.flatten.length = count.flatten.length then
      .ok ()
    else .throw .fileIOError

end Var

/-- Registration of one variable of a global collection, file_io_netcdf.cc 488-519 and 536-561: build
the dimensions and the variable (with `add_field_var`, 3220-3233), then check it.  The result is the variable and the updated
`global_domain_grid`.  (What remains registered when the check throws is not part of the result.) -/
def registerGlobalVar (vname : String) (f : IoField) (hidden : Bool) (hist : Option Nat)
    (grid : List Int) : Res (Var × List Int) := do
  let d ← globalDims vname f hidden hist grid
  let _ ← ncTypeOf f.ty
  let v : Var := ⟨vname, f, hist, d.1, hidden, ""⟩
  let _ ← v.checkGlobal
  pure (v, d.2)

/-- Registration of one variable of a local collection, file_io_netcdf.cc 604-636 and 648-678;
`total` is the number of pixels summed over the processes, `marks` the field of `GFC_local_pixels`
with the name `lname`. -/
def registerLocalVar (vname : String) (f : IoField) (hist : Option Nat) (total : Int) (lname : String)
    (marks : List Int) : Res Var := do
  let _ ← ncTypeOf f.ty
  let v : Var := ⟨vname, f, hist, localDims vname f hist total, false, lname⟩
  let _ ← v.checkLocal marks
  pure v

/-- `local_pixels_map[local_pixel_id] = fill_value`, file_io_netcdf.cc 731: `operator[]` of the field
map is unchecked. -/
def setMark (marks : List Int) (id v : Int) : Res (List Int) :=
  if 0 ≤ id ∧ id < marks.length then .ok (marks.set id.toNat v) else .ub

/-- The loop of `register_lfc_to_gfc_local_pixels`, file_io_netcdf.cc 714-733: pixel number `j` of the
local collection, in the order in which the pixels were added, gets the entry `offset + j`. -/
def markLoop : List Int → Int → List Int → Res (List Int)
  | [], _, marks => .ok marks
  | id :: ids, v, marks => do
      let m ← setMark marks id v
      markLoop ids (v + 1) m

/-- `register_lfc_to_gfc_local_pixels` for a file that is written, file_io_netcdf.cc 698-730: `size`
pixels on this process, `off` the number of local pixels on the processes before, `ids` the pixel ids
of the local collection.  (For a file that is read all entries stay -1 until the hidden variable is
read from the file.) -/
def markPixels (size : Nat) (off : Int) (ids : List Int) : Res (List Int) :=
  markLoop ids off (List.replicate size (-1))

/-! ### The file -/

/-- A variable in a file: its dimensions (`none` for the unlimited one), its type and the value at each
coordinate.  Cells never written hold arbitrary values (the file is in no-fill mode,
file_io_netcdf.cc 279-289). -/
structure FileVar (α : Type) where
  shape : List (Option Int)
  ty : NcType
  data : List Int → α

/-- The dimensions of a variable defined in a new file, `define_netcdf_dimensions` and
`define_netcdf_variables`, file_io_netcdf.cc 745-779: a dimension of size `NC_UNLIMITED` (0) is
unlimited. -/
def fileShape (dims : List Dim) : List (Option Int) :=
  dims.map fun d => if d.size = 0 then none else some d.size

/-- All multi-indices of a box, last one fastest.  For `putVarm` and `getVarm`.
For file_io_netcdf.cc 2520-2690. -/
def boxIndices : List Int → List (List Int)
  | [] => [[]]
  | n :: nb => (List.range n.toNat).flatMap fun (k : Nat) => (boxIndices nb).map fun c => (k : Int) :: c

/-- `start[d] + index[d]*stride[d]` for each dimension.  For `putVarm` and `getVarm`.
For file_io_netcdf.cc 2520-2690. -/
def target : List Int → List Int → List Int → List Int
  | s :: start, m :: stride, c :: idx => (s + c * m) :: target start stride idx
  | _, _, _ => []

/-- The argument checks of the NetCDF library: coordinates and edges must lie within the fixed
dimensions, strides must be positive; `lim` is the bound for the unlimited dimension (`none` when
writing).  Vectors shorter than the number of dimensions are read beyond their end.
For the calls file_io_netcdf.cc 2541-2590 and 2623-2680. -/
def checkArgs (lim : Option Int) : List (Option Int) → List Int → List Int → List Int → Res Unit
  | [], [], [], [] => .ok ()
  | n :: shape, s :: start, c :: count, m :: stride =>
      if s < 0 ∨ c < 0 ∨ m ≤ 0 then .throw .fileIOError
      else match (match n with | some k => some k | none => lim) with
        | none => checkArgs lim shape start count stride
        | some k =>
            if k < s ∨ (0 < c ∧ k ≤ s + (c - 1) * m) then .throw .fileIOError
            else checkArgs lim shape start count stride
  | _, _, _, _ => .ub

/-- Copy loop of `nc_put_varm`.  For the calls file_io_netcdf.cc 2541-2590. -/
def putLoop {α : Type} (start stride imap : List Int) (buf : Mem α) :
    List (List Int) → (List Int → α) → Res (List Int → α)
  | [], d => .ok d
  | c :: cs, d =>
      match buf (linearIndex c imap) with
      | none => .ub
      | some x =>
          putLoop start stride imap buf cs fun y => if y = target start stride c then x else d y


/-- Copy loop of `nc_get_varm`.  For the calls file_io_netcdf.cc 2623-2680. -/
def getLoop {α : Type} (start stride imap : List Int) (d : List Int → α) :
    List (List Int) → Mem α → Res (Mem α)
  | [], buf => .ok buf
  | c :: cs, buf =>
      match buf (linearIndex c imap) with
      | none => .ub
      | some _ =>
          getLoop start stride imap d cs (buf.write (linearIndex c imap) (d (target start stride c)))

/-- `nc_put_varm` (trusted): element `c` of the box `count` goes from `buf[∑ c_d imap_d]` to the
coordinates `start_d + c_d stride_d` of the variable.  Called at file_io_netcdf.cc 2541, 2547, 2585, 2590. -/
def putVarm {α : Type} (fv : FileVar α) (start count stride imap : List Int) (buf : Mem α) :
    Res (FileVar α) := do
  let _ ← checkArgs none fv.shape start count stride
  if imap.length < count.length then .ub
  else do
    let d ← putLoop start stride imap buf (boxIndices count) fv.data
    pure { fv with data := d }

/-- `nc_get_varm` (trusted): the inverse copy; `numrecs` records exist in the file.
Called at file_io_netcdf.cc 2623, 2629, 2670, 2675. -/
def getVarm {α : Type} (fv : FileVar α) (numrecs : Int) (start count stride imap : List Int)
    (buf : Mem α) : Res (Mem α) := do
  let _ ← checkArgs (some numrecs) fv.shape start count stride
  if imap.length < count.length then .ub
  else getLoop start stride imap fv.data (boxIndices count) buf

namespace Var

/-- The generic calls `nc_put_varm` and `nc_get_varm` (file_io_netcdf.hh 138-150) move elements of the type of the variable
in the file, and nothing compares it with the type of the field (file_io_netcdf.cc 839-862).  Simplified: if they differ,
elements are taken for elements of another type, with other sizes beyond the end of the memory; that is `ub` here, also for
types of the same size.  (PnetCDF converts the elements instead, 2541-2690.) -/
def sameType {α : Type} (v : Var) (fv : FileVar α) : Res Unit :=
  if ncTypeOf v.field.ty = .ok fv.ty then .ok () else .ub

/-- `NetCDFVarBase::write` for a global field, file_io_netcdf.cc 2528-2556; `nb` is the number of
frames, `k` the `state_field_index`, `buf` the memory of the field. -/
def writeGlobal {α : Type} (v : Var) (nb frame : Int) (k : Nat) (buf : Mem α) (fv : FileVar α) :
    Res (FileVar α) := do
  let f ← handleFrame frame nb
  let start ← v.startGlobal f k
  let count ← v.countGlobal
  let stride ← v.ncStride
  let imap ← v.imapGlobal
  let _ ← v.sameType fv
  putVarm fv start count stride imap buf

/-- `NetCDFVarBase::read` for a global field, file_io_netcdf.cc 2610-2640. -/
def readGlobal {α : Type} (v : Var) (nb frame : Int) (k : Nat) (numrecs : Int) (fv : FileVar α)
    (buf : Mem α) : Res (Mem α) := do
  let f ← handleFrame frame nb
  let start ← v.startGlobal f k
  let count ← v.countGlobal
  let stride ← v.ncStride
  let imap ← v.imapGlobal
  let _ ← v.sameType fv
  getVarm fv numrecs start count stride imap buf

/-- A collective write: every process hands the request for its part of the field to
`ncmu_put_varm_all`, file_io_netcdf.cc 2543-2548.  The requests are served one after the other, in the
order of the list. -/
def writeAll {α : Type} (nb frame : Int) (k : Nat) : List (Var × Mem α) → FileVar α → Res (FileVar α)
  | [], fv => .ok fv
  | (v, buf) :: ws, fv => do
      let fv' ← v.writeGlobal nb frame k buf fv
      writeAll nb frame k ws fv'

/-- The loop over the requests of `NetCDFVarBase::write` for a local field, file_io_netcdf.cc
2573-2600: after each request the buffer pointer advances by the number of elements written. -/
def putRequests {α : Type} (stride imap : List Int) (buf : Mem α) :
    List (List Int × List Int) → Int → FileVar α → Res (FileVar α)
  | [], _, fv => .ok fv
  | (start, count) :: rest, off, fv => do
      let fv' ← putVarm fv start count stride imap (fun a => buf (off + a))
      putRequests stride imap buf rest (off + getSize count) fv'

/-- The loop over the requests of `NetCDFVarBase::read` for a local field, file_io_netcdf.cc
2662-2687. -/
def getRequests {α : Type} (stride imap : List Int) (fv : FileVar α) (numrecs : Int) :
    List (List Int × List Int) → Int → Mem α → Res (Mem α)
  | [], _, buf => .ok buf
  | (start, count) :: rest, off, buf => do
      let buf' ← getVarm fv numrecs start count stride imap (fun a => buf (off + a))
      getRequests stride imap fv numrecs rest (off + getSize count) (fun a => buf' (a - off))

/-- `NetCDFVarBase::write` for a local field, file_io_netcdf.cc 2557-2606; `marks` is the field of
`GFC_local_pixels` for the collection. -/
def writeLocal {α : Type} (v : Var) (nb frame : Int) (k : Nat) (marks : List Int) (buf : Mem α)
    (fv : FileVar α) : Res (FileVar α) := do
  let f ← handleFrame frame nb
  let starts ← v.startLocal f k marks
  let counts ← v.countLocal marks
  let stride ← v.ncStride
  let imap ← v.imapLocal
  let _ ← v.sameType fv
  putRequests stride imap buf (starts.zip counts) 0 fv

/-- `NetCDFVarBase::read` for a local field, file_io_netcdf.cc 2641-2691. -/
def readLocal {α : Type} (v : Var) (nb frame : Int) (k : Nat) (marks : List Int) (numrecs : Int)
    (fv : FileVar α) (buf : Mem α) : Res (Mem α) := do
  let f ← handleFrame frame nb
  let starts ← v.startLocal f k marks
  let counts ← v.countLocal marks
  let stride ← v.ncStride
  let imap ← v.imapLocal
  let _ ← v.sameType fv
  getRequests stride imap fv numrecs (starts.zip counts) 0 buf

/-- The processes write their parts of a local field one after the other (in the code independently, between
`ncmu_begin_indep_data` and `ncmu_end_indep_data`, file_io_netcdf.cc 2576-2604; `Concurrent.lean` has them at the same time):
variable, entries of `GFC_local_pixels` and memory of each process. -/
def writeAllLocal {α : Type} (nb frame : Int) (k : Nat) :
    List (Var × List Int × Mem α) → FileVar α → Res (FileVar α)
  | [], fv => .ok fv
  | (v, marks, buf) :: ws, fv => do
      let fv' ← v.writeLocal nb frame k marks buf fv
      writeAllLocal nb frame k ws fv'

end Var

end Verif.NetCDF
