import Verif.Model.FileSession
/-
Registration of field collections in a file, `FileIONetCDF::register_field_collection`, file_io_netcdf.cc 64-171,
467-742, 745-862, with everything that is left behind when it throws.

One process is modelled; what the communicator returns is part of the description of a local collection.
Left out: attributes (NetCDFAtt.lean), names the library does not
allow, and the switching of the library between define and data mode.
-/
namespace Verif.NetCDF
open Verif Verif.Ccoord

/-- A state field of a collection: prefix, number of remembered values, names of its fields (state_field.cc 138-150),
and one of its fields (they agree in shape and layout).  Simplified: the prefix is not empty (for an empty one the
dimensions are named after the current field, file_io_netcdf.cc 1177-1183). -/
structure StateGroup where
  pre : String
  nbMem : Nat
  subNames : List String
  field : IoField

/-- The domain of a collection: for a global one the extents of the domain and the extents and location of the
subdomain (field_collection_global.cc); for a local one the ids of its pixels, their number summed over the
processes (file_io_netcdf.cc 1232) and the number on the processes before (717). -/
inductive CollDomain
  | global (nbDomain shape loc : List Int)
  | isLocal (ids : List Int) (total off : Int)

/-- What the file code asks of a field collection.  The fields include those of the state fields.
field_collection.hh 856-858. -/
structure IoColl where
  name : String
  initialised : Bool
  fields : List IoField
  states : List StateGroup
  domain : CollDomain

/-- `FieldCollection::get_field`, field_collection.cc 407-414. -/
def IoColl.getField (c : IoColl) (n : String) : Res IoField :=
  match c.fields.find? fun f => f.name = n with
  | some f => .ok f
  | none => .throw .fieldCollectionError

/-- `FieldCollection::get_state_field`, field_collection.cc 430-438. -/
def IoColl.getState (c : IoColl) (p : String) : Res StateGroup :=
  match c.states.find? fun g => g.pre = p with
  | some g => .ok g
  | none => .throw .fieldCollectionError

/-- The members of `FileIONetCDF` that registration uses, file_io_netcdf.hh 1037, 1643-1690: dimensions and
variables, each with a mark whether it has an id of the file; `global_domain_grid`; `state_field_field_names`;
`GFC_local_pixels` (if initialised, its extents and location) with its fields; `nb_frames`.  The dimensions and
variables of the file itself, and the number of its records. -/
structure Reg where
  mode : OpenMode
  dims : List (Dim × Bool)
  vars : List (Var × Bool)
  grid : List Int
  stateNames : List String
  pixels : Option (List Int × List Int × List Int)
  gfc : List (String × List Int)
  nbFrames : Int
  fileDims : List Dim
  fileVars : List String
  numrecs : Int

/-- `NetCDFVariables::get_names`, file_io_netcdf.cc 3263-3273: without the hidden variables. -/
def Reg.names (s : Reg) : List String := (s.vars.filter fun v => !v.1.hidden).map fun v => v.1.name

/-- The next step after an outcome; an exception ends the call.
Sequences of statements in file_io_netcdf.cc 64-171. -/
def andThen (r : Res Unit × Reg) (k : Reg → Res Unit × Reg) : Res Unit × Reg :=
  match r.1 with
  | .ok _ => k r.2
  | .throw e => (.throw e, r.2)
  | .ub => (.ub, r.2)

/-- A range-based `for` loop that an exception ends.  For example file_io_netcdf.cc 475 and 518. -/
def forEach {β : Type} (f : Reg → β → Res Unit × Reg) : List β → Reg → Res Unit × Reg
  | [], s => (.ok (), s)
  | b :: bs, s => andThen (f s b) (forEach f bs)

/-- `NetCDFDimensions::add_dim` for one dimension after the other, file_io_netcdf.cc 1149-1161: a dimension with the
same name and size is used again. -/
def addDims : List (Dim × Bool) → List Dim → List (Dim × Bool)
  | dims, [] => dims
  | dims, d :: ds => addDims (if d ∈ dims.map Prod.fst then dims else dims ++ [(d, false)]) ds

/-- The loop over the grid directions, file_io_netcdf.cc 1202-1223, with the dimensions and the entries of
`global_domain_grid` as they are when it ends or throws. -/
def gridLoop : List String → List Int → List Int → Res Unit × List Dim × List Int
  | _, grid, [] => (.ok (), [], grid)
  | nm :: names, g :: grid, n :: nb =>
      if g ≠ 0 ∧ g ≠ n then (.throw .fileIOError, [], g :: grid)
      else
        let r := gridLoop names grid nb
        (r.1, ⟨dimName nm "", n⟩ :: r.2.1, n :: r.2.2)
  | _, grid, _ :: _ => (.ub, [], grid)

/-- The body of the loops of `register_field_collection_global` after the checks of the name, file_io_netcdf.cc
485-514 and 536-561: `subs` are the names of the fields of a state field.  The dimensions are added before the type is
looked up (`add_field_var`, 3220-3255), the variable before it is checked. -/
def Reg.addGlobal (s : Reg) (vname : String) (f : IoField) (hidden : Bool) (hist : Option Nat) (subs : List String) :
    Res Unit × Reg :=
  let g := gridLoop gridNames s.grid f.nbDomain
  let ds := leadDims hidden hist ++ (tensorDims vname 0 f.layout.comps ++ (subPtDims f ++ g.2.1))
  let s1 := { s with dims := addDims s.dims ds, grid := g.2.2 }
  match g.1 with
  | .ok _ =>
      match ncTypeOf f.ty with
      | .ok _ =>
          let v : Var := ⟨vname, f, hist, ds, hidden, ""⟩
          (v.checkGlobal, { s1 with vars := s1.vars ++ [(v, false)], stateNames := s1.stateNames ++ subs })
      | .throw e => (.throw e, s1)
      | .ub => (.ub, s1)
  | .throw e => (.throw e, s1)
  | .ub => (.ub, s1)

/-- The same for `register_field_collection_local`, file_io_netcdf.cc 601-634 and 654-678. -/
def Reg.addLocal (s : Reg) (vname : String) (f : IoField) (hist : Option Nat) (total : Int) (lname : String)
    (marks : List Int) (subs : List String) : Res Unit × Reg :=
  let v : Var := ⟨vname, f, hist, localDims vname f hist total, false, lname⟩
  let s1 := { s with dims := addDims s.dims v.dims }
  match ncTypeOf f.ty with
  | .ok _ =>
      (v.checkLocal marks, { s1 with vars := s1.vars ++ [(v, false)], stateNames := s1.stateNames ++ subs })
  | .throw e => (.throw e, s1)
  | .ub => (.ub, s1)

/-- One round of the loop over the state fields, file_io_netcdf.cc 475-515 and 588-635; `add` is the rest of the
body. -/
def Reg.stateRound (c : IoColl) (add : Reg → StateGroup → Res Unit × Reg) (s : Reg) (p : String) : Res Unit × Reg :=
  if p ∈ s.names then (.throw .fileIOError, s)
  else match c.getState p with
    | .ok g => add s g
    | .throw e => (.throw e, s)
    | .ub => (.ub, s)

/-- One round of the loop over the fields, file_io_netcdf.cc 518-562 and 638-679: fields with a name among
`state_field_field_names` are skipped. -/
def Reg.fieldRound (c : IoColl) (add : Reg → IoField → Res Unit × Reg) (s : Reg) (n : String) : Res Unit × Reg :=
  if n ∈ s.names then (.throw .fileIOError, s)
  else if n ∈ s.stateNames then (.ok (), s)
  else match c.getField n with
    | .ok f => add s f
    | .throw e => (.throw e, s)
    | .ub => (.ub, s)

/-- `register_field_collection_global`, file_io_netcdf.cc 467-573; `dom` are the extents and location that
`GFC_local_pixels` gets (683-696).  A field with the name of a field of `GFC_local_pixels` becomes a hidden variable
(471-472, 536-540). -/
def Reg.registerGlobal (s : Reg) (c : IoColl) (dom : List Int × List Int × List Int)
    (fieldNames prefixes : List String) : Res Unit × Reg :=
  let hiddenNames := s.gfc.map Prod.fst
  andThen (forEach (Reg.stateRound c fun s g => s.addGlobal g.pre g.field false (some g.nbMem) g.subNames) prefixes s)
    fun s1 =>
  andThen (forEach (Reg.fieldRound c fun s f => s.addGlobal f.name f (decide (f.name ∈ hiddenNames)) none [])
    fieldNames s1) fun s2 =>
  (.ok (), if s2.pixels.isSome then s2 else { s2 with pixels := some dom })

/-- The field of `GFC_local_pixels` with the name `l`: one component, one sub-point, column-major,
of type `Index_t` (file_io_netcdf.cc 50-52, 702-706). -/
def pixelField (l : String) (dom : List Int × List Int × List Int) : IoField :=
  ⟨l, "pixel", ⟨.colMajor, [1], 1, dom.2.1, colMajorStrides dom.2.1, getSize dom.2.1⟩, getSize dom.2.1, true, dom.1,
    dom.2.2, .index⟩

/-- `register_field_collection_local`, file_io_netcdf.cc 576-680, with `register_lfc_to_gfc_local_pixels`, 698-742.
The entries of the pixels are those of a new file; in other modes they are -1. -/
def Reg.registerLocal (s : Reg) (c : IoColl) (ids : List Int) (total off : Int) (fieldNames prefixes : List String) :
    Res Unit × Reg :=
  match s.pixels with
  | none => (.throw .fileIOError, s)
  | some dom =>
      if c.name ∈ s.gfc.map Prod.fst then (.throw .fieldCollectionError, s)
      else
        let none' := List.replicate (getSize dom.2.1).toNat (-1 : Int)
        let marks : Res (List Int) :=
          if s.mode = .write ∨ s.mode = .overwrite then markPixels (getSize dom.2.1).toNat off ids else .ok none'
        match marks with
        | .throw e => (.throw e, { s with gfc := s.gfc ++ [(c.name, none')] })
        | .ub => (.ub, { s with gfc := s.gfc ++ [(c.name, none')] })
        | .ok m =>
            let s1 := { s with gfc := s.gfc ++ [(c.name, m)] }
            let pix : IoColl := ⟨"", true, [pixelField c.name dom], [], .global dom.1 dom.2.1 dom.2.2⟩
            andThen (s1.registerGlobal pix dom [c.name] []) fun s2 =>
            andThen (forEach (Reg.stateRound c fun s g =>
              s.addLocal g.pre g.field (some g.nbMem) total c.name m g.subNames) prefixes s2) fun s3 =>
            forEach (Reg.fieldRound c fun s f => s.addLocal f.name f none total c.name m []) fieldNames s3

/-- `define_netcdf_dimensions`, file_io_netcdf.cc 745-759: a dimension without an id is defined in the file.  The
library (trusted) refuses a name that is in use, and a second unlimited dimension (size 0). -/
def defineDims : List (Dim × Bool) → List Dim → Res Unit × List (Dim × Bool) × List Dim
  | [], file => (.ok (), [], file)
  | (d, true) :: ds, file =>
      let r := defineDims ds file
      (r.1, (d, true) :: r.2.1, r.2.2)
  | (d, false) :: ds, file =>
      if d.name ∈ file.map Dim.name ∨ (d.size = 0 ∧ 0 ∈ file.map Dim.size) then
        (.throw .fileIOError, (d, false) :: ds, file)
      else
        let r := defineDims ds (file ++ [d])
        (r.1, (d, true) :: r.2.1, r.2.2)

/-- `define_netcdf_variables`, file_io_netcdf.cc 762-778. -/
def defineVars : List (Var × Bool) → List String → Res Unit × List (Var × Bool) × List String
  | [], file => (.ok (), [], file)
  | (v, true) :: vs, file =>
      let r := defineVars vs file
      (r.1, (v, true) :: r.2.1, r.2.2)
  | (v, false) :: vs, file =>
      if v.name ∈ file then (.throw .fileIOError, (v, false) :: vs, file)
      else
        let r := defineVars vs (file ++ [v.name])
        (r.1, (v, true) :: r.2.1, r.2.2)

/-- Both, file_io_netcdf.cc 126-129. -/
def Reg.define (s : Reg) : Res Unit × Reg :=
  let d := defineDims s.dims s.fileDims
  andThen (d.1, { s with dims := d.2.1, fileDims := d.2.2 }) fun s1 =>
  let v := defineVars s1.vars s1.fileVars
  (v.1, { s1 with vars := v.2.1, fileVars := v.2.2 })

/-- `register_netcdf_dimension_ids`, file_io_netcdf.cc 800-837, for the dimensions without an id: they must be in the file, and
when the unlimited one is found `nb_frames` becomes the number of records. -/
def inquireDims (file : List Dim) (numrecs : Int) : List (Dim × Bool) → Int → Res Unit × List (Dim × Bool) × Int
  | [], nb => (.ok (), [], nb)
  | (d, true) :: ds, nb =>
      let r := inquireDims file numrecs ds nb
      (r.1, (d, true) :: r.2.1, r.2.2)
  | (d, false) :: ds, nb =>
      match file.find? fun e => e.name = d.name with
      | none => (.throw .fileIOError, (d, false) :: ds, nb)
      | some e =>
          let r := inquireDims file numrecs ds (if e.size = 0 then numrecs else nb)
          (r.1, (d, true) :: r.2.1, r.2.2)

/-- `register_netcdf_variable_ids`, file_io_netcdf.cc 839-862. -/
def inquireVars (file : List String) : List (Var × Bool) → Res Unit × List (Var × Bool)
  | [] => (.ok (), [])
  | (v, true) :: vs =>
      let r := inquireVars file vs
      (r.1, (v, true) :: r.2)
  | (v, false) :: vs =>
      if v.name ∈ file then
        let r := inquireVars file vs
        (r.1, (v, true) :: r.2)
      else (.throw .fileIOError, (v, false) :: vs)

/-- Both, file_io_netcdf.cc 139-158. -/
def Reg.inquire (s : Reg) : Res Unit × Reg :=
  if s.fileDims.length < s.dims.length then (.throw .fileIOError, s)
  else
    let d := inquireDims s.fileDims s.numrecs s.dims s.nbFrames
    andThen (d.1, { s with dims := d.2.1, nbFrames := d.2.2 }) fun s1 =>
    if s1.fileVars.length < s1.vars.length then (.throw .fileIOError, s1)
    else
      let v := inquireVars s1.fileVars s1.vars
      (v.1, { s1 with vars := v.2 })

/-- The default arguments, file_io_base.hh 57-63 and file_io_netcdf.cc 76-92. -/
def resolve (keyword : String) (all names : List String) : List String := if names = [keyword] then all else names

/-- `register_field_collection`, file_io_netcdf.cc 64-171. -/
def Reg.register (s : Reg) (c : IoColl) (fieldNames prefixes : List String) : Res Unit × Reg :=
  if ¬ c.initialised then (.throw .fileIOError, s)
  else
    let fs := resolve "REGISTER_ALL_FIELDS" (c.fields.map IoField.name) fieldNames
    let ps := resolve "REGISTER_ALL_STATE_FIELDS" (c.states.map StateGroup.pre) prefixes
    let r := match c.domain with
      | .global nbDomain shape loc => s.registerGlobal c (nbDomain, shape, loc) fs ps
      | .isLocal ids total off => s.registerLocal c ids total off fs ps
    andThen r fun s1 =>
    if s1.mode = .write ∨ s1.mode = .overwrite then s1.define else s1.inquire

/-- The file object after `open`, file_io_netcdf.cc 174-290: the dimension `frame`, nothing else. -/
def Reg.opened (mode : OpenMode) (fileDims : List Dim) (fileVars : List String) (numrecs : Int) : Reg :=
  ⟨mode, [(⟨"frame", 0⟩, false)], [], [0, 0, 0], [], none, [], numrecs, fileDims, fileVars, numrecs⟩

/-- A new file.  file_io_netcdf.cc 182-218. -/
def Reg.created (mode : OpenMode) : Reg := Reg.opened mode [] [] 0

/-- One call of a program with an open file, before it writes or reads.
file_io_netcdf.cc 64-171 and file_io_base.cc 70-74. -/
inductive RegOp
  | register (c : IoColl) (fieldNames prefixes : List String)
  | appendFrame

/-- One call: the outcome and the state after it, also after an exception.  `append_frame`: file_io_base.cc 70-74. -/
def Reg.step (s : Reg) : RegOp → Res Unit × Reg
  | .register c fs ps => s.register c fs ps
  | .appendFrame => (.ok (), { s with nbFrames := s.nbFrames + 1 })

/-- A sequence of calls in a program that catches exceptions.  Programs are not part of /repo.
For file_io_netcdf.cc 47-1150. -/
def Reg.run : Reg → List RegOp → List (Res Unit) × Reg
  | s, [] => ([], s)
  | s, op :: ops =>
      let r := s.step op
      let q := r.2.run ops
      (r.1 :: q.1, q.2)

end Verif.NetCDF
