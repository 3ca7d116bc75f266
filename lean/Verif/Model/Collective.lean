import Verif.Model.FileRegister
/-
The collective calls that a process makes while it registers field collections and transfers variables, and what
happens when the processes do not make the same ones.
-/
namespace Verif.NetCDF
open Verif Verif.Ccoord Verif.FileIO Verif.RawMemory
open Verif.NetCDFAtt (NcType)

/-- The calls in which all processes have to take part, with what they have to agree on: `comm.cumulative_sum`
(file_io_netcdf.cc 720), `comm.sum` (1232), `ncmu_redef` (117), `ncmu_def_dim` (752), `ncmu_def_var` (769),
`ncmu_put_att` (786), `ncmu_enddef` (132), `ncmu_put_varm_all` (2541), `ncmu_get_varm_all` (2623),
`ncmu_begin_indep_data` (2576, 2644) and `ncmu_end_indep_data` (2604, 2689).  Attributes are those of a registered variable, given
by their names (2374-2393). -/
inductive CollCall
  | cumulativeSum
  | sum
  | redef
  | defDim (d : Dim)
  | defVar (name : String) (ty : NcType) (dims : List Dim)
  | putAtt (var att : String)
  | enddef
  | putAll (name : String)
  | getAll (name : String)
  | beginIndep
  | endIndep
  deriving DecidableEq

/-! ### Registration -/

/-- The calls of a loop that an exception ends.  For example file_io_netcdf.cc 588 and 638. -/
def forEachCalls {β : Type} (f : Reg → β → Res Unit × Reg) (t : Reg → β → List CollCall) :
    List β → Reg → List CollCall
  | [], _ => []
  | b :: bs, s =>
      t s b ++ match (f s b).1 with
        | .ok _ => forEachCalls f t bs (f s b).2
        | _ => []

/-- The calls of a step and of what follows when it does not throw.
Sequences of statements in file_io_netcdf.cc 64-171. -/
def thenCalls (l : List CollCall) (r : Res Unit × Reg) (k : Reg → List CollCall) : List CollCall :=
  l ++ match r.1 with
    | .ok _ => k r.2
    | _ => []

/-- The calls of one round of the loop over the state fields of a local collection, file_io_netcdf.cc 588-635: the number
of pixels is summed up in `add_field_dims_local` (1232). -/
def Reg.stateCalls (c : IoColl) (s : Reg) (p : String) : List CollCall :=
  if p ∈ s.names then []
  else match c.getState p with
    | .ok _ => [.sum]
    | _ => []

/-- The same for the loop over the fields, file_io_netcdf.cc 638-679. -/
def Reg.fieldCalls (c : IoColl) (s : Reg) (n : String) : List CollCall :=
  if n ∈ s.names then []
  else if n ∈ s.stateNames then []
  else match c.getField n with
    | .ok _ => [.sum]
    | _ => []

/-- The calls of `register_field_collection_local`, file_io_netcdf.cc 576-680, with `register_lfc_to_gfc_local_pixels`,
698-742.  (`register_field_collection_global`, 467-573, makes none.) -/
def Reg.localCalls (s : Reg) (c : IoColl) (ids : List Int) (total off : Int) (fieldNames prefixes : List String) :
    List CollCall :=
  match s.pixels with
  | none => []
  | some dom =>
      if c.name ∈ s.gfc.map Prod.fst then []
      else
        let none' := List.replicate (getSize dom.2.1).toNat (-1 : Int)
        let sums := if s.mode = .write ∨ s.mode = .overwrite then [CollCall.cumulativeSum] else []
        let marks : Res (List Int) :=
          if s.mode = .write ∨ s.mode = .overwrite then markPixels (getSize dom.2.1).toNat off ids else .ok none'
        match marks with
        | .ok m =>
            let s1 := { s with gfc := s.gfc ++ [(c.name, m)] }
            let pix : IoColl := ⟨"", true, [pixelField c.name dom], [], .global dom.1 dom.2.1 dom.2.2⟩
            thenCalls sums (s1.registerGlobal pix dom [c.name] []) fun s2 =>
            let addS : Reg → String → Res Unit × Reg :=
              Reg.stateRound c fun s g => s.addLocal g.pre g.field (some g.nbMem) total c.name m g.subNames
            let addF : Reg → String → Res Unit × Reg :=
              Reg.fieldRound c fun s f => s.addLocal f.name f none total c.name m []
            thenCalls (forEachCalls addS (Reg.stateCalls c) prefixes s2) (forEach addS prefixes s2) fun s3 =>
            forEachCalls addF (Reg.fieldCalls c) fieldNames s3
        | _ => sums

/-- The calls of `define_netcdf_dimensions`, file_io_netcdf.cc 745-759: a refused call is the last one. -/
def defineDimsCalls : List (Dim × Bool) → List Dim → List CollCall
  | [], _ => []
  | (_, true) :: ds, file => defineDimsCalls ds file
  | (d, false) :: ds, file =>
      if d.name ∈ file.map Dim.name ∨ (d.size = 0 ∧ 0 ∈ file.map Dim.size) then [.defDim d]
      else .defDim d :: defineDimsCalls ds (file ++ [d])

/-- The calls of `define_netcdf_variables`, file_io_netcdf.cc 762-778. -/
def defineVarsCalls : List (Var × Bool) → List String → List CollCall
  | [], _ => []
  | (_, true) :: vs, file => defineVarsCalls vs file
  | (v, false) :: vs, file =>
      if v.name ∈ file then [.defVar v.name v.dataType v.dims]
      else .defVar v.name v.dataType v.dims :: defineVarsCalls vs (file ++ [v.name])

/-- The attributes of a variable: its unit (file_io_netcdf.cc 2374-2385) and for a local field the name of the field with
its entries (2388-2393). -/
def attNames (v : Var) : List String := if v.field.isGlobal then ["unit"] else ["unit", "local_pixels_field"]

/-- The calls of `define_netcdf_attributes`, file_io_netcdf.cc 781-798: all attributes of all variables, each time. -/
def defineAttsCalls (vars : List (Var × Bool)) : List CollCall :=
  vars.flatMap fun v => (attNames v.1).map (.putAtt v.1.name)

/-- The calls at the end of a registration in a new file, file_io_netcdf.cc 126-135. -/
def Reg.defineCalls (s : Reg) : List CollCall :=
  let d := defineDims s.dims s.fileDims
  thenCalls (defineDimsCalls s.dims s.fileDims) (d.1, { s with dims := d.2.1, fileDims := d.2.2 }) fun s1 =>
  let v := defineVars s1.vars s1.fileVars
  thenCalls (defineVarsCalls s1.vars s1.fileVars) (v.1, { s1 with vars := v.2.1, fileVars := v.2.2 }) fun s2 =>
  defineAttsCalls s2.vars ++ [.enddef]

/-- The first part of `register_field_collection`, file_io_netcdf.cc 64-111. -/
def Reg.registerDomain (s : Reg) (c : IoColl) (fs ps : List String) : Res Unit × Reg :=
  match c.domain with
  | .global nbDomain shape loc => s.registerGlobal c (nbDomain, shape, loc) fs ps
  | .isLocal ids total off => s.registerLocal c ids total off fs ps

/-- Its calls, file_io_netcdf.cc 64-111. -/
def Reg.domainCalls (s : Reg) (c : IoColl) (fs ps : List String) : List CollCall :=
  match c.domain with
  | .global _ _ _ => []
  | .isLocal ids total off => s.localCalls c ids total off fs ps

/-- The calls of `register_field_collection`, file_io_netcdf.cc 64-171; `define` says whether the library is in
define mode (115-122). -/
def Reg.registerCalls (define : Bool) (s : Reg) (c : IoColl) (fieldNames prefixes : List String) : List CollCall :=
  if ¬ c.initialised then []
  else
    let fs := resolve "REGISTER_ALL_FIELDS" (c.fields.map IoField.name) fieldNames
    let ps := resolve "REGISTER_ALL_STATE_FIELDS" (c.states.map StateGroup.pre) prefixes
    thenCalls (s.domainCalls c fs ps) (s.registerDomain c fs ps) fun s1 =>
    (if define then [] else [.redef]) ++ if s1.mode = .write ∨ s1.mode = .overwrite then s1.defineCalls else []

/-- Whether the library is in define mode after `register_field_collection`, `netcdf_mode`, file_io_netcdf.cc 115-136: a
new file is left in data mode when all was defined.  Simplified: `ncmu_redef` and `ncmu_enddef` do not fail. -/
def Reg.defineMode (define : Bool) (s : Reg) (c : IoColl) (fieldNames prefixes : List String) : Bool :=
  if ¬ c.initialised then define
  else
    let fs := resolve "REGISTER_ALL_FIELDS" (c.fields.map IoField.name) fieldNames
    let ps := resolve "REGISTER_ALL_STATE_FIELDS" (c.states.map StateGroup.pre) prefixes
    match (s.registerDomain c fs ps).1 with
    | .ok _ =>
        let s1 := (s.registerDomain c fs ps).2
        if s1.mode = .write ∨ s1.mode = .overwrite then
          match s1.define.1 with
          | .ok _ => false
          | _ => true
        else true
    | _ => define

/-- The calls of a sequence of registrations in a program that catches exceptions; `append_frame` makes none
(file_io_base.cc 70-74).  Programs are not part of /repo.  For file_io_netcdf.cc 64-171. -/
def Reg.runCalls : Bool → Reg → List RegOp → List CollCall
  | _, _, [] => []
  | define, s, .register c fs ps :: ops =>
      s.registerCalls define c fs ps ++ Reg.runCalls (s.defineMode define c fs ps) (s.register c fs ps).2 ops
  | define, s, .appendFrame :: ops => Reg.runCalls define (s.step .appendFrame).2 ops

/-! ### Transfers -/

/-- The calls of `NetCDFVarBase::read` for a local field on one process, file_io_netcdf.cc 2610-2691: a refused request
throws between the two calls (2678-2680). -/
def Var.readLocalCalls {α : Type} (v : Var) (nb frame : Int) (k : Nat) (marks : List Int) (numrecs : Int)
    (fv : FileVar α) (buf : Mem α) : List CollCall :=
  match handleFrame frame nb with
  | .ok _ =>
      .beginIndep :: match v.readLocal nb frame k marks numrecs fv buf with
        | .ok _ => [.endIndep]
        | _ => []
  | _ => []

/-! ### Processes that wait for each other -/

/-- All processes take part in the next call, which is the same for all.  MPI (trusted): a collective call does not
return before all processes have made it.  Processes of the communicator, communicator.hh 123-145. -/
def Meet {κ : Type} {n : Nat} (p q : Fin n → List κ) : Prop :=
  ∃ c, (∀ i, ∃ rest, p i = c :: rest) ∧ q = fun i => (p i).tail

/-- Any number of such steps; `p i` are the calls that process `i` still has to make.  Processes of the communicator,
communicator.hh 123-145. -/
inductive Meets {κ : Type} {n : Nat} : (Fin n → List κ) → (Fin n → List κ) → Prop
  | refl {p : Fin n → List κ} : Meets p p
  | head {p q r : Fin n → List κ} : Meet p q → Meets q r → Meets p r

end Verif.NetCDF
