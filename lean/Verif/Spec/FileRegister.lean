import Verif.Spec.File
import Verif.Model.FileRegister
/-
Specification vocabulary for the registration of collections in a file: which collections belong together, and which
variables the file should have for them.
-/
namespace Verif
open Verif.NetCDF Verif.Ccoord

/-- A field of this shape can be stored under the name: its elements are not complex numbers, a scalar field has one
sub-point, and the name and the sub-division tag do not disturb the names of the dimensions. -/
structure CanStore (vname : String) (f : IoField) : Prop where
  real : f.ty ≠ .complex
  scalar : f.layout.nbComp = 1 → f.layout.nbSub = 1
  name : f.layout.comps ≠ [] → Clean vname
  tag : f.layout.nbComp ≠ 1 → Clean f.tag

namespace NetCDF.IoColl

/-- The names of the fields of all state fields of the collection. -/
def subs (c : IoColl) : List String := c.states.flatMap StateGroup.subNames

/-- The fields that do not belong to a state field. -/
def plain (c : IoColl) : List IoField := c.fields.filter fun f => f.name ∉ c.subs

/-- What should be stored of a collection: each state field under its prefix, with its number of old values, and each
other field under its name. -/
def toStore (c : IoColl) : List (String × IoField × Option Nat) :=
  (c.states.map fun g => (g.pre, g.field, some g.nbMem)) ++ c.plain.map fun f => (f.name, f, none)

/-- The names that the collection uses in the file: those of its fields, and its own if it is local. -/
def fileNames (c : IoColl) : List String :=
  (match c.domain with | .global .. => [] | .isLocal .. => [c.name]) ++ c.toStore.map Prod.fst

end NetCDF.IoColl

/-- The collection can be stored in a file for the domain `dom` (extents of the domain, extents and location of the
part of this process). -/
structure CollOk (dom : List Int × List Int × List Int) (c : IoColl) : Prop where
  init : c.initialised = true
  fields_nodup : (c.fields.map IoField.name).Nodup
  states_nodup : (c.states.map StateGroup.pre).Nodup
  global : ∀ nb shape loc, c.domain = .global nb shape loc → ∀ x ∈ c.toStore,
    GlobalField x.2.1 ∧ x.2.1.nbDomain = dom.1 ∧ CanStore x.1 x.2.1
  isLocal : ∀ ids total off, c.domain = .isLocal ids total off →
    0 < total ∧ (∀ id ∈ ids, 0 ≤ id ∧ id < getSize dom.2.1) ∧ Clean c.name ∧
      ∀ x ∈ c.toStore, LocalField x.2.1 ids.length ∧ Clean x.1 ∧ CanStore x.1 x.2.1

/-- The collections can be stored together in one file, in this order: the first one is global, and all names that
are used in the file differ from each other and from those of the fields of state fields. -/
structure CollsOk (dom : List Int × List Int × List Int) (cs : List IoColl) : Prop where
  dom_pos : Pos dom.1
  dom_dim : dom.1.length ≤ 3
  inside : Within dom.1 dom.2.1 dom.2.2
  first : ∃ c rest, cs = c :: rest ∧ c.domain = .global dom.1 dom.2.1 dom.2.2
  each : ∀ c ∈ cs, CollOk dom c
  names : (cs.flatMap IoColl.fileNames).Nodup
  subs : ∀ n ∈ cs.flatMap IoColl.subs, n ∉ cs.flatMap IoColl.fileNames

/-- Registration of collections one after the other with the default arguments. -/
def registerAll (cs : List IoColl) : List RegOp :=
  cs.map fun c => .register c ["REGISTER_ALL_FIELDS"] ["REGISTER_ALL_STATE_FIELDS"]

/-- The program that opens the file has the collection `c'` for the collection `c` of the program that wrote it:
fields for some or all variables, with the same components, sub-points and history.  The decomposition of the domain,
the storage orders and the types of the elements may differ. -/
structure SameStored (c c' : IoColl) : Prop where
  kind : match c.domain, c'.domain with
    | .global .., .global .. => True
    | .isLocal _ total _, .isLocal _ total' _ => total = total' ∧ c.name = c'.name
    | _, _ => False
  each : ∀ x' ∈ c'.toStore, ∃ x ∈ c.toStore, x.1 = x'.1 ∧ x.2.2 = x'.2.2 ∧ x.2.1.tag = x'.2.1.tag ∧
    x.2.1.layout.comps = x'.2.1.layout.comps ∧ x.2.1.layout.nbSub = x'.2.1.layout.nbSub

/-- The names that a call of `register_field_collection` asks for: first those of state fields, then those of
fields. -/
def NetCDF.IoColl.asked (c : IoColl) (fieldNames prefixes : List String) : List String :=
  (if prefixes = ["REGISTER_ALL_STATE_FIELDS"] then c.states.map StateGroup.pre else prefixes) ++
    if fieldNames = ["REGISTER_ALL_FIELDS"] then c.fields.map IoField.name else fieldNames

end Verif
