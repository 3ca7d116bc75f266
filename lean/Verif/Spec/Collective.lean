import Verif.Model.Collective
/-
What the processes of a communicator have to agree on for the registration of field collections, and when processes that
make collective calls all come to their end.
-/
namespace Verif.NetCDF
open Verif Verif.Ccoord Verif.Layout

/-- Two processes have fields that differ only in what belongs to the process: extents, location, number and order of the
pixels, storage order. -/
structure IoField.Alike (f g : IoField) : Prop where
  name : f.name = g.name
  tag : f.tag = g.tag
  comps : f.layout.comps = g.layout.comps
  nbSub : f.layout.nbSub = g.layout.nbSub
  isGlobal : f.isGlobal = g.isGlobal
  nbDomain : f.nbDomain = g.nbDomain
  ty : f.ty = g.ty
  shape_length : f.layout.pixShape.length = g.layout.pixShape.length
  strides_length : f.layout.pixStrides.length = g.layout.pixStrides.length
  loc_length : f.loc.length = g.loc.length
  order : f.layout.order = .colMajor ∨ f.layout.order = .rowMajor
  order' : g.layout.order = .colMajor ∨ g.layout.order = .rowMajor
  comps_len : f.layout.comps.length ≤ 2147483647

/-- The same for state fields. -/
structure StateGroup.Alike (g h : StateGroup) : Prop where
  pre : g.pre = h.pre
  nbMem : g.nbMem = h.nbMem
  subNames : g.subNames = h.subNames
  field : g.field.Alike h.field

/-- The same for the pixels of a collection.  Local collections agree on the number of all pixels, not on the pixels of the
process. -/
inductive CollDomain.Alike : CollDomain → CollDomain → Prop
  | global {nb sh loc sh' loc' : List Int} : sh.length = sh'.length → loc.length = loc'.length →
      CollDomain.Alike (.global nb sh loc) (.global nb sh' loc')
  | isLocal {ids ids' : List Int} {total off off' : Int} :
      CollDomain.Alike (.isLocal ids total off) (.isLocal ids' total off')

/-- The same for collections. -/
structure IoColl.Alike (c d : IoColl) : Prop where
  name : c.name = d.name
  initialised : c.initialised = d.initialised
  fields : List.Forall₂ IoField.Alike c.fields d.fields
  states : List.Forall₂ StateGroup.Alike c.states d.states
  domain : c.domain.Alike d.domain

/-- Two processes make the same call, each with its own part of the collection. -/
inductive RegOp.Alike : RegOp → RegOp → Prop
  | register {c d : IoColl} (fs ps : List String) : c.Alike d → RegOp.Alike (.register c fs ps) (.register d fs ps)
  | appendFrame : RegOp.Alike .appendFrame .appendFrame

/-- The pixels of all local collections lie in the subdomains of all global collections of the process. -/
def Placed (ops : List RegOp) : Prop :=
  ∀ c fs ps c' fs' ps' ids total off nb sh loc, RegOp.register c fs ps ∈ ops → RegOp.register c' fs' ps' ∈ ops →
    c.domain = .isLocal ids total off → c'.domain = .global nb sh loc → ∀ id ∈ ids, 0 ≤ id ∧ id < getSize sh

/-- All processes come to the end of their calls. -/
def AllReturn {κ : Type} {n : Nat} (p : Fin n → List κ) : Prop := Meets p fun _ => []

/-- No further call returns, although at least one process has not come to its end. -/
def Waits {κ : Type} {n : Nat} (p : Fin n → List κ) : Prop := (∃ i, p i ≠ []) ∧ ∀ q, ¬ Meet p q

end Verif.NetCDF
