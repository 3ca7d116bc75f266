import Verif.Spec.FileRanks
/-
Programs that use only some of the fields of a file.
-/
namespace Verif
open Verif.NetCDF

/-- The collection `c'` has some of the fields of `c`. -/
def NetCDF.IoColl.PartOf (c' c : IoColl) : Prop := c'.kind = c.kind ∧ ∀ y ∈ c'.sig.2, y ∈ c.sig.2

/-- The program `rs'` has some of the fields of the program `rs`, in collections and an order of its own, on the same
domain; its local collections have the same pixels. -/
structure PartData (rs rs' : List FileRank) : Prop where
  each : ∀ r ∈ rs, ∀ r' ∈ rs', ∀ c' ∈ r'.colls, ∃ c ∈ r.colls, c'.PartOf c
  pixels : ∀ l ∈ localNames rs', ∀ g, InLocal rs l g ↔ InLocal rs' l g

variable {α : Type}

/-- The program can use some of the fields of a file with the data of `rs`. -/
structure FileUse.OkPart (dom : List Int) (rs : List FileRank) (u : FileUse α) : Prop where
  ok : ProgramOk dom u.ranks
  data : PartData rs u.ranks
  mode : u.mode = .read ∨ u.mode = .append
  mem : ProgramHolds u.ranks u.mem u.cur
  ops : List.Forall₂ (SameOp (ProgramHolds u.ranks)) u.ops u.sops
  names : ∀ op ∈ u.ops, NoLocalNames u.ranks op
  refused : u.mode = .read → ∀ op ∈ u.ops, RefusedBy u.ranks op

/-- The programs can use the file one after the other, when it has the values `cell` before: each reads only what has
been written, and one that adds to the file does so only if the local collections it has fields of have been written,
by whichever field. -/
def UsesPart (dom : List Int) (rs : List FileRank) : (Int → String → Option (Values α)) → List (FileUse α) → Prop
  | _, [] => True
  | cell, u :: us => u.OkPart dom rs ∧
      (u.mode = .append → ∀ r' ∈ u.ranks, ∀ e' ∈ r'.entries, ∀ l total, e'.1 = some (l, total) →
        ∀ r ∈ rs, ∃ e ∈ r.entries, e.1 = some (l, total) ∧ HasCell cell e.2.1) ∧
      ∀ nb, NbFrames cell nb → (u.table cell nb).NoGaps (storedNames u.ranks) u.sops ∧
        UsesPart dom rs ((u.table cell nb).run (storedNames u.ranks) u.sops).2.cell us

/-- Each program finds the columns of its fields in the table with the values that have been written so far, also those
written by programs with other fields: all registrations succeed, all calls succeed or fail as expected of the table,
and the memory of its fields has the values that the table gives. -/
def BehavesPart : (Int → String → Option (Values α)) → List (FileUse α) → List (ProgramRun α) → Prop
  | _, [], rs => rs = []
  | _, _ :: _, [] => False
  | cell, u :: us, r :: rs => ∃ nb, NbFrames cell nb ∧
      let t := (u.table cell nb).run (storedNames u.ranks) u.sops
      (∀ os ∈ r.registered, ∀ o ∈ os, o = .ok ()) ∧ List.Forall₂ Props.AsExpected r.results t.1 ∧
        ProgramHolds u.ranks r.mem t.2.cur ∧ r.nbFrames = t.2.nb ∧ BehavesPart t.2.cell us rs

end Verif
