import Verif.Model.FileBoth
import Verif.Spec.FileAtts
import Verif.Spec.FileRanks
/-
What a user expects of a file with data and global attributes: a table of values and a list of attributes, each of which is
changed only by its own calls.
-/
namespace Verif
open Verif.NetCDF Verif.NetCDFAtt

/-- The calls that concern the data. -/
def dataOps {C V : Type} (ops : List (BothOp C V)) : List (FileOp C) :=
  ops.filterMap fun op => match op with | .data o => some o | _ => none

/-- The table of values and the attributes. -/
structure BothTable (W V : Type) where
  data : Table W
  atts : AttTable V

/-- The call is one of `write`. -/
def NetCDF.FileOp.isWrite {C : Type} : FileOp C → Bool
  | .write .. | .writeAll .. => true
  | _ => false

namespace BothTable

variable {W V : Type}

/-- A call for data changes the table of values; of the attributes it changes only whether they are in the file (a call of
`write` stores them) and whether the file has been changed.  A call for attributes changes only the attributes. -/
def step (known : List String) (t : BothTable W V) : BothOp (String → W) V → Bool × BothTable W V
  | .data op =>
      let r := t.data.step known op
      (r.1, ⟨r.2, if op.isWrite then
        { t.atts with stored := true, touched := t.atts.touched || (r.1 && t.atts.writable) } else t.atts⟩)
  | .writeAtt name ty value =>
      let r := t.atts.step (.writeAtt name ty value)
      (r.1, ⟨t.data, r.2⟩)
  | .updateAtt old new ty value =>
      let r := t.atts.step (.updateAtt old new ty value)
      (r.1, ⟨t.data, r.2⟩)

def run (known : List String) : BothTable W V → List (BothOp (String → W) V) → List Bool × BothTable W V
  | t, [] => ([], t)
  | t, op :: ops => ((t.step known op).1 :: ((t.step known op).2.run known ops).1, ((t.step known op).2.run known ops).2)

/-- No call renames an attribute to a name that is in use. -/
def NoClash (known : List String) : BothTable W V → List (BothOp (String → W) V) → Prop
  | _, [] => True
  | t, op :: ops =>
      (match op with | .updateAtt old new _ _ => new = old ∨ new ∉ t.atts.names | _ => True) ∧
        (t.step known op).2.NoClash known ops

end BothTable

/-- The same call in a program and in the description of what it is expected to do. -/
inductive SameBoth {C D V : Type} (R : C → D → Prop) : BothOp C V → BothOp D V → Prop
  | data {op : FileOp C} {op' : FileOp D} (h : SameOp R op op') : SameBoth R (.data op) (.data op')
  | writeAtt (name : String) (ty : NcType) (value : List V) : SameBoth R (.writeAtt name ty value) (.writeAtt name ty value)
  | updateAtt (old new : String) (ty : NcType) (value : List V) :
      SameBoth R (.updateAtt old new ty value) (.updateAtt old new ty value)

/-- New attributes have one of the types for which there is an overload. -/
def BothTyped {C V : Type} : BothOp C V → Prop
  | .writeAtt _ ty _ => ty.stored = true
  | _ => True

/-- The call is for attributes. -/
def AttCall {V : Type} : AttOp V → Prop
  | .writeAtt .. | .updateAtt .. => True
  | _ => False

variable {α V : Type}

/-- A program that opens an existing file with attributes: its processes, the mode, the memory of its fields and the values
there, the attribute calls before it registers its collections, the calls afterwards (`sops`: in terms of values), and date
and time of closing. -/
structure BothUse (α V : Type) where
  ranks : List FileRank
  mode : OpenMode
  mem : Memory α
  cur : String → Values α
  pre : List (AttOp V)
  ops : List (BothOp (Memory α) V)
  sops : List (BothOp (String → Values α) V)
  date : List V
  time : List V

/-- The part of the program that concerns the data. -/
def BothUse.data (u : BothUse α V) : FileUse α := ⟨u.ranks, u.mode, u.mem, u.cur, dataOps u.ops, dataOps u.sops⟩

/-- The attributes when the collections have been registered. -/
def afterPre (t : AttTable V) (pre : List (AttOp V)) : AttTable V := { (t.run pre).2 with
  touched := (t.run pre).2.touched || (t.run pre).2.isNew, registered := true }

/-- The attributes that the program sees when it has opened the file. -/
def BothUse.attTable (u : BothUse α V) (atts : List (FileAtt V)) : AttTable V :=
  ⟨false, u.mode = .append, true, false, false, atts⟩

/-- What the program sees after it has registered its collections. -/
def BothUse.table (u : BothUse α V) (cell : Int → String → Option (Values α)) (nb : Int) (atts : List (FileAtt V)) :
    BothTable (Values α) V :=
  ⟨u.data.table cell nb, afterPre (u.attTable atts) u.pre⟩

/-- A program that can use a file with the data of `rs`.  Before it registers its collections it does not update
attributes. -/
structure BothUse.Ok (dom : List Int) (rs : List FileRank) (u : BothUse α V) : Prop where
  data : u.data.Ok dom rs
  colls : ∀ r ∈ u.ranks, r.colls ≠ []
  same : List.Forall₂ (SameBoth (ProgramHolds u.ranks)) u.ops u.sops
  pre : ∀ op ∈ u.pre, ∃ name ty value, op = .writeAtt name ty value ∧ ty.stored = true
  typed : ∀ op ∈ u.ops, BothTyped op

/-- The programs can use the file one after the other, when it has the values `cell` and the attributes `atts` before. -/
def BothUsesOk (dom : List Int) (rs : List FileRank) :
    (Int → String → Option (Values α)) → List (FileAtt V) → List (BothUse α V) → Prop
  | _, _, [] => True
  | cell, atts, u :: us => u.Ok dom rs ∧
      (u.mode = .append → ∀ r ∈ rs, ∀ e ∈ r.entries, ∀ l total, e.1 = some (l, total) →
        ∃ e' ∈ r.entries, e'.1 = some (l, total) ∧ HasCell cell e'.2.1) ∧
      ∀ nb, NbFrames cell nb → (u.table cell nb atts).data.NoGaps (storedNames rs) u.data.sops ∧
        (u.table cell nb atts).NoClash (storedNames rs) u.sops ∧
        let t := ((u.table cell nb atts).run (storedNames rs) u.sops).2
        (t.atts.closed u.date u.time).1 = true ∧ BothUsesOk dom rs t.data.cell (t.atts.closed u.date u.time).2 us

section
variable [Zero V] [DecidableEq V]

/-- The programs use the file one after the other; each finds what the ones before have left. -/
def runBothUses : FullDisk α V → List (BothUse α V) → List (Res (BothRun α V))
  | _, [] => []
  | d, u :: us =>
      match useBoth u.mode u.pre (u.ranks.map FileRank.colls) d u.mem u.ops u.date u.time with
      | .ok r => .ok r :: runBothUses r.full us
      | .throw e => .throw e :: runBothUses d us
      | .ub => .ub :: runBothUses d us

end

/-- Each program finds the file as the table of values and the list of attributes that the programs before have left: it
can open the file, all registrations succeed (`before`: on the side of the attributes), all calls succeed or fail as expected, its fields have the values that the
table gives, the attributes are those of the list, and it can close the file. -/
def BothBehave (names : List String) : (Int → String → Option (Values α)) → List (FileAtt V) → List (BothUse α V) →
    List (Res (BothRun α V)) → Prop
  | _, _, [], rs => rs = []
  | _, _, _ :: _, [] => False
  | cell, atts, u :: us, r :: rs => ∃ nb p, NbFrames cell nb ∧ r = .ok p ∧
      let t := (u.table cell nb atts).run names u.sops
      (∀ os ∈ p.registered, ∀ o ∈ os, o = .ok ()) ∧ (∃ k, List.Forall₂ Props.AsExpected p.before
          (((u.attTable atts).run u.pre).1 ++ List.replicate k true)) ∧ List.Forall₂ Props.AsExpected p.results t.1 ∧
        ProgramHolds u.ranks p.mem t.2.data.cur ∧ p.nbFrames = t.2.data.nb ∧ p.atts.names = t.2.atts.names ∧
        (∀ n, t.2.atts.Reads n (p.atts.readAtt n)) ∧ p.closed = .ok () ∧ p.full.atts = (t.2.atts.closed u.date u.time).2 ∧
        BothBehave names t.2.data.cell (t.2.atts.closed u.date u.time).2 us rs

end Verif
