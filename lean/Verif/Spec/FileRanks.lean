import Verif.Spec.FileRegister
import Verif.Spec.FileProgram
import Verif.Model.FileJoin
/-
A program that stores collections in a file: what its processes have, and when this fits together.
-/
namespace Verif
open Verif.NetCDF Verif.Ccoord

/-- One process: extents of the domain, extents and location of its part, and its collections in the order of
registration. -/
structure FileRank where
  dom : List Int × List Int × List Int
  colls : List IoColl

namespace FileRank

/-- The pixels of the part. -/
def Here (r : FileRank) (g : List Int) : Prop := InBoxAt r.dom.2.1 r.dom.2.2 g

instance (r : FileRank) : DecidablePred r.Here := fun g => InBoxAt.dec _ _ g

/-- The number of pixels of the part. -/
def size (r : FileRank) : Nat := (getSize r.dom.2.1).toNat

/-- The pixel with an id: ids count column-major in the part. -/
def coord (r : FileRank) (id : Int) : List Int :=
  match getCcoord r.dom.2.1 r.dom.2.2 id with
  | .ok g => g
  | _ => []

/-- The ids of a local collection, the number of its pixels on all processes and on the processes before. -/
def localColl (r : FileRank) (l : String) : Option (List Int × Int × Int) :=
  r.colls.findSome? fun c => match c.domain with
    | .isLocal ids total off => if c.name = l then some (ids, total, off) else none
    | .global .. => none

/-- The ids of a local collection. -/
def ids (r : FileRank) (l : String) : List Int := ((r.localColl l).map Prod.fst).getD []

end FileRank

/-- The kind of a collection: for a local one its name and the number of its pixels on all processes. -/
def NetCDF.IoColl.kind (c : IoColl) : Option (String × Int) :=
  match c.domain with
  | .global .. => none
  | .isLocal _ total _ => some (c.name, total)

/-- What is stored: the kind of the collection, and name, field and history. -/
def FileRank.entries (r : FileRank) : List (Option (String × Int) × String × IoField × Option Nat) :=
  r.colls.flatMap fun c => c.toStore.map fun x => (c.kind, x)

/-- What must agree between processes, and between programs that use the same file: for each collection its kind, and
for each of its fields the name, history, sub-division, components, number of sub-points and type of the elements. -/
def NetCDF.IoColl.sig (c : IoColl) :
    Option (String × Int) × List (String × Option Nat × String × List Int × Int × Collection.ElemType) :=
  (c.kind, c.toStore.map fun x => (x.1, x.2.2, x.2.1.tag, x.2.1.layout.comps, x.2.1.layout.nbSub, x.2.1.ty))

/-- The processes of a program fit together: the parts make up the domain, all processes have the same collections and
fields, the fields live on the part of the process, and the pixels of local collections are in ascending order. -/
structure ProgramOk (dom : List Int) (rs : List FileRank) : Prop where
  nonempty : rs ≠ []
  domain : ∀ r ∈ rs, r.dom.1 = dom
  colls : ∀ r ∈ rs, CollsOk r.dom r.colls
  apart : rs.Pairwise fun r r' => ∀ g, r.Here g → ¬ r'.Here g
  cover : ∀ g, InBox dom g → ∃ r ∈ rs, r.Here g
  same : ∀ r ∈ rs, ∀ r' ∈ rs, r.colls.map IoColl.sig = r'.colls.map IoColl.sig
  global : ∀ r ∈ rs, ∀ c ∈ r.colls, ∀ nb sh loc, c.domain = .global nb sh loc → ∀ x ∈ c.toStore,
    x.2.1.layout.pixShape = r.dom.2.1 ∧ x.2.1.loc = r.dom.2.2
  isLocal : ∀ r ∈ rs, ∀ c ∈ r.colls, ∀ ids total off, c.domain = .isLocal ids total off →
    ids.Pairwise (· < ·) ∧ ∀ x ∈ c.toStore, x.2.1.layout.order = .colMajor ∨ x.2.1.layout.nbDof = 1

/-- The numbers that the communicator returns for the local collections (`C33`): the sum over all processes, and the sum
over those before. -/
def Numbered (rs : List FileRank) : Prop :=
  ∀ before r after, rs = before ++ r :: after → ∀ l ids (total off : Int), r.localColl l = some (ids, total, off) →
    off = (((before.map fun q => (q.ids l).length).sum : Nat) : Int) ∧
      total = (((rs.map fun q => (q.ids l).length).sum : Nat) : Int)

/-- A pixel belongs to the local collection. -/
def InLocal (rs : List FileRank) (l : String) (g : List Int) : Prop := ∃ r ∈ rs, ∃ id ∈ r.ids l, r.coord id = g

/-- The names of the variables that are not hidden. -/
def storedNames : List FileRank → List String
  | [] => []
  | r :: _ => r.entries.map fun e => e.2.1

/-- The names of the local collections. -/
def localNames : List FileRank → List String
  | [] => []
  | r :: _ => r.colls.flatMap fun c => match c.domain with | .global .. => [] | .isLocal .. => [c.name]

/-- Two programs store the same fields on the same domain, with the same pixels in their local collections; the
decomposition of the domain and the storage orders may differ. -/
structure SameData (rs rs' : List FileRank) : Prop where
  same : ∀ r ∈ rs, ∀ r' ∈ rs', r.colls.map IoColl.sig = r'.colls.map IoColl.sig
  pixels : ∀ l ∈ localNames rs, ∀ g, InLocal rs l g ↔ InLocal rs' l g

variable {α : Type}

/-- The pixel of the domain for the place of a field: the field of a global collection has the coordinates of the
pixel, the field of a local one the number of the pixel in the collection. -/
def FileRank.view (r : FileRank) : Option (String × Int) → List Int → List Int
  | none, g => g
  | some (l, _), g => r.coord ((r.ids l).getD (g.headD 0).toNat 0)

/-- The memory of the variable `n` on a process has the values. -/
def FileRank.Holds (r : FileRank) (n : String) (val : Values α) (m : ProcMem α) : Prop :=
  ∃ e ∈ r.entries, e.2.1 = n ∧ Props.PartHolds e.2.2.2 val e.2.2.1 (r.view e.1) m

/-- The memories of all processes have the values of all variables. -/
def ProgramHolds (rs : List FileRank) (mem : Memory α) (cur : String → Values α) : Prop :=
  ∀ n ∈ storedNames rs, List.Forall₂ (fun r m => r.Holds n (cur n) m) rs (mem n)

/-- The names that the program hands to `write` and `read` are not those of its local collections. -/
def NoLocalNames (rs : List FileRank) {C : Type} : FileOp C → Prop
  | .write _ names => ∀ n ∈ names, n ∉ localNames rs
  | .read _ names => ∀ n ∈ names, n ∉ localNames rs
  | _ => True

/-- If the operation writes, the field that comes first is not that of a local collection. -/
def RefusedBy (rs : List FileRank) {C : Type} (op : FileOp C) : Prop :=
  FirstNot (fun n => ∃ r ∈ rs, ∃ e ∈ r.entries, e.2.1 = n ∧ e.1 ≠ none) (storedNames rs) op

/-! ### Several programs, one after the other -/

/-- The number of frames of a table: no value at this frame or after it, and one in the last frame. -/
def NbFrames {V : Type} (cell : Int → String → Option V) (nb : Int) : Prop :=
  (∀ fr n v, cell fr n = some v → 0 ≤ fr ∧ fr < nb) ∧ (nb = 0 ∨ ∃ n v, cell (nb - 1) n = some v)

/-- A program that opens an existing file: its processes, the mode, the memory of its fields and the values there, and
what it does; `sops` is the same in terms of values. -/
structure FileUse (α : Type) where
  ranks : List FileRank
  mode : OpenMode
  mem : Memory α
  cur : String → Values α
  ops : List (FileOp (Memory α))
  sops : List (FileOp (String → Values α))

/-- The program is one that can use a file with the data of `rs`. -/
structure FileUse.Ok (dom : List Int) (rs : List FileRank) (u : FileUse α) : Prop where
  ok : ProgramOk dom u.ranks
  data : SameData rs u.ranks
  mode : u.mode = .read ∨ u.mode = .append
  mem : ProgramHolds u.ranks u.mem u.cur
  ops : List.Forall₂ (SameOp (ProgramHolds u.ranks)) u.ops u.sops
  names : ∀ op ∈ u.ops, NoLocalNames u.ranks op
  refused : u.mode = .read → ∀ op ∈ u.ops, RefusedBy u.ranks op

/-- What the program sees: a table with the values that have been written so far. -/
def FileUse.table (u : FileUse α) (cell : Int → String → Option (Values α)) (nb : Int) : Table (Values α) :=
  ⟨u.mode = .append, nb, u.cur, cell⟩

/-- The programs can use the file one after the other, when it has the values `cell` before: each reads only what has
been written, and one that adds to the file does so only if all local collections have been written. -/
def UsesOk (dom : List Int) (rs : List FileRank) : (Int → String → Option (Values α)) → List (FileUse α) → Prop
  | _, [] => True
  | cell, u :: us => u.Ok dom rs ∧
      (u.mode = .append → ∀ r ∈ rs, ∀ e ∈ r.entries, ∀ l total, e.1 = some (l, total) →
        ∃ e' ∈ r.entries, e'.1 = some (l, total) ∧ HasCell cell e'.2.1) ∧
      ∀ nb, NbFrames cell nb → (u.table cell nb).NoGaps (storedNames rs) u.sops ∧
        UsesOk dom rs ((u.table cell nb).run (storedNames rs) u.sops).2.cell us

/-- The programs use the file one after the other. -/
def runUses : Disk α → List (FileUse α) → List (ProgramRun α)
  | _, [] => []
  | d, u :: us =>
      let r := useFile u.mode (u.ranks.map FileRank.colls) d u.mem u.ops
      r :: runUses r.disk us

/-- Each program finds the file as a table with the values that have been written so far: all registrations succeed, all
calls succeed or fail as expected of the table, and the memory of its fields has the values that the table gives. -/
def Behaves (names : List String) :
    (Int → String → Option (Values α)) → List (FileUse α) → List (ProgramRun α) → Prop
  | _, [], rs => rs = []
  | _, _ :: _, [] => False
  | cell, u :: us, r :: rs => ∃ nb, NbFrames cell nb ∧
      let t := (u.table cell nb).run names u.sops
      (∀ os ∈ r.registered, ∀ o ∈ os, o = .ok ()) ∧ List.Forall₂ Props.AsExpected r.results t.1 ∧
        ProgramHolds u.ranks r.mem t.2.cur ∧ r.nbFrames = t.2.nb ∧ Behaves names t.2.cell us rs

end Verif
