import Verif.Model.FileSystem
import Verif.Spec.FileParts
/-
What programs with several files are expected to find: each file is a table, and a table that is not open stays as it is.
-/
namespace Verif
open Verif.NetCDF Verif.PyFile

variable {α : Type}

/-- A file that is not open: the fields for which it has been made, and its values. -/
structure ShutFile (α : Type) where
  made : List FileRank
  cell : Int → String → Option (Values α)

/-- A file that is open: the fields for which it has been made, those that the program uses, whether it can be written, the
number of frames, and its values. -/
structure OpenedFile (α : Type) where
  made : List FileRank
  ranks : List FileRank
  writable : Bool
  nb : Int
  cell : Int → String → Option (Values α)

/-- The program that runs (its processes with all their collections), the present values of its fields, the files that are
open and those that exist. -/
structure Tables (α : Type) where
  ranks : List FileRank
  cur : String → Values α
  opened : String → Option (OpenedFile α)
  shut : String → Option (ShutFile α)

/-- The number of frames of the values: 0 if there are none, else one more than the last frame with a value. -/
noncomputable def nbRows {V : Type} (cell : Int → String → Option V) : Int :=
  open Classical in if h : ∃ nb, NbFrames cell nb then h.choose else 0

/-- The open file as the table that the program sees. -/
def OpenedFile.table (o : OpenedFile α) (cur : String → Values α) : Table (Values α) := ⟨o.writable, o.nb, cur, o.cell⟩

/-- The file when it is closed. -/
def OpenedFile.shut (o : OpenedFile α) : ShutFile α := ⟨o.made, o.cell⟩

/-- The steps in terms of values. -/
abbrev TablesOp (α : Type) := FsOp (List FileRank × (String → Values α)) (String → Values α) (List FileRank)

/-- The file that is open after `open`, if there is one: a new file has no values; to make one with `Write` there must be
no such file; to read or append there must be one. -/
noncomputable def openedAs (mode : OpenMode) (rs : List FileRank) : Option (ShutFile α) → Option (OpenedFile α)
  | none => match mode with
      | .write | .overwrite => some ⟨rs, rs, true, 0, fun _ _ => none⟩
      | .read | .append => none
  | some f => match mode with
      | .write => none
      | .overwrite => some ⟨rs, rs, true, 0, fun _ _ => none⟩
      | .read => some ⟨f.made, rs, false, nbRows f.cell, f.cell⟩
      | .append => some ⟨f.made, rs, true, nbRows f.cell, f.cell⟩

/-- One step: whether it succeeds, and what there is afterwards. -/
noncomputable def Tables.step (s : Tables α) : TablesOp α → Bool × Tables α
  | .start p =>
      (true, ⟨p.1, p.2, fun _ => none, fun n => match s.opened n with | some o => some o.shut | none => s.shut n⟩)
  | .openFile name mode rs =>
      match openedAs mode rs (s.shut name) with
      | some o => (true, { s with opened := putAt s.opened name (some o) })
      | none => (false, s)
  | .close name =>
      match s.opened name with
      | some o => (true, { s with opened := putAt s.opened name none, shut := putAt s.shut name (some o.shut) })
      | none => (false, s)
  | .on name op =>
      match s.opened name with
      | some o =>
          let r := (o.table s.cur).step (storedNames o.ranks) (lift op)
          (r.1, { s with cur := r.2.cur, opened := putAt s.opened name (some { o with nb := r.2.nb, cell := r.2.cell }) })
      | none => (false, s)
  | .compute cur => (true, { s with cur := cur })

/-- A sequence of steps. -/
noncomputable def Tables.run : Tables α → List (TablesOp α) → List Bool × Tables α
  | s, [] => ([], s)
  | s, op :: ops =>
      let r := s.step op
      let q := r.2.run ops
      (r.1 :: q.1, q.2)

/-- No files and no program. -/
def Tables.empty (cur : String → Values α) : Tables α := ⟨[], cur, fun _ => none, fun _ => none⟩

/-- The names of the fields of each process are different, and so are those of its local collections. -/
def Distinct (rs : List FileRank) : Prop :=
  ∀ r ∈ rs, (r.entries.map fun e => e.2.1).Nodup ∧
    ∀ c ∈ r.colls, ∀ c' ∈ r.colls, c.kind ≠ none → c'.kind ≠ none → c.name = c'.name → c = c'

/-- The collections that are stored in a file are some of those that the program has. -/
def SomeOf (all rs : List FileRank) : Prop :=
  List.Forall₂ (fun r r' => r'.dom = r.dom ∧ ∀ c ∈ r'.colls, c ∈ r.colls) all rs

/-- The file can be opened: a new one with collections that can be stored together; an existing one with some of the fields
for which it has been made, on the same domain, and to append only if the local collections have been written. -/
def Opens (rs : List FileRank) (mode : OpenMode) : Option (ShutFile α) → Prop
  | none => mode = .write ∨ mode = .overwrite → (∃ dom, ProgramOk dom rs) ∧ Numbered rs
  | some f => (mode = .overwrite → (∃ dom, ProgramOk dom rs) ∧ Numbered rs) ∧
      (mode = .read ∨ mode = .append → ∃ dom, ProgramOk dom f.made ∧ ProgramOk dom rs ∧ PartData f.made rs) ∧
      (mode = .append → ∀ r' ∈ rs, ∀ e' ∈ r'.entries, ∀ l total, e'.1 = some (l, total) →
        ∀ r ∈ f.made, ∃ e ∈ r.entries, e.1 = some (l, total) ∧ HasCell f.cell e.2.1)

/-- The same step of a program and in terms of values, and the step is one that the program may take: no file is opened
twice at a time, calls are made on files that are open, and what is read has been written. -/
def Tables.Takes (s : Tables α) : FsOp (Memory α) (Memory α) (OpenArgs α) → TablesOp α → Prop
  | .start mem, .start p => ProgramHolds p.1 mem p.2 ∧ Distinct p.1
  | .openFile name mode a, .openFile name' mode' rs =>
      name' = name ∧ mode' = mode ∧ a.colls = rs.map FileRank.colls ∧ s.opened name = none ∧ SomeOf s.ranks rs ∧
        Opens rs mode (s.shut name)
  | .close name, .close name' => name' = name ∧ s.opened name ≠ none
  | .on name op, .on name' op' => name' = name ∧ op' = op ∧ ∃ o, s.opened name = some o ∧ NoLocalNames o.ranks op ∧
      (o.writable = false → RefusedBy o.ranks op) ∧ (o.table s.cur).ReadsFilled (storedNames o.ranks) (lift op)
  | .compute mem, .compute cur => ProgramHolds s.ranks mem cur
  | _, _ => False

/-- All steps are such. -/
def Tables.TakesAll : Tables α → List (FsOp (Memory α) (Memory α) (OpenArgs α)) → List (TablesOp α) → Prop
  | _, [], [] => True
  | s, op :: ops, sop :: sops => s.Takes op sop ∧ (s.step sop).2.TakesAll ops sops
  | _, _, _ => False

end Verif
