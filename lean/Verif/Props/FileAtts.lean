import Verif.Lemmas.FileAtts
/-
Properties of the global attributes of files: C67.
-/
namespace Verif.Props
open Verif Verif.NetCDF Verif.NetCDFAtt

variable {V : Type}

/-- The full statement: the attributes of a file that was written and closed without an error are read back when it is
opened. -/
def C67_statement : Prop :=
  ∀ (v : AutoVals Int) (ops : List (AttOp Int)) (date time : List Int), (∀ op ∈ ops, Typed op) →
    let s := ((AttFile.create .write v).run ops).2
    (s.close date time).1 = .ok () →
      ∃ s', AttFile.openFile .read (s.close date time).2.file = .ok s' ∧ s'.names = s.names

/-- A new file, for all sequences of calls that rename no attribute to a name in use: each call succeeds or fails as
expected, the names and values are those of the table at any time, and closing succeeds exactly when expected and leaves
the attributes of the table in the file. -/
theorem C67_new_partial (mode : OpenMode) (hm : mode = .write ∨ mode = .overwrite) (v : AutoVals V) (ops : List (AttOp V))
    (hty : ∀ op ∈ ops, Typed op) (hnc : (AttTable.mk true true false false false v.atts).NoClash ops) (date time : List V) :
    let r := (AttFile.create mode v).run ops
    let t := (AttTable.mk true true false false false v.atts).run ops
    List.Forall₂ Meets r.1 t.1 ∧ r.2.names = t.2.names ∧ (∀ n, t.2.Reads n (r.2.readAtt n)) ∧
      Meets (r.2.close date time).1 (t.2.closed date time).1 ∧
      ((t.2.closed date time).1 = true →
        (r.2.close date time).2.file = (t.2.closed date time).2 ∧ AttsOk (t.2.closed date time).2) := by
  have hc : creating mode = true := by rcases hm with rfl | rfl <;> rfl
  obtain ⟨h1, h2, -⟩ := run_rel (seen := false) ops (create_rel mode hc v) hty hnc fun h => by cases h
  exact ⟨h1, names_eq h2, reads_rel h2, close_rel h2 date time⟩

/-- An existing file with at most 30 attributes, opened for reading or appending, for all sequences of calls that rename no
attribute to a name in use and in which collections are registered before attributes are updated: opening reads all
attributes, each call succeeds or fails as expected, the names and values are those of the table at any time, and closing
succeeds exactly when expected and leaves the attributes of the table in the file. -/
theorem C67_existing_partial [Zero V] [DecidableEq V] {file : List (FileAtt V)} (hf : AttsOk file) (hl : file.length ≤ 30)
    (u : AttUse V) (hm : u.mode = .read ∨ u.mode = .append) (hty : ∀ op ∈ u.ops, Typed op)
    (hnc : (u.table file).NoClash u.ops) (hord : Orderly false u.ops) :
    ∃ s, AttFile.openFile u.mode file = .ok s ∧ s.names = file.map FileAtt.name ∧
      (∀ n, (u.table file).Reads n (s.readAtt n)) ∧
      let r := s.run u.ops
      let t := (u.table file).run u.ops
      List.Forall₂ Meets r.1 t.1 ∧ r.2.names = t.2.names ∧ (∀ n, t.2.Reads n (r.2.readAtt n)) ∧
        Meets (r.2.close u.date u.time).1 (t.2.closed u.date u.time).1 ∧
        ((t.2.closed u.date u.time).1 = true →
          (r.2.close u.date u.time).2.file = (t.2.closed u.date u.time).2 ∧ AttsOk (t.2.closed u.date u.time).2) := by
  obtain ⟨s, h1, h2, h3, h4⟩ := open_rel hm hf hl
  obtain ⟨k1, k2, -⟩ := run_rel (seen := false) u.ops h4 hty hnc fun _ => ⟨hord, fun h => by rw [h3] at h; cases h⟩
  exact ⟨s, h1, names_eq h4, reads_rel h4, k1, names_eq k2, reads_rel k2, close_rel k2 u.date u.time⟩

/-- Closing succeeds if the program leaves the dates alone and the new ones are not longer than those in the file. -/
theorem C67_close (t : AttTable V) (ops : List (AttOp V)) (hk : ∀ op ∈ ops, KeepsDates op) (date time : List V)
    (hd : HasRoom t.entries "last_modified_date" date.length) (ht : HasRoom t.entries "last_modified_time" time.length) :
    ((t.run ops).2.closed date time).1 = true := by
  refine closed_room (hasRoom_run ops hd ?_) (hasRoom_run ops ht ?_)
  · rintro op ho old new ty v rfl
    exact (hk _ ho).1
  · rintro op ho old new ty v rfl
    exact (hk _ ho).2

theorem table_length_step (t : AttTable V) (op : AttOp V) (hn : t.isNew = false) :
    (t.step op).2.entries.length = t.entries.length := by
  cases op with
  | register => rfl
  | writeData => rw [AttTable.step]; split <;> rfl
  | writeAtt n ty v => rw [AttTable.step, if_neg (by simp [hn])]
  | updateAtt old new ty v =>
    rw [AttTable.step]
    split
    · split
      · exact List.length_map _
      · rfl
    · rfl

theorem table_length_run : ∀ (ops : List (AttOp V)) (t : AttTable V), t.isNew = false →
    (t.run ops).2.isNew = false ∧ (t.run ops).2.entries.length = t.entries.length
  | [], _, h => ⟨h, rfl⟩
  | op :: ops, t, h => by
    obtain ⟨h1, h2⟩ := table_length_run ops (t.step op).2 (by rw [isNew_step]; exact h)
    exact ⟨h1, h2.trans (table_length_step t op h)⟩

theorem table_length_after (u : AttUse V) (file : List (FileAtt V)) : (u.after file).length = file.length := by
  obtain ⟨h1, h2⟩ := table_length_run u.ops (u.table file) rfl
  rw [AttUse.after, AttTable.closed]
  split
  · dsimp only
    rw [table_length_step _ _ (by rw [isNew_step]; exact h1), table_length_step _ _ (by exact h1)]
    exact h2
  · exact h2

/-- The file after several uses, each of which opens it, makes calls and closes it; `none` if opening or closing fails. -/
def useAll [Zero V] [DecidableEq V] : List (FileAtt V) → List (AttUse V) → Option (List (FileAtt V))
  | file, [] => some file
  | file, u :: us =>
      match AttFile.openFile u.mode file with
      | .ok s =>
          match (s.run u.ops).2.close u.date u.time with
          | (.ok (), s') => useAll s'.file us
          | _ => none
      | _ => none

/-- Any number of uses of a file with at most 30 attributes: it has the expected attributes. -/
theorem C67_uses_partial [Zero V] [DecidableEq V] : ∀ (us : List (AttUse V)) {file : List (FileAtt V)}, AttsOk file →
    file.length ≤ 30 → AttUsesOk file us → useAll file us = some (afterUses file us)
  | [], _, _, _, _ => rfl
  | u :: us, file, hf, hl, ⟨h, hs⟩ => by
    obtain ⟨s, h1, -, -, -, -, -, h2, h3⟩ := C67_existing_partial hf hl u h.mode h.typed h.noClash h.orderly
    obtain ⟨h4, h5⟩ := h3 h.closes
    rw [h.closes] at h2
    rw [useAll, h1]
    simp only
    rcases hc : (s.run u.ops).2.close u.date u.time with ⟨o, s'⟩
    rw [hc] at h2 h4
    have h2' : o = .ok () := h2
    subst h2'
    have h4' : s'.file = u.after file := h4
    simp only [h4']
    exact C67_uses_partial us h5 (by rw [table_length_after]; exact hl) hs

instance (op : AttOp V) : Decidable (Typed op) := by cases op <;> unfold Typed <;> infer_instance

instance (op : AttOp V) : Decidable (KeepsDates op) := by cases op <;> unfold KeepsDates <;> infer_instance

instance decNoClash : ∀ (ops : List (AttOp V)) (t : AttTable V), Decidable (t.NoClash ops)
  | [], _ => isTrue trivial
  | op :: ops, t => by
    have := decNoClash ops (t.step op).2
    unfold AttTable.NoClash
    cases op <;> infer_instance

instance decOrderly : ∀ (ops : List (AttOp V)) (seen : Bool), Decidable (Orderly seen ops)
  | [], _ => isTrue trivial
  | op :: ops, seen => by
    have h1 := decOrderly ops true
    have h2 := decOrderly ops seen
    cases op <;> unfold Orderly <;> infer_instance

/-- Only the first 30 attributes of a file are read, whatever is in it. -/
theorem C67_limit [Zero V] [DecidableEq V] {file : List (FileAtt V)} (hf : AttsOk file) (mode : OpenMode) :
    ∃ s, AttFile.openFile mode file = .ok s ∧ s.names = (file.map FileAtt.name).take 30 := by
  refine ⟨_, openFile_eq hf, ?_⟩
  rw [AttFile.names, List.map_map, ← List.map_take]
  rfl

/-- A program that writes 23 attributes; there are 8 others. -/
def manyAtts : List (AttOp Int) := (List.range 23).map fun i => .writeAtt (String.ofList (List.replicate (i + 1) 'a')) .int [i]

/-- The values in the examples. -/
def attVals : AutoVals Int := ⟨[1, 6], [7, 3], [4], [5], [6], [0]⟩

/-- Counterexample: the last of 31 attributes cannot be read back. -/
theorem C67_false : ¬ C67_statement := by
  intro h
  obtain ⟨s1, h1, h2⟩ := h attVals manyAtts [1, 6] [7, 3] (by decide +kernel) (by decide +kernel)
  obtain ⟨s2, k1, k2⟩ := C67_limit (file := (((AttFile.create .write attVals).run manyAtts).2.close [1, 6] [7, 3]).2.file)
    ⟨by decide +kernel, by decide +kernel⟩ .read
  have hs : s1 = s2 := Res.ok.inj (h1.symm.trans k1)
  rw [hs, k2] at h2
  exact absurd (congrArg List.length h2) (by decide +kernel)

/-- In append mode, an attempt to update an attribute before a collection is registered has the effect that no data can be
written afterwards; in the other order data can be written. -/
theorem C67_append_blocked [Zero V] [DecidableEq V] {file : List (FileAtt V)} (hf : AttsOk file) (old new : String)
    (ty : NcType) (v : List V) :
    ∃ s, AttFile.openFile .append file = .ok s ∧
      (s.run [.updateAtt old new ty v, .register, .writeData]).1.tail = [.ok (), .throw .fileIOError] ∧
      (s.run [.register, .updateAtt old new ty v, .writeData]).1.getLast? = some (.ok ()) := by
  refine ⟨_, openFile_eq hf, ?_⟩
  generalize (file.take 30).map (fun f => (⟨⟨f.name, f.ty, f.value.length, f.value, true⟩, true⟩ : GAtt V)) = atts
  constructor
  · have h := updateAtt_modes (s := ⟨.append, atts, false, .define, false, false, file, false⟩) (by simp) rfl old new ty v
    simp only [AttFile.run, AttFile.step]
    generalize (AttFile.updateAtt _ old new ty v) = p at h ⊢
    obtain ⟨o, s⟩ := p
    obtain ⟨h1, h2, h3, h4⟩ := h
    simp only at h1 h2 h3 h4
    simp [AttFile.registerColl, AttFile.redef, h1, h2, AttFile.andThen, h3, creating, AttFile.writeData, AttFile.saveCall]
  · have h := updateAtt_modes (s := ⟨.append, atts, false, .define, false, false, file, true⟩) (by simp) rfl old new ty v
    have hr : AttFile.registerColl ⟨.append, atts, false, .define, false, false, file, false⟩ =
        (.ok (), ⟨.append, atts, false, .define, false, false, file, true⟩) := rfl
    simp only [AttFile.run, AttFile.step, hr]
    generalize (AttFile.updateAtt _ old new ty v) = p at h ⊢
    obtain ⟨o, s⟩ := p
    obtain ⟨h1, h2, h3, h4⟩ := h
    simp only at h1 h2 h3 h4
    simp [AttFile.andThen, h2, h3, h4, creating, AttFile.writeData, AttFile.saveCall]

/-- A file of another program, which has no attribute for the date of the last change: data can be written, but closing
the file throws (and terminates the program when the destructor does it). -/
theorem C67_foreign [Zero V] [DecidableEq V] {file : List (FileAtt V)} (hf : AttsOk file) (hl : file.length ≤ 30)
    (hn : "last_modified_date" ∉ file.map FileAtt.name) (date time : List V) :
    ∃ s, AttFile.openFile .append file = .ok s ∧ (s.run [.register, .writeData]).1 = [.ok (), .ok ()] ∧
      ((s.run [.register, .writeData]).2.close date time).1 = .throw .fileIOError := by
  obtain ⟨s, h1, -, -, h2, -, -, h3, -⟩ := C67_existing_partial hf hl ⟨.append, [.register, .writeData], date, time⟩ (.inr rfl)
    (by simp [Typed]) (by simp [AttTable.NoClash]) (by simp [Orderly])
  refine ⟨s, h1, ?_, ?_⟩
  · have : ((AttUse.mk .append [.register, .writeData] date time).table file).run [.register, .writeData] =
      ([true, true], ⟨false, true, true, true, true, file⟩) := by simp [AttTable.run, AttTable.step, AttUse.table]
    rw [this] at h2
    generalize (s.run [.register, .writeData]).1 = l at h2
    cases h2 with
    | cons a b => cases b with
      | cons b c => cases c; rw [a, b]; rfl
  · have : (((AttUse.mk .append [.register, .writeData] date time).table file).run [.register, .writeData]).2 =
      ⟨false, true, true, true, true, file⟩ := by simp [AttTable.run, AttTable.step, AttUse.table]
    rw [this, AttTable.closed, if_pos ⟨rfl, rfl⟩] at h3
    have hf : file.find? (fun e => e.name = "last_modified_date") = none := find_none hn
    simp only [AttTable.step, hf, Bool.false_and] at h3
    exact h3

/-- The program in the examples: three attributes, a collection, data, a changed value, a changed name, and three calls
that fail. -/
def attOps : List (AttOp Int) :=
  [.writeAtt "author" .char [3, 4, 5], .writeAtt "steps" .int [100], .writeAtt "author" .char [9],
    .updateAtt "steps" "steps" .int [101], .register, .writeData, .writeAtt "late" .int [1],
    .updateAtt "steps" "step" .int [7], .updateAtt "author" "author" .char [8, 8], .updateAtt "author" "author" .int [8]]

example : (∀ op ∈ attOps, Typed op) ∧ (AttTable.mk true true false false false attVals.atts).NoClash attOps ∧
    ∀ op ∈ attOps, KeepsDates op := by decide +kernel

/-- What the program does and what the file is like afterwards, by evaluation. -/
theorem C67_example :
    ((AttFile.create .write attVals).run attOps).1 =
      [.ok (), .ok (), .throw .fileIOError, .throw .fileIOError, .ok (), .ok (), .throw .fileIOError, .ok (), .ok (),
        .throw .fileIOError] ∧
    ((((AttFile.create .write attVals).run attOps).2.close [2, 6] [9, 3]).2.file.map fun f => (f.name, f.value)) =
      [("creation_date", [1, 6]), ("creation_time", [7, 3]), ("last_modified_date", [2, 6]), ("last_modified_time", [9, 3]),
        ("muGrid_version_info", [4]), ("muGrid_git_hash", [5]), ("muGrid_description", [6]), ("muGrid_git_branch_is_dirty", [0]),
        ("author", [8, 8]), ("step", [7])] := by decide +kernel

/-- The file of the examples. -/
def attFile : List (FileAtt Int) := (((AttFile.create .write attVals).run attOps).2.close [2, 6] [9, 3]).2.file

/-- Uses of the file: one that reads, and one that appends data and renames an attribute. -/
def attUses : List (AttUse Int) :=
  [⟨.read, [.register, .updateAtt "step" "st" .int [8]], [3, 6], [1, 1]⟩,
    ⟨.append, [.register, .writeData, .updateAtt "step" "st" .int [8]], [4, 6], [2, 2]⟩]

example : AttsOk attFile ∧ attFile.length ≤ 30 :=
  ⟨⟨by decide +kernel, by decide +kernel⟩, by decide +kernel⟩

example : AttUsesOk attFile attUses :=
  ⟨⟨by decide +kernel, by decide +kernel, by decide +kernel, by decide +kernel, by decide +kernel⟩,
    ⟨by decide +kernel, by decide +kernel, by decide +kernel, by decide +kernel, by decide +kernel⟩, trivial⟩

example : (afterUses attFile attUses).map (fun f => (f.name, f.value)) =
    [("creation_date", [1, 6]), ("creation_time", [7, 3]), ("last_modified_date", [4, 6]), ("last_modified_time", [2, 2]),
      ("muGrid_version_info", [4]), ("muGrid_git_hash", [5]), ("muGrid_description", [6]), ("muGrid_git_branch_is_dirty", [0]),
      ("author", [8, 8]), ("st", [8])] := by decide +kernel

example : HasRoom attVals.atts "last_modified_date" 2 ∧ HasRoom attVals.atts "last_modified_time" 2 :=
  ⟨⟨_, rfl, by decide⟩, ⟨_, rfl, by decide⟩⟩

example : AttsOk [(⟨"title", .char, [1, 2]⟩ : FileAtt Int)] := ⟨by decide, by decide⟩

/-- Renaming an attribute to a name in use throws, but the object then has two attributes of this name, and the file
still has the old one. -/
theorem C67_clash :
    let ops : List (AttOp Int) := [.writeAtt "aa" .int [1], .writeAtt "bb" .int [2], .register, .writeData]
    let s := ((AttFile.create .write attVals).run ops).2
    let r := s.updateAtt "aa" "bb" .int [3]
    r.1 = .throw .fileIOError ∧ r.2.names.count "bb" = 2 ∧ r.2.readAtt "aa" = .throw .fileIOError ∧
      (⟨"aa", .int, [1]⟩ : FileAtt Int) ∈ r.2.file := by decide +kernel

/-- If the date of the last change is replaced by a shorter text, closing the file throws. -/
theorem C67_close_fails :
    let ops : List (AttOp Int) := [.register, .writeData, .updateAtt "last_modified_date" "last_modified_date" .char [5]]
    let r := (AttFile.create .write attVals).run ops
    r.1 = [.ok (), .ok (), .ok ()] ∧ (r.2.close [2, 6] [9, 3]).1 = .throw .fileIOError := by decide +kernel

end Verif.Props
