import Verif.Lemmas.FileSystem
import Verif.Lemmas.FileReadOnly
import Verif.Lemmas.FileTable
/-
C100: several programs with several files.
-/
namespace Verif.Props
open Verif Verif.NetCDF
open Verif.PyFile (lift)

variable {α : Type}

/-- **C100** Programs run one after the other, and each opens and closes files as it likes, several at a time, makes new
ones, replaces some, and reads from one what it writes to another.  As long as no file is opened twice at a time and
what is read has been written, each file is a table of its own: all calls succeed or fail as expected of the tables, and
the fields have the values that the tables give. -/
theorem C100_files (cur : String → Values α) {ops : List (FsOp (Memory α) (Memory α) (OpenArgs α))} {sops : List (TablesOp α)}
    (h : (Tables.empty cur).TakesAll ops sops) :
    let w := FileSystem.empty.run ops
    let s := (Tables.empty cur).run sops
    List.Forall₂ AsExpected w.1 s.1 ∧ ProgramHolds s.2.ranks w.2.mem s.2.cur ∧
      ∀ f, s.2.opened f = none → (w.2.files f = none ↔ s.2.shut f = none) := by
  intro w s
  obtain ⟨h1, h2⟩ := (SystemIs.empty cur).run h
  refine ⟨h1, h2.mem, fun f hf => ?_⟩
  have := h2.files f hf
  show w.2.files f = none ↔ s.2.shut f = none
  cases hs : s.2.shut f with
  | none =>
    rw [show ((Tables.empty cur).run sops).2.shut f = none from hs] at this
    exact ⟨fun _ => rfl, fun _ => this⟩
  | some c =>
    rw [show ((Tables.empty cur).run sops).2.shut f = some c from hs] at this
    obtain ⟨d, hd, -⟩ := this
    rw [show w.2.files f = some d from hd]
    simp

theorem run_append (w : FileSystem α) (ops ops' : List (FsOp (Memory α) (Memory α) (OpenArgs α))) :
    w.run (ops ++ ops') = ((w.run ops).1 ++ ((w.run ops).2.run ops').1, ((w.run ops).2.run ops').2) := by
  induction ops generalizing w with
  | nil => rfl
  | cons op ops ih =>
    rw [List.cons_append, FileSystem.run, ih]
    rfl

/-- **C100** Whatever the programs have done, a program that then starts and reads a frame of a file that is not open finds
the values last written there, also if they were written by different programs, and whatever was done with other
files. -/
theorem C100_finds (cur : String → Values α) {ops : List (FsOp (Memory α) (Memory α) (OpenArgs α))} {sops : List (TablesOp α)}
    (h : (Tables.empty cur).TakesAll ops sops) {f : String} {c : ShutFile α}
    (hf : ((Tables.empty cur).run sops).2.shut f = some c) (hno : ((Tables.empty cur).run sops).2.opened f = none)
    {dom : List Int} {rs : List FileRank} (h1 : Verif.ProgramOk dom c.made) (h2 : Verif.ProgramOk dom rs) (hp : PartData c.made rs)
    (hd : Distinct rs) {mem : Memory α} {cur' : String → Values α} (hm : ProgramHolds rs mem cur') {a : OpenArgs α}
    (ha : a.colls = rs.map FileRank.colls) {fr : Int} {val : String → Values α}
    (hv : ∀ n ∈ storedNames rs, c.cell fr n = some (val n)) (hne : storedNames rs ≠ []) :
    let w := (FileSystem.empty.run ops).2.run [.start mem, .openFile f .read a, .on f (.readAll fr)]
    w.1 = [.ok (), .ok (), .ok ()] ∧ ProgramHolds rs w.2.mem val := by
  intro w
  obtain ⟨-, hi⟩ := (SystemIs.empty cur).run h
  generalize hS : ((Tables.empty cur).run sops).2 = S at hi hf hno
  -- the program starts
  have t1 : S.Takes (.start mem) (.start (rs, cur')) := ⟨hm, hd⟩
  obtain ⟨k1, hi1⟩ := hi.step t1
  generalize hS1 : (S.step (.start (rs, cur'))).2 = S1 at hi1
  have hsh : S1.shut f = some c := by
    rw [← hS1]
    simp only [Tables.step, hno, hf]
  have hop : S1.opened f = none := by rw [← hS1]; rfl
  have hr1 : S1.ranks = rs := by rw [← hS1]; rfl
  have hc1 : S1.cur = cur' := by rw [← hS1]; rfl
  -- opens
  have t2 : S1.Takes (.openFile f .read a) (.openFile f .read rs) := by
    refine ⟨rfl, rfl, ha, hop, ?_, ?_⟩
    · rw [hr1]
      exact List.forall₂_same.2 fun r _ => ⟨rfl, fun _ h => h⟩
    · rw [hsh]
      exact ⟨fun e => (by cases e), fun _ => ⟨dom, h1, h2, hp⟩, fun e => (by cases e)⟩
  obtain ⟨k2, hi2⟩ := hi1.step t2
  have e2 : S1.step (.openFile f .read rs) =
      (true, { S1 with opened := putAt S1.opened f (some ⟨c.made, rs, false, nbRows c.cell, c.cell⟩) }) := by
    simp only [Tables.step, hsh, openedAs]
  rw [e2] at k2 hi2
  -- reads
  obtain ⟨d, hdd, domf, modef, D, hok, hmo, hfile⟩ : ∃ d, (FileSystem.empty.run ops).2.files f = some d ∧ FileIs c d := by
    have := hi.files f hno
    rw [hf] at this
    exact this
  obtain ⟨n0, hn0⟩ := List.exists_mem_of_ne_nil _ hne
  have hb := hfile.nbFrames.1 _ _ _ (hv n0 hn0)
  have hnb : nbRows c.cell = d.data.numrecs := nbRows_eq hfile.nbFrames
  have hmf : meantFrame (nbRows c.cell) fr = some fr := by
    rw [hnb, meantFrame, if_pos hb]
  have t3 : ({ S1 with opened := putAt S1.opened f (some ⟨c.made, rs, false, nbRows c.cell, c.cell⟩) } : Tables α).Takes
      (.on f (.readAll fr)) (.on f (.readAll fr)) := by
    refine ⟨rfl, rfl, ⟨c.made, rs, false, nbRows c.cell, c.cell⟩, by simp [putAt], trivial, fun _ => trivial, ?_⟩
    intro n hn _
    show match meantFrame (nbRows c.cell) fr with
      | some fr => c.cell fr n ≠ none
      | none => HasCell c.cell n
    rw [hmf]
    show c.cell fr n ≠ none
    rw [hv n hn]
    simp
  obtain ⟨k3, hi3⟩ := hi2.step t3
  obtain ⟨cur2, g1, g2, -⟩ := Table.read_filled (known := storedNames rs) (frame := fr) (fr := fr) (val := val) (storedNames rs)
    ⟨false, nbRows c.cell, S1.cur, c.cell⟩ (fun _ h => h) hmf hv
  have e3 : (({ S1 with opened := putAt S1.opened f (some ⟨c.made, rs, false, nbRows c.cell, c.cell⟩) } : Tables α).step
      (.on f (.readAll fr))).1 = true ∧ (({ S1 with opened := putAt S1.opened f (some ⟨c.made, rs, false, nbRows c.cell, c.cell⟩) } : Tables α).step
      (.on f (.readAll fr))).2.cur = cur2 ∧ (({ S1 with opened := putAt S1.opened f (some ⟨c.made, rs, false, nbRows c.cell, c.cell⟩) } : Tables α).step
      (.on f (.readAll fr))).2.ranks = rs := by
    simp only [Tables.step, putAt, if_true, OpenedFile.table, lift, Table.step, g1]
    exact ⟨trivial, trivial, hr1⟩
  have hw1 : w.1 = [((FileSystem.empty.run ops).2.step (.start mem)).1,
      (((FileSystem.empty.run ops).2.step (.start mem)).2.step (.openFile f .read a)).1,
      ((((FileSystem.empty.run ops).2.step (.start mem)).2.step (.openFile f .read a)).2.step (.on f (.readAll fr))).1] := rfl
  have ok_of : ∀ {r : Res Unit}, AsExpected r true → r = .ok () := by
    intro r hr
    cases r with
    | ok u => rfl
    | throw e => obtain ⟨-, h⟩ := hr; cases h
    | ub => exact hr.elim
  refine ⟨?_, ?_⟩
  · rw [hw1, ok_of k1, ok_of k2]
    rw [e3.1] at k3
    rw [ok_of k3]
  · have := hi3.mem
    rw [e3.2.2, e3.2.1] at this
    intro n hn
    have hn' := this n hn
    rw [g2 n hn] at hn'
    exact hn'

/-! ### Programs that do anything -/

/-- The file that there is, or will be when the program that runs has ended. -/
def _root_.Verif.NetCDF.FileSystem.content (w : FileSystem α) (f : String) : Option (Disk α) :=
  match w.objs f with
  | some o => some o.disk
  | none => w.files f

/-- The step opens or closes the file, or is a call on it. -/
def _root_.Verif.NetCDF.FsOp.names {S M C : Type} : FsOp S M C → String → Prop
  | .openFile n _ _, f => n = f
  | .close n, f => n = f
  | .on n _, f => n = f
  | _, _ => False

/-- **C100** Whatever programs do, also wrong ones, a file that they do not name stays as it is. -/
theorem C100_others {f : String} (w : FileSystem α) (ops : List (FsOp (Memory α) (Memory α) (OpenArgs α)))
    (h : ∀ op ∈ ops, ¬ op.names f) : (w.run ops).2.content f = w.content f := by
  induction ops generalizing w with
  | nil => rfl
  | cons op ops ih =>
    refine (ih _ fun o ho => h o (by simp [ho])).trans ?_
    have hn := h op (by simp)
    cases op with
    | start mem => rfl
    | openFile n mode a =>
      have hn : ¬ f = n := fun e => hn e.symm
      simp only [FileSystem.step]
      split
      · rfl
      · split
        · simp only [FileSystem.content, putAt, if_neg hn]
        · rfl
        · rfl
    | close n =>
      have hn : ¬ f = n := fun e => hn e.symm
      simp only [FileSystem.step]
      split
      · rfl
      · simp only [FileSystem.content, putAt, if_neg hn]
    | on n op =>
      have hn : ¬ f = n := fun e => hn e.symm
      simp only [FileSystem.step]
      split
      · rfl
      · simp only [FileSystem.content, putAt, if_neg hn]
    | compute mem => rfl

/-- The file exists and is not open, or it is open for reading. -/
def ReadOnly (f : String) (d : Disk α) (w : FileSystem α) : Prop :=
  (w.objs f = none ∧ w.files f = some d) ∨ ∃ o, w.objs f = some o ∧ o.sess.mode = .read ∧ o.disk = d

/-- **C100** Whatever programs do, also wrong ones: a file that exists stays as it is as long as they open it only with
`Read` or `Write`.  (`Write` does not replace a file.) -/
theorem C100_read_only {f : String} {d : Disk α} {w : FileSystem α} (hw : w.objs f = none) (hd : w.files f = some d)
    (ops : List (FsOp (Memory α) (Memory α) (OpenArgs α)))
    (h : ∀ mode a, .openFile f mode a ∈ ops → (mode = .read ∧ a.colls ≠ []) ∨ mode = .write) :
    (w.run ops).2.content f = some d := by
  have key : ∀ (ops : List (FsOp (Memory α) (Memory α) (OpenArgs α))) (w : FileSystem α), ReadOnly f d w →
      (∀ mode a, .openFile f mode a ∈ ops → (mode = .read ∧ a.colls ≠ []) ∨ mode = .write) → ReadOnly f d (w.run ops).2 := by
    intro ops
    induction ops with
    | nil => exact fun w hw _ => hw
    | cons op ops ih =>
      intro w hw h
      refine ih _ ?_ fun m a hm => h m a (by simp [hm])
      cases op with
      | start mem =>
        left
        refine ⟨rfl, ?_⟩
        simp only [FileSystem.step]
        rcases hw with ⟨h1, h2⟩ | ⟨o, h1, -, h3⟩
        · rw [h1]; exact h2
        · rw [h1]; exact congrArg some h3
      | openFile n mode a =>
        by_cases hn : f = n
        · subst hn
          rcases hw with ⟨h1, h2⟩ | ⟨o, h1, h2⟩
          · rcases h mode a (by simp) with ⟨rfl, ha⟩ | rfl
            · right
              obtain ⟨k1, k2⟩ := reopen_readOnly ha d
              refine ⟨(FileObj.reopen .read a d).2, ?_, k1, k2⟩
              simp only [FileSystem.step, h1, h2, FileObj.open, putAt, if_true]
            · left
              simp only [FileSystem.step, h1, h2, FileObj.open]
              exact ⟨trivial, trivial⟩
          · right
            simp only [FileSystem.step, h1]
            exact ⟨o, rfl, h2⟩
        · have : ReadOnly f d (w.step (.openFile n mode a)).2 := by
            simp only [FileSystem.step]
            split
            · exact hw
            · split
              · simp only [ReadOnly, putAt, if_neg hn]
                exact hw
              · exact hw
              · exact hw
          exact this
      | close n =>
        by_cases hn : f = n
        · subst hn
          rcases hw with ⟨h1, h2⟩ | ⟨o, h1, h2, h3⟩
          · left
            simp only [FileSystem.step, h1]
            exact ⟨trivial, h2⟩
          · left
            simp only [FileSystem.step, h1, putAt, if_true]
            exact ⟨trivial, congrArg some h3⟩
        · have : ReadOnly f d (w.step (.close n)).2 := by
            simp only [FileSystem.step]
            split
            · exact hw
            · simp only [ReadOnly, putAt, if_neg hn]
              exact hw
          exact this
      | on n op =>
        by_cases hn : f = n
        · subst hn
          rcases hw with ⟨h1, h2⟩ | ⟨o, h1, h2, h3⟩
          · left
            simp only [FileSystem.step, h1]
            exact ⟨trivial, h2⟩
          · right
            obtain ⟨k1, k2⟩ := step_readOnly (w := ⟨o.sess, o.file, w.mem⟩) h2 (lift op)
            simp only [FileSystem.step, h1, putAt, if_true]
            refine ⟨_, rfl, k1, ?_⟩
            rw [FileObj.disk]
            dsimp only
            rw [k2]
            exact h3
        · have : ReadOnly f d (w.step (.on n op)).2 := by
            simp only [FileSystem.step]
            split
            · exact hw
            · simp only [ReadOnly, putAt, if_neg hn]
              exact hw
          exact this
      | compute mem => exact hw
  rcases key ops w (Or.inl ⟨hw, hd⟩) h with ⟨h1, h2⟩ | ⟨o, h1, -, h3⟩
  · rw [FileSystem.content, h1]; exact h2
  · rw [FileSystem.content, h1]; exact congrArg some h3

/-- **C100** The modes: `Write` refuses a file that exists; `Read` and `Append` refuse one that does not, and do not make
it; all three leave everything as it is when they refuse. -/
theorem C100_refuses (w : FileSystem α) {f : String} (hw : w.objs f = none) (a : OpenArgs α) :
    (w.files f ≠ none → w.step (.openFile f .write a) = (.throw .fileIOError, w)) ∧
      (w.files f = none → w.step (.openFile f .read a) = (.throw .fileIOError, w) ∧
        w.step (.openFile f .append a) = (.throw .fileIOError, w)) := by
  refine ⟨fun h => ?_, fun h => ?_⟩
  · obtain ⟨d, hd⟩ := Option.ne_none_iff_exists'.1 h
    simp only [FileSystem.step, hw, hd, FileObj.open]
  · simp only [FileSystem.step, hw, h, FileObj.open, and_self]

/-- The same objects and memory, and the same files but for those that are open. -/
def SameOutside (w w' : FileSystem α) : Prop :=
  w'.objs = w.objs ∧ w'.mem = w.mem ∧ ∀ g, w.objs g = none → w'.files g = w.files g

theorem SameOutside.step {w w' : FileSystem α} (h : SameOutside w w') (op : FsOp (Memory α) (Memory α) (OpenArgs α)) :
    (w'.step op).1 = (w.step op).1 ∧ SameOutside (w.step op).2 (w'.step op).2 := by
  obtain ⟨h1, h2, h3⟩ := h
  cases op with
  | start mem =>
    refine ⟨rfl, rfl, rfl, fun g _ => ?_⟩
    simp only [FileSystem.step, h1]
    cases hg : w.objs g with
    | none => exact h3 g hg
    | some o => rfl
  | openFile n mode a =>
    simp only [FileSystem.step, h1]
    cases hn : w.objs n with
    | some o => exact ⟨rfl, h1, h2, h3⟩
    | none =>
      dsimp only
      rw [h3 n hn]
      cases FileObj.open mode a (w.files n) with
      | ok r =>
        refine ⟨rfl, rfl, h2, fun g hg => h3 g ?_⟩
        by_cases e : g = n
        · rw [e]; exact hn
        · simp only [putAt, if_neg e] at hg
          exact hg
      | throw e => exact ⟨rfl, h1, h2, h3⟩
      | ub => exact ⟨rfl, h1, h2, h3⟩
  | close n =>
    simp only [FileSystem.step, h1]
    cases hn : w.objs n with
    | none => exact ⟨rfl, h1, h2, h3⟩
    | some o =>
      refine ⟨rfl, rfl, h2, fun g hg => ?_⟩
      by_cases e : g = n
      · simp only [putAt, if_pos e]
      · simp only [putAt, if_neg e] at hg ⊢
        exact h3 g hg
  | on n op =>
    simp only [FileSystem.step, h1]
    cases hn : w.objs n with
    | none => exact ⟨rfl, h1, h2, h3⟩
    | some o =>
      dsimp only
      rw [h2]
      refine ⟨rfl, rfl, rfl, fun g hg => h3 g ?_⟩
      by_cases e : g = n
      · simp [putAt, if_pos e] at hg
      · simp only [putAt, if_neg e] at hg
        exact hg
  | compute mem => exact ⟨rfl, h1, rfl, h3⟩

theorem SameOutside.run {w w' : FileSystem α} (h : SameOutside w w') (ops : List (FsOp (Memory α) (Memory α) (OpenArgs α))) :
    (w'.run ops).1 = (w.run ops).1 ∧ SameOutside (w.run ops).2 (w'.run ops).2 := by
  induction ops generalizing w w' with
  | nil => exact ⟨rfl, h⟩
  | cons op ops ih =>
    obtain ⟨k1, k2⟩ := h.step op
    obtain ⟨k3, k4⟩ := ih k2
    refine ⟨?_, k4⟩
    rw [FileSystem.run, FileSystem.run]
    dsimp only
    rw [k1, k3]

/-- **C100** After `Overwrite` it does not matter what the file had before, or whether there was one: everything that
programs do afterwards has the same outcomes and leaves the same memory and the same files. -/
theorem C100_overwrites (w w' : FileSystem α) {f : String} (hw : w.objs f = none) (hw' : w'.objs = w.objs)
    (hm : w'.mem = w.mem) (hf : ∀ g, g ≠ f → w'.files g = w.files g) (a : OpenArgs α)
    (ops : List (FsOp (Memory α) (Memory α) (OpenArgs α))) :
    let r := w.run (.openFile f .overwrite a :: ops)
    let r' := w'.run (.openFile f .overwrite a :: ops)
    r'.1 = r.1 ∧ r'.2.mem = r.2.mem ∧ r'.2.content = r.2.content := by
  intro r r'
  have e : (w'.step (.openFile f .overwrite a)).1 = (w.step (.openFile f .overwrite a)).1 ∧
      SameOutside (w.step (.openFile f .overwrite a)).2 (w'.step (.openFile f .overwrite a)).2 := by
    simp only [FileSystem.step, hw', hw, FileObj.open]
    refine ⟨trivial, rfl, hm, fun g hg => hf g ?_⟩
    rintro rfl
    simp [putAt] at hg
  obtain ⟨k1, k2, k3, k4⟩ := e.2.run ops
  refine ⟨?_, k3, ?_⟩
  · show (w'.step _).1 :: _ = (w.step _).1 :: _
    rw [e.1, k1]
  · funext g
    show FileSystem.content (((w'.step _).2).run ops).2 g = FileSystem.content (((w.step _).2).run ops).2 g
    rw [FileSystem.content, FileSystem.content, k2]
    cases hg : (((w.step (.openFile f .overwrite a)).2).run ops).2.objs g with
    | none => exact k4 g hg
    | some o => rfl

end Verif.Props
