import Verif.Lemmas.FileHandles
import Verif.Props.FileSystemEx
/-
**C103** File objects, the files they are for, and calls after `close`.
-/
namespace Verif.Props
open Verif Verif.FileIO Verif.NetCDF
open Verif.PyFile (lift)

variable {α : Type}

/-- **C103** An object reaches its own file and no other, however the library chooses its handles and uses them again: programs with
any number of objects, opened, closed, destroyed and used in any order, have the outcomes, the files and the memory of objects that
are tied to the names of their files.  Calls on closed objects change nothing, and return or throw `FileIOError`. -/
theorem C103_objects {fresh : List Int → Int} (hf : GivesFresh fresh) (ops : List (ObjOp (Memory α) (Memory α) (OpenArgs α))) :
    let w := HandleSystem.empty.run fresh ops
    let s := NamedSystem.empty.run ops
    List.Forall₂ OutcomeIs w.1 s.1 ∧ w.2.files = s.2.fs.files ∧ w.2.mem = s.2.fs.mem := by
  intro w s
  obtain ⟨h1, h2⟩ := Handled.empty.run hf ops
  exact ⟨h1, h2.files.symm, h2.mem.symm⟩

theorem fileSteps_run (ops : List (ObjOp (Memory α) (Memory α) (OpenArgs α))) : ∀ {s : NamedSystem α} {rs : List (Res Unit)}, s.Fits ops →
    List.Forall₂ OutcomeIs rs (s.run ops).1 →
      pickSome rs (s.fileSteps ops) = (s.fs.run ((s.fileSteps ops).filterMap id)).1 ∧
        (s.run ops).2.fs = (s.fs.run ((s.fileSteps ops).filterMap id)).2 := by
  induction ops with
  | nil =>
    intro s rs _ hr
    cases hr
    exact ⟨rfl, rfl⟩
  | cons op ops ih =>
    intro s rs hfit hr
    obtain ⟨h1, h2⟩ := hfit
    cases hr with
    | @cons r _ rs' _ hr1 hr2 =>
    obtain ⟨i1, i2⟩ := ih h2 hr2
    rw [NamedSystem.fileSteps]
    have key : (∃ p, s.fileStep op = some p ∧ (s.step op).1 = some (s.fs.step p).1 ∧ (s.step op).2.fs = (s.fs.step p).2) ∨
        (s.fileStep op = none ∧ (s.step op).2.fs = s.fs) := by
      cases op with
      | start mem => exact Or.inl ⟨_, rfl, rfl, rfl⟩
      | compute mem => exact Or.inl ⟨_, rfl, rfl, rfl⟩
      | openFile k name mode a =>
        refine Or.inl ⟨_, rfl, ?_⟩
        simp only [NamedSystem.step, h1.1, h1.2]
        exact ⟨rfl, rfl⟩
      | close k =>
        simp only [NamedSystem.fileStep, NamedSystem.step]
        cases hk : s.objs k with
        | none => exact absurd hk h1
        | some v =>
          cases v with
          | none => exact Or.inr ⟨rfl, rfl⟩
          | some name => exact Or.inl ⟨_, rfl, rfl, rfl⟩
      | drop k =>
        simp only [NamedSystem.fileStep, NamedSystem.step]
        cases hk : s.objs k with
        | none => exact absurd hk h1
        | some v =>
          cases v with
          | none => exact Or.inr ⟨rfl, rfl⟩
          | some name => exact Or.inl ⟨_, rfl, rfl, rfl⟩
      | on k op =>
        simp only [NamedSystem.fileStep, NamedSystem.step]
        cases hk : s.objs k with
        | none => exact absurd hk h1
        | some v =>
          cases v with
          | none => exact Or.inr ⟨rfl, rfl⟩
          | some name => exact Or.inl ⟨_, rfl, rfl, rfl⟩
    rcases key with ⟨p, k1, k2, k3⟩ | ⟨k1, k2⟩
    · rw [k1]
      rw [k2] at hr1
      rw [k3] at i1 i2
      have hr1' : r = (s.fs.step p).1 := hr1
      exact ⟨congrArg₂ List.cons hr1' i1, i2⟩
    · rw [k1]
      rw [k2] at i1 i2
      exact ⟨i1, i2⟩

/-- **C103** With C100: every file is a table of its own.  The calls on objects that are open succeed and fail as expected of the
tables, and the fields have the values that the tables give, whatever is called on closed objects in between. -/
theorem C103_files {fresh : List Int → Int} (hf : GivesFresh fresh) (cur : String → Values α)
    {ops : List (ObjOp (Memory α) (Memory α) (OpenArgs α))} {sops : List (TablesOp α)} (hfit : NamedSystem.empty.Fits ops)
    (h : (Tables.empty cur).TakesAll ((NamedSystem.empty.fileSteps ops).filterMap id) sops) :
    let w := HandleSystem.empty.run fresh ops
    let s := (Tables.empty cur).run sops
    List.Forall₂ AsExpected (pickSome w.1 (NamedSystem.empty.fileSteps ops)) s.1 ∧ ProgramHolds s.2.ranks w.2.mem s.2.cur ∧
      ∀ f, s.2.opened f = none → (w.2.files f = none ↔ s.2.shut f = none) := by
  intro w s
  obtain ⟨h1, h2, h3⟩ := C103_objects hf ops
  obtain ⟨k1, k2⟩ := fileSteps_run ops hfit h1
  obtain ⟨t1, t2, t3⟩ := C100_files cur h
  have e1 : NamedSystem.empty.fs = (FileSystem.empty : FileSystem α) := rfl
  rw [e1] at k1 k2
  refine ⟨by rw [k1]; exact t1, ?_, ?_⟩
  · show ProgramHolds s.2.ranks (HandleSystem.empty.run fresh ops).2.mem s.2.cur
    rw [h3, k2]; exact t2
  · intro f hf'
    show (HandleSystem.empty.run fresh ops).2.files f = none ↔ _
    rw [h2, k2]; exact t3 f hf'

/-! ### What calls on a closed object return -/

/-- A field of a local collection for which no request is made: all entries of the pixels are -1. -/
def SilentWrite (s : Sess) (frame : Int) (n : String) : Prop :=
  ∃ x, s.find n = some x ∧ x.localName.isSome ∧ s.closedEntriesForWrite x = .ok () ∧ s.asksNothing x = true ∧
    ∃ fr, varFrame s.nbFrames frame = .ok fr

theorem refusedTransfer_ok {s : Sess} {x : SessVar} {frame : Int} :
    s.refusedTransfer x frame = .ok () ↔ s.asksNothing x = true ∧ ∃ fr, varFrame s.nbFrames frame = .ok fr := by
  unfold Sess.refusedTransfer
  cases hv : varFrame s.nbFrames frame with
  | ok fr =>
    rw [Res.ok_bind]
    by_cases h : s.asksNothing x = true
    · simp [h]
    · simp [h]
  | throw e => simp
  | ub => simp

/-- **C103** Exactly when `write` on a closed object returns normally: no request is made for any of the fields. -/
theorem C103_write_returns {s : Sess} {frame : Int} {ns : List String} :
    s.closedWrite frame ns = .ok () ↔ ∀ n ∈ ns, SilentWrite s frame n := by
  induction ns with
  | nil => simp [Sess.closedWrite]
  | cons n ns ih =>
    rw [Sess.closedWrite, List.forall_mem_cons, ← ih]
    cases hn : s.find n with
    | none => simp [SilentWrite, hn]
    | some x =>
      dsimp only
      rw [Res.bind_eq_ok]
      constructor
      · rintro ⟨u, h1, h2⟩
        rw [Res.bind_eq_ok] at h2
        obtain ⟨u', h2, h3⟩ := h2
        obtain ⟨h4, h5⟩ := refusedTransfer_ok.1 h2
        refine ⟨⟨x, hn, ?_, h1, h4, h5⟩, h3⟩
        unfold Sess.asksNothing at h4
        rw [Bool.and_eq_true] at h4
        exact h4.1
      · rintro ⟨⟨x', e, -, h1, h4, h5⟩, h3⟩
        rw [hn] at e
        cases e
        refine ⟨(), h1, ?_⟩
        rw [Res.bind_eq_ok]
        exact ⟨(), refusedTransfer_ok.2 ⟨h4, h5⟩, h3⟩

/-- **C103** `write` on a closed object throws `FileIOError` as soon as it comes to a name that is not that of a field of a local
collection.  So does `read`, and it throws for a field of a local collection that has not been read before. -/
theorem C103_throws_partial {fresh : List Int → Int} (hf : GivesFresh fresh)
    (ops : List (ObjOp (Memory α) (Memory α) (OpenArgs α))) (k : Nat) (hk : (NamedSystem.empty.run ops).2.objs k = some none) :
    ∃ o, (HandleSystem.empty.run fresh ops).2.objs k = some o ∧ ∀ (frame : Int) (ns : List String),
      (∀ n ∈ ns, (∀ x, o.sess.find n = some x → x.localName = none) →
        ((HandleSystem.empty.run fresh ops).2.step fresh (.on k (.write frame ns))).1 = .throw .fileIOError ∧
        ((HandleSystem.empty.run fresh ops).2.step fresh (.on k (.read frame ns))).1 = .throw .fileIOError) ∧
      (∀ n ∈ ns, (∀ x, o.sess.find n = some x → ∀ l, x.localName = some l → l ∉ o.sess.readIn) →
        ((HandleSystem.empty.run fresh ops).2.step fresh (.on k (.read frame ns))).1 = .throw .fileIOError) := by
  obtain ⟨-, hs⟩ := Handled.empty.run hf ops
  obtain ⟨o, h1, h2⟩ := hs.closedObj k hk
  have hread : ∀ (frame : Int) (ns : List String), o.sess.closedRead frame ns = .ok () →
      ∀ n ∈ ns, ∃ x l, o.sess.find n = some x ∧ x.localName = some l ∧ l ∈ o.sess.readIn := by
    intro frame ns
    induction ns with
    | nil => simp
    | cons n ns ih =>
      rw [Sess.closedRead, List.forall_mem_cons]
      cases hn : o.sess.find n with
      | none => simp
      | some x =>
        dsimp only
        intro h
        rw [Res.bind_eq_ok] at h
        obtain ⟨u, h3, h⟩ := h
        rw [Res.bind_eq_ok] at h
        obtain ⟨u', h4, h⟩ := h
        refine ⟨?_, ih h⟩
        obtain ⟨h5, -⟩ := refusedTransfer_ok.1 h4
        unfold Sess.asksNothing at h5
        rw [Bool.and_eq_true] at h5
        obtain ⟨l, hl⟩ := Option.isSome_iff_exists.1 h5.1
        refine ⟨x, l, rfl, hl, ?_⟩
        unfold Sess.closedEntriesForRead at h3
        rw [hl] at h3
        by_contra hc
        simp [hc] at h3
  have hw : ∀ frame ns, ((HandleSystem.empty.run fresh ops).2.step fresh (.on k (.write frame ns))).1 = o.sess.closedWrite frame ns := by
    intro frame ns
    simp only [HandleSystem.step, h1, h2, lookup_neg hs.nonneg]
    rfl
  have hr : ∀ frame ns, ((HandleSystem.empty.run fresh ops).2.step fresh (.on k (.read frame ns))).1 = o.sess.closedRead frame ns := by
    intro frame ns
    simp only [HandleSystem.step, h1, h2, lookup_neg hs.nonneg]
    rfl
  refine ⟨o, h1, fun frame ns => ⟨fun n hn hx => ⟨?_, ?_⟩, fun n hn hx => ?_⟩⟩
  · rw [hw]
    rcases closedWrite_cases o.sess frame ns with h | h
    · obtain ⟨x, e1, e2, -⟩ := C103_write_returns.1 h n hn
      rw [hx x e1] at e2
      cases e2
    · exact h
  · rw [hr]
    rcases closedRead_cases o.sess frame ns with h | h
    · obtain ⟨x, l, e1, e2, -⟩ := hread frame ns h n hn
      rw [hx x e1] at e2
      cases e2
    · exact h
  · rw [hr]
    rcases closedRead_cases o.sess frame ns with h | h
    · obtain ⟨x, l, e1, e2, e3⟩ := hread frame ns h n hn
      exact absurd e3 (hx x e1 l e2)
    · exact h

/-! ### An example -/

/-- The first id from 0 on that is not in use. -/
def firstFree (ids : List Int) : Int :=
  (((List.range (ids.length + 1)).map fun n : Nat => (n : Int)).find? fun i => i ∉ ids).getD 0

theorem firstFree_fresh : GivesFresh firstFree := by
  intro ids
  have hex : ∃ i ∈ (List.range (ids.length + 1)).map (fun n : Nat => (n : Int)), i ∉ ids := by
    by_contra hc
    push Not at hc
    have hnd : ((List.range (ids.length + 1)).map fun n : Nat => (n : Int)).Nodup :=
      List.nodup_range.map fun a b h => by simpa using h
    have := (hnd.subperm hc).length_le
    simp at this
  unfold firstFree
  cases hfind : ((List.range (ids.length + 1)).map fun n : Nat => (n : Int)).find? fun i => i ∉ ids with
  | none =>
    rw [List.find?_eq_none] at hfind
    obtain ⟨i, hi, hn⟩ := hex
    exact absurd (by simpa using hn) (hfind i hi)
  | some i =>
    have h1 := List.mem_of_find?_eq_some hfind
    have h2 := List.find?_some hfind
    obtain ⟨n, -, rfl⟩ := List.mem_map.1 h1
    exact ⟨Int.natCast_nonneg n, by simpa using h2⟩

open FilesEx in
/-- The steps of `exSteps` with objects.  Object 0 is used after it has been closed, when its handle belongs to the file of object 1. -/
def exObjSteps : List (ObjOp (Memory Int) (Memory Int) (OpenArgs Int)) :=
  [.start (exMem 5), .openFile 0 "a" .write (exArgs exRanks), .on 0 .appendFrame, .on 0 (.writeAll 0), .close 0,
    .compute (exMem 1000), .openFile 1 "b" .overwrite (exArgs exRanks), .on 1 .appendFrame, .on 0 (.writeAll 0), .on 1 (.writeAll 0),
    .on 0 .appendFrame, .close 0, .on 0 (.read 0 ["T"]),
    .start (exMem' 0), .openFile 0 "a" .write (exArgs exRanks'), .openFile 0 "c" .read (exArgs exRanks'),
    .openFile 0 "a" .read (exArgs [exGlob]), .openFile 1 "b" .append (exArgs exRanks'), .on 0 (.readAll 0),
    .on 1 .appendFrame, .on 1 (.writeAll (-1)), .on 0 (.writeAll 0), .close 1, .on 1 (.readAll 0), .drop 1]

open FilesEx in
theorem exObj_files : (NamedSystem.empty.fileSteps exObjSteps).filterMap id = exSteps := by
  with_unfolding_all rfl

open FilesEx in
theorem exObj_fits : NamedSystem.empty.Fits exObjSteps := by
  refine ⟨trivial, ⟨rfl, rfl⟩, ?_, ?_, ?_, trivial, ⟨?_, ?_⟩, ?_, ?_, ?_, ?_, ?_, ?_, trivial, ⟨?_, ?_⟩, ⟨?_, ?_⟩, ⟨?_, ?_⟩, ⟨?_, ?_⟩,
    ?_, ?_, ?_, ?_, ?_, ?_, ?_, trivial⟩ <;> first | (with_unfolding_all rfl) | (intro h; cases h)

open FilesEx in
example : (HandleSystem.empty.run firstFree exObjSteps).1 =
    [.ok (), .ok (), .ok (), .ok (), .ok (),
      .ok (), .ok (), .ok (), .throw .fileIOError, .ok (),
      .ok (), .throw .fileIOError, .throw .fileIOError,
      .ok (), .throw .fileIOError, .throw .fileIOError,
      .ok (), .ok (), .ok (),
      .ok (), .ok (), .throw .fileIOError, .ok (), .throw .fileIOError, .ok ()] := by
  decide +kernel

open FilesEx in
/-- The handle of object 0 is given to object 1. -/
example : (((HandleSystem.empty.run firstFree (exObjSteps.take 4)).2.objs 0).map IdObj.id,
    ((HandleSystem.empty.run firstFree (exObjSteps.take 9)).2.objs 0).map IdObj.id,
    ((HandleSystem.empty.run firstFree (exObjSteps.take 9)).2.objs 1).map IdObj.id) = (some 0, some (-1), some 0) := by
  decide +kernel

open FilesEx in
/-- `C103_files` applies, with the tables of the example for C100. -/
example : List.Forall₂ AsExpected (pickSome (HandleSystem.empty.run firstFree exObjSteps).1 (NamedSystem.empty.fileSteps exObjSteps))
    ((Tables.empty (exVal 7)).run exTables).1 :=
  (C103_files firstFree_fresh (exVal 7) exObj_fits (by rw [exObj_files]; exact exTakes)).1

open FilesEx in
/-- `C103_throws_partial` applies to object 0 after it has been closed. -/
example : (NamedSystem.empty.run (exObjSteps.take 8)).2.objs 0 = some none ∧
    (((HandleSystem.empty.run firstFree (exObjSteps.take 8)).2.objs 0).bind fun o => (o.sess.find "u").map SessVar.localName) =
      some none ∧
    (((HandleSystem.empty.run firstFree (exObjSteps.take 8)).2.objs 0).bind fun o => (o.sess.find "p").map fun x => x.localName.isSome) =
      some true := by
  decide +kernel

/-! ### What is not so -/

/-- **C103** as the interface suggests: a call that names a field after the object has been closed throws. -/
def C103_statement : Prop :=
  ∀ (fresh : List Int → Int), GivesFresh fresh → ∀ (ops : List (ObjOp (Memory Int) (Memory Int) (OpenArgs Int))) (k : Nat),
    (NamedSystem.empty.run ops).2.objs k = some none → ∀ (frame : Int) (ns : List String), ns ≠ [] →
      ((HandleSystem.empty.run fresh ops).2.step fresh (.on k (.write frame ns))).1 = .throw .fileIOError

open FilesEx in
/-- A program that opens a file for reading and closes it. -/
def exReadClosed : List (ObjOp (Memory Int) (Memory Int) (OpenArgs Int)) :=
  [.start (exMem 5), .openFile 0 "a" .write (exArgs exRanks), .on 0 .appendFrame, .on 0 (.writeAll 0), .close 0,
    .openFile 1 "a" .read (exArgs exRanks), .close 1]

/-- A field of a local collection is written after the file has been closed, and no exception is thrown: no request is made, because
the pixels have not been read. -/
theorem C103_false : ¬ C103_statement := by
  intro h
  have h1 := h firstFree firstFree_fresh exReadClosed 1 (by decide +kernel) 0 ["p"] (by simp)
  have h2 : ((HandleSystem.empty.run firstFree exReadClosed).2.step firstFree (.on 1 (.write 0 ["p"]))).1 = .ok () := by
    decide +kernel
  rw [h2] at h1
  cases h1

end Verif.Props
