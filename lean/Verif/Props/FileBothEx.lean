import Verif.Props.FileBoth
import Verif.Props.FileRanksEx
/-
The programs of `FileRanksEx.lean` with attribute calls between the others, as an example for C95.
-/
namespace Verif.Props
open Verif Verif.NetCDF Verif.NetCDFAtt

/-- Attribute calls before the collections are registered; the last one throws, the name is in use. -/
def exBothPre : List (AttOp Int) := [.writeAtt "author" .char [3, 4, 5], .writeAtt "author" .char [9]]

/-- Calls for data (those of `exOps`) and attributes.  The attribute "late" comes after the first data. -/
def exBothOps : List (BothOp (Memory Int) Int) :=
  [.writeAtt "steps" .int [100], .data .appendFrame, .updateAtt "steps" "steps" .int [0], .data (.writeAll 0),
    .writeAtt "late" .int [1], .data .appendFrame, .data (.compute (exMem 1000)), .updateAtt "steps" "step" .int [7],
    .data (.write (-1) ["u", "p"]), .data (.write 2 ["u"]), .data (.write 1 ["x"]), .updateAtt "step" "step" .char [7],
    .data (.read 0 ["p", "T"]), .data (.write (-1) ["T"])]

def exBothSops : List (BothOp (String → Values Int) Int) :=
  [.writeAtt "steps" .int [100], .data .appendFrame, .updateAtt "steps" "steps" .int [0], .data (.writeAll 0),
    .writeAtt "late" .int [1], .data .appendFrame, .data (.compute (exVal 1000)), .updateAtt "steps" "step" .int [7],
    .data (.write (-1) ["u", "p"]), .data (.write 2 ["u"]), .data (.write 1 ["x"]), .updateAtt "step" "step" .char [7],
    .data (.read 0 ["p", "T"]), .data (.write (-1) ["T"])]

theorem exBoth_same : List.Forall₂ (SameBoth (ProgramHolds exRanks)) exBothOps exBothSops :=
  .cons (.writeAtt _ _ _) (.cons (.data .appendFrame) (.cons (.updateAtt _ _ _ _) (.cons (.data (.writeAll 0))
    (.cons (.writeAtt _ _ _) (.cons (.data .appendFrame) (.cons (.data (.compute (exRanks_hold 1000)))
    (.cons (.updateAtt _ _ _ _) (.cons (.data (.write _ _)) (.cons (.data (.write _ _)) (.cons (.data (.write _ _))
    (.cons (.updateAtt _ _ _ _) (.cons (.data (.read _ _)) (.cons (.data (.write _ _)) .nil)))))))))))))

theorem exRanks_colls : ∀ r ∈ exRanks, r.colls ≠ [] := by simp [exRanks, exProc]

theorem exRanks_colls' : ∀ r ∈ exRanks', r.colls ≠ [] := by simp [exRanks', exProc]

theorem exBoth_typed : ∀ op ∈ exBothOps, BothTyped op := by simp [exBothOps, BothTyped, NcType.stored]

deriving instance DecidableEq for AttTable

theorem exBoth_noClash : (newBoth attVals exBothPre (exVal 5)).NoClash (storedNames exRanks) exBothSops := by
  rw [exStored]
  refine ⟨trivial, trivial, Or.inl rfl, trivial, trivial, trivial, trivial, Or.inr ?_, trivial, trivial, trivial,
    Or.inl rfl, trivial, trivial, trivial⟩
  decide +kernel

/-- The first program, from the theorem. -/
example :
    let p := createBoth .write attVals exBothPre (exRanks.map FileRank.colls) (fun _ _ => 77) (fun _ _ => 78) (exMem 5)
      exBothOps [2, 6] [9, 3]
    let t := (newBoth attVals exBothPre (exVal 5)).run (storedNames exRanks) exBothSops
    List.Forall₂ AsExpected p.results t.1 ∧ p.atts.names = t.2.atts.names ∧ ProgramHolds exRanks p.mem t.2.data.cur := by
  obtain ⟨-, -, h1, h2, -, h3, -⟩ := C95_new (V := Int) exRanks_ok exNumbered exRanks_colls (Or.inl rfl) attVals (pre := exBothPre)
    (by decide) (by decide +kernel) (fun _ _ => 77) (fun _ _ => 78) (exRanks_hold 5) exBoth_same exBoth_typed
    exRanks_names exRanks_gaps exBoth_noClash [2, 6] [9, 3]
  exact ⟨h1, h3, h2⟩

/-- The same as the model computes it. -/
example :
    let p := createBoth .write attVals exBothPre (exRanks.map FileRank.colls) (fun _ _ => 77) (fun _ _ => 78) (exMem 5)
      exBothOps [2, 6] [9, 3]
    p.registered = [[.ok (), .ok ()], [.ok (), .ok ()]] ∧ p.before = [.ok (), .throw .fileIOError, .ok (), .ok ()] ∧
      p.results = [.ok (), .ok (), .throw .fileIOError, .ok (), .throw .fileIOError, .ok (), .ok (), .ok (), .ok (),
        .throw .fileIOError, .throw .fileIOError, .throw .fileIOError, .ok (), .ok ()] ∧ p.closed = .ok () ∧
      p.full.atts.map (fun f => (f.name, f.value)) =
        [("creation_date", [1, 6]), ("creation_time", [7, 3]), ("last_modified_date", [2, 6]),
          ("last_modified_time", [9, 3]), ("muGrid_version_info", [4]), ("muGrid_git_hash", [5]), ("muGrid_description", [6]),
          ("muGrid_git_branch_is_dirty", [0]), ("author", [3, 4, 5]), ("step", [7])] ∧
      p.nbFrames = 2 := by
  decide +kernel

/-- The programs of `exUses` with attribute calls. -/
def exBothUses : List (BothUse Int Int) :=
  [⟨exRanks', .append, exMem' 30, exVal 30, [.writeAtt "more" .int [1]],
      [.data .appendFrame, .updateAtt "step" "step" .int [8], .data (.writeAll (-1)), .data (.write 0 ["u"])],
      [.data .appendFrame, .updateAtt "step" "step" .int [8], .data (.writeAll (-1)), .data (.write 0 ["u"])], [4, 6], [2, 2]⟩,
   ⟨exRanks, .read, exMem 0, exVal 0, [],
      [.updateAtt "step" "step" .int [8], .data (.readAll 2), .data (.write 0 ["u"]), .data (.read 0 ["u"])],
      [.updateAtt "step" "step" .int [8], .data (.readAll 2), .data (.write 0 ["u"]), .data (.read 0 ["u"])], [5, 6], [2, 2]⟩]

/-- The hypotheses of `C95_programs_partial` are met. -/
theorem exBothUses_ok :
    let t := ((newBoth attVals exBothPre (exVal 5)).run (storedNames exRanks) exBothSops).2
    (t.atts.closed [2, 6] [9, 3]).1 = true ∧ (t.atts.closed [2, 6] [9, 3]).2.length ≤ 30 ∧
      BothUsesOk [3] exRanks t.data.cell (t.atts.closed [2, 6] [9, 3]).2 exBothUses := by
  intro t
  have hd : t.data.cell = (Table.run (storedNames exRanks) ⟨true, 0, exVal 5, fun _ _ => none⟩ exSops).2.cell :=
    congrArg Table.cell (table_run_data (storedNames exRanks) exBothSops (newBoth attVals exBothPre (exVal 5)))
  have ht : t.atts = ⟨true, true, true, true, true, attVals.atts ++ [⟨"author", .char, [3, 4, 5]⟩, ⟨"step", .int, [7]⟩]⟩ := by
    show ((newBoth attVals exBothPre (exVal 5)).run (storedNames exRanks) exBothSops).2.atts = _
    rw [exStored]
    decide +kernel
  rw [hd, ht]
  obtain ⟨⟨u1, u2, u3⟩⟩ : Nonempty (UsesOk [3] exRanks
    (Table.run (storedNames exRanks) ⟨true, 0, exVal 5, fun _ _ => none⟩ exSops).2.cell exUses) := ⟨exUses_ok⟩
  refine ⟨by decide +kernel, by decide +kernel, ⟨u1, exRanks_colls', ?_, ?_, ?_⟩, u2, ?_⟩
  · exact .cons (.data .appendFrame) (.cons (.updateAtt _ _ _ _) (.cons (.data (.writeAll _)) (.cons (.data (.write _ _)) .nil)))
  · intro op hop
    rw [List.mem_singleton] at hop
    exact ⟨_, _, _, hop, rfl⟩
  · simp [exBothUses, BothTyped]
  · intro nb hnb
    obtain ⟨v1, v2⟩ := u3 nb hnb
    refine ⟨v1, ⟨trivial, Or.inl rfl, trivial, trivial, trivial⟩, ?_⟩
    intro t'
    have ht' : t'.atts = ⟨false, true, true, true, true,
        [⟨"creation_date", .char, [1, 6]⟩, ⟨"creation_time", .char, [7, 3]⟩, ⟨"last_modified_date", .char, [2, 6]⟩,
          ⟨"last_modified_time", .char, [9, 3]⟩, ⟨"muGrid_version_info", .char, [4]⟩, ⟨"muGrid_git_hash", .char, [5]⟩,
          ⟨"muGrid_description", .char, [6]⟩, ⟨"muGrid_git_branch_is_dirty", .char, [0]⟩, ⟨"author", .char, [3, 4, 5]⟩,
          ⟨"step", .int, [8]⟩]⟩ := by
      with_unfolding_all rfl
    rw [show t'.data.cell = _ from congrArg Table.cell (table_run_data _ _ _), ht']
    obtain ⟨w1, w2, w3⟩ := v2
    refine ⟨by decide +kernel, ⟨w1, exRanks_colls, ?_, by simp, by simp [BothTyped]⟩, w2, ?_⟩
    · exact .cons (.updateAtt _ _ _ _) (.cons (.data (.readAll _)) (.cons (.data (.write _ _)) (.cons (.data (.read _ _)) .nil)))
    · intro nb' hnb'
      obtain ⟨x1, -⟩ := w3 nb' hnb'
      refine ⟨x1, ⟨Or.inl rfl, trivial, trivial, trivial, trivial⟩, ?_, trivial⟩
      rw [AttTable.closed, if_neg]
      rintro ⟨-, h⟩
      exact Bool.noConfusion (h : false = true)

seal BothBehave BothUsesOk in
/-- The programs behave as expected, from the theorem. -/
example :
    let t := ((newBoth attVals exBothPre (exVal 5)).run (storedNames exRanks) exBothSops).2
    BothBehave (storedNames exRanks) t.data.cell (t.atts.closed [2, 6] [9, 3]).2 exBothUses
      (runBothUses (createBoth .write attVals exBothPre (exRanks.map FileRank.colls) (fun _ _ => 77) (fun _ _ => 78) (exMem 5)
        exBothOps [2, 6] [9, 3]).full exBothUses) := by
  have h1 : ∀ op ∈ exBothPre, Typed op := by decide
  have h2 : (AttTable.mk true true false false false attVals.atts).NoClash exBothPre := by decide +kernel
  have h := fun us => C95_programs_partial (mode := .write) (ops := exBothOps) (sops := exBothSops) exRanks_ok exNumbered
    exRanks_colls (Or.inl rfl) attVals h1 h2 (fun _ _ => 77) (fun _ _ => 78) (exRanks_hold 5) exBoth_same exBoth_typed
    exRanks_names exRanks_gaps exBoth_noClash [2, 6] [9, 3] (us := us)
  exact h exBothUses exBothUses_ok.1 exBothUses_ok.2.1 exBothUses_ok.2.2

/-- The file of the first program. -/
def exBothFile : FullDisk Int Int :=
  (createBoth .write attVals exBothPre (exRanks.map FileRank.colls) (fun _ _ => 77) (fun _ _ => 78) (exMem 5)
      exBothOps [2, 6] [9, 3]).full

/-- The same as the model computes it: the outcomes, the values of a field, and the attributes. -/
example :
    (runBothUses exBothFile exBothUses).map (fun r => match r with | .ok p => (p.before, p.results, p.closed) | _ => ([], [], .ub)) =
      [([.throw .fileIOError, .ok (), .ok ()], [.ok (), .ok (), .ok (), .ok ()], .ok ()),
        ([.ok (), .ok ()], [.throw .fileIOError, .ok (), .throw .fileIOError, .ok ()], .ok ())] ∧
    (runBothUses exBothFile exBothUses).map (fun r => match r with
      | .ok p => (p.mem "u").map (fun m => m.bufs.map fun b => [b 0, b 1]) | _ => []) =
      [[[[some 30, some 31]]], [[[some 30, some 31]], [[some 32, none]]]] ∧
    (runBothUses exBothFile exBothUses).map (fun r => match r with
      | .ok p => p.full.atts.map fun f => (f.name, f.value) | _ => []) =
      List.replicate 2 [("creation_date", [1, 6]), ("creation_time", [7, 3]), ("last_modified_date", [4, 6]),
        ("last_modified_time", [2, 2]), ("muGrid_version_info", [4]), ("muGrid_git_hash", [5]), ("muGrid_description", [6]),
        ("muGrid_git_branch_is_dirty", [0]), ("author", [3, 4, 5]), ("step", [8])] := by
  decide +kernel

/-- A program that appends a frame, but updates an attribute before it registers its collections. -/
def exEarlyUpdate : Res (BothRun Int Int) :=
  useBoth .append [.updateAtt "step" "step" .int [8]] (exRanks'.map FileRank.colls) exBothFile (exMem' 30)
    [.data .appendFrame, .data (.writeAll (-1))] [4, 6] [2, 2]

/-- Every attribute call and every registration succeeds, but the file is left in define mode, and no data can be written. -/
theorem exEarlyUpdate_eq :
    (match exEarlyUpdate with | .ok p => (p.before, p.results) | _ => ([], [])) =
      ([.ok (), .ok (), .ok ()], [.ok (), .throw .fileIOError]) ∧
    (useFile .append (exRanks'.map FileRank.colls) exBothFile.disk (exMem' 30) [.appendFrame, .writeAll (-1)]).results =
      [.ok (), .ok ()] := by
  decide +kernel

theorem C95_false : ¬ C95_statement := by
  intro h
  obtain ⟨h1, h2⟩ := exEarlyUpdate_eq
  cases hr : exEarlyUpdate with
  | throw e => rw [hr] at h1; cases h1
  | ub => rw [hr] at h1; cases h1
  | ok p =>
    rw [hr] at h1
    have h3 : p.before = [.ok (), .ok (), .ok ()] := congrArg Prod.fst h1
    have h4 : p.results = [.ok (), .throw .fileIOError] := congrArg Prod.snd h1
    have := h _ _ _ _ _ _ _ p (by simp [AttCall]) hr (by rw [h3]; simp)
    rw [h4] at this
    have := this.trans h2
    simp [dataResults] at this

end Verif.Props
