import Verif.Props.FileSystem
import Verif.Props.FileRanksEx
/-
Two programs with three files, as an example for C100.
-/
namespace Verif.Props.FilesEx
open Verif Verif.Props Verif.Ccoord Verif.Layout Verif.Layout.FieldLayout Verif.RawMemory Verif.FileIO Verif.NetCDF

/-- One process with the global collection alone. -/
def exGlob : FileRank := ⟨([3], [3], [0]), [exCollG .rowMajor .colMajor 3 0]⟩

theorem exGlob_colls : CollsOk exGlob.dom exGlob.colls := by
  refine ⟨by simp [exGlob, Pos], by simp [exGlob], ⟨by decide, by decide, by decide, trivial⟩, ⟨_, _, rfl, rfl⟩, ?_, ?_, ?_⟩
  · intro c hc
    rw [exGlob, List.mem_singleton] at hc
    subst hc
    refine ⟨rfl, by simp [exCollG, exG], by simp [exCollG], ?_, by intro _ _ _ h; cases h⟩
    intro nb sh loc h x hx
    rw [exCollG_store] at hx
    simp only [List.mem_cons, List.not_mem_nil, or_false] at hx
    rcases hx with rfl | rfl
    · exact ⟨exG_field _ (Or.inr rfl) (by decide) (by decide) (by decide), rfl, by simp [exG], fun _ => rfl, fun _ => exClean.1,
        fun h => absurd rfl h⟩
    · exact ⟨exG_field _ (Or.inl rfl) (by decide) (by decide) (by decide), rfl, by simp [exG], fun _ => rfl,
        fun _ => exClean.2.1, fun h => absurd rfl h⟩
  · simp [exGlob, IoColl.fileNames, exCollG_store]
    simp [exCollG]
  · simp [exGlob, IoColl.fileNames, IoColl.subs, exCollG_store]
    simp [exCollG]

theorem exGlob_ok : Verif.ProgramOk [3] [exGlob] := by
  refine ⟨by simp, by decide, ?_, by simp, ?_, ?_, ?_, ?_⟩
  · intro r hr
    rw [List.mem_singleton] at hr
    subst hr
    exact exGlob_colls
  · intro g hg
    rcases exBox hg with rfl | rfl | rfl <;> decide +kernel
  · intro r hr r' hr'
    rw [List.mem_singleton] at hr hr'
    rw [hr, hr']
  · intro r hr c hc nb sh loc h x hx
    rw [List.mem_singleton] at hr
    subst hr
    rw [exGlob, List.mem_singleton] at hc
    subst hc
    rw [exCollG_store] at hx
    simp only [List.mem_cons, List.not_mem_nil, or_false] at hx
    rcases hx with rfl | rfl <;> exact ⟨rfl, rfl⟩
  · intro r hr c hc ids total off h
    rw [List.mem_singleton] at hr
    subst hr
    rw [exGlob, List.mem_singleton] at hc
    subst hc
    cases h

theorem exGlob_data : PartData exRanks [exGlob] := by
  refine ⟨?_, ?_⟩
  · intro r hr r' hr' c' hc'
    rw [List.mem_singleton] at hr'
    subst hr'
    rw [exGlob, List.mem_singleton] at hc'
    subst hc'
    have hG : ∀ oT oU n loc, (exCollG .rowMajor .colMajor 3 0).PartOf (exCollG oT oU n loc) := by
      intro oT oU n loc
      refine ⟨rfl, fun y hy => ?_⟩
      rw [IoColl.sig, exCollG_store] at hy ⊢
      exact hy
    simp only [exRanks, List.mem_cons, List.not_mem_nil, or_false] at hr
    rcases hr with rfl | rfl
    · exact ⟨_, List.mem_cons_self, hG ..⟩
    · exact ⟨_, List.mem_cons_self, hG ..⟩
  · intro l hl g
    simp [localNames, exGlob, exCollG] at hl

theorem exGlob_stored : storedNames [exGlob] = ["T", "u"] := by
  simp [storedNames, FileRank.entries, exGlob, exCollG_store]

theorem exProc_distinct (oT oU : StorageOrder) (n loc : Int) (ids : List Int) (off : Int) {r : FileRank}
    (hr : r = exProc oT oU n loc ids off) : (r.entries.map fun e => e.2.1).Nodup ∧
      ∀ c ∈ r.colls, ∀ c' ∈ r.colls, c.kind ≠ none → c'.kind ≠ none → c.name = c'.name → c = c' := by
  subst hr
  refine ⟨by rw [exProc_entries]; simp, ?_⟩
  intro c hc c' hc' h1 h2 _
  simp only [exProc, List.mem_cons, List.not_mem_nil, or_false] at hc hc'
  rcases hc with rfl | rfl
  · exact absurd rfl h1
  · rcases hc' with rfl | rfl
    · exact absurd rfl h2
    · rfl

theorem exRanks_distinct : Distinct exRanks := by
  intro r hr
  simp only [exRanks, List.mem_cons, List.not_mem_nil, or_false] at hr
  rcases hr with h | h <;> exact exProc_distinct _ _ _ _ _ _ h

theorem exRanks_distinct' : Distinct exRanks' := by
  intro r hr
  rw [exRanks', List.mem_singleton] at hr
  exact exProc_distinct _ _ _ _ _ _ hr

/-- What is given when a file is opened. -/
def exArgs (rs : List FileRank) : OpenArgs Int := ⟨rs.map FileRank.colls, fun _ _ => 77, fun _ _ => 78⟩

/-- A program with two processes makes the files `a` and `b`.  When it ends, `b` is still open.  A program with one process has
both open at the same time: it reads two fields from `a` and adds a frame to `b`.  It cannot make `a` again, and there
is no `c`. -/
def exSteps : List (FsOp (Memory Int) (Memory Int) (OpenArgs Int)) :=
  [.start (exMem 5), .openFile "a" .write (exArgs exRanks), .on "a" .appendFrame, .on "a" (.writeAll 0), .close "a",
    .compute (exMem 1000), .openFile "b" .overwrite (exArgs exRanks), .on "b" .appendFrame, .on "b" (.writeAll 0),
    .start (exMem' 0), .openFile "a" .write (exArgs exRanks'), .openFile "c" .read (exArgs exRanks'),
    .openFile "a" .read (exArgs [exGlob]), .openFile "b" .append (exArgs exRanks'), .on "a" (.readAll 0),
    .on "b" .appendFrame, .on "b" (.writeAll (-1)), .on "a" (.writeAll 0), .close "b"]

/-- The same in terms of values. -/
def exTables : List (TablesOp Int) :=
  [.start (exRanks, exVal 5), .openFile "a" .write exRanks, .on "a" .appendFrame, .on "a" (.writeAll 0), .close "a",
    .compute (exVal 1000), .openFile "b" .overwrite exRanks, .on "b" .appendFrame, .on "b" (.writeAll 0),
    .start (exRanks', exVal 0), .openFile "a" .write exRanks', .openFile "c" .read exRanks',
    .openFile "a" .read [exGlob], .openFile "b" .append exRanks', .on "a" (.readAll 0),
    .on "b" .appendFrame, .on "b" (.writeAll (-1)), .on "a" (.writeAll 0), .close "b"]

/-- What the model does. -/
example : (FileSystem.empty.run exSteps).1 =
    [.ok (), .ok (), .ok (), .ok (), .ok (), .ok (), .ok (), .ok (), .ok (), .ok (), .throw .fileIOError, .throw .fileIOError,
      .ok (), .ok (), .ok (), .ok (), .ok (), .throw .fileIOError, .ok ()] := by
  decide +kernel

/-- All three fields written in one frame. -/
def exRow (fr : Int) (v : String → Values Int) (cell : Int → String → Option (Values Int)) : Int → String → Option (Values Int) :=
  fun f m => if f = fr ∧ m = "p" then some (v "p") else if f = fr ∧ m = "u" then some (v "u")
    else if f = fr ∧ m = "T" then some (v "T") else cell f m

theorem exRow_rows (v : String → Values Int) : nbRows (exRow 0 v fun _ _ => none) = 1 := by
  refine nbRows_eq ⟨fun fr n w h => ?_, Or.inr ⟨"p", v "p", by simp [exRow]⟩⟩
  unfold exRow at h
  split at h
  · omega
  · split at h
    · omega
    · split at h
      · omega
      · cases h

/-- The tables after the first program, and after the second has opened its files. -/
def exState (n : Nat) : Tables Int :=
  let none' : Int → String → Option (Values Int) := fun _ _ => none
  let a : Option (ShutFile Int) := some ⟨exRanks, exRow 0 (exVal 5) none'⟩
  let b : Option (ShutFile Int) := some ⟨exRanks, exRow 0 (exVal 1000) none'⟩
  let oa : OpenedFile Int := ⟨exRanks, [exGlob], false, 1, exRow 0 (exVal 5) none'⟩
  let ob : OpenedFile Int := ⟨exRanks, exRanks', true, 1, exRow 0 (exVal 1000) none'⟩
  let cur2 : String → Values Int := fun m => if m = "u" then exVal 5 "u" else if m = "T" then exVal 5 "T" else exVal 0 m
  let ab : String → Option (ShutFile Int) := fun f => if f = "b" then b else if f = "a" then a else none
  match n with
  | 1 => ⟨exRanks, exVal 5, fun _ => none, fun _ => none⟩
  | 2 => ⟨exRanks, exVal 5, fun f => if f = "a" then some ⟨exRanks, exRanks, true, 0, none'⟩ else none, fun _ => none⟩
  | 3 => ⟨exRanks, exVal 5, fun f => if f = "a" then some ⟨exRanks, exRanks, true, 1, none'⟩ else none, fun _ => none⟩
  | 4 => ⟨exRanks, exVal 5, fun f => if f = "a" then some ⟨exRanks, exRanks, true, 1, exRow 0 (exVal 5) none'⟩ else none,
      fun _ => none⟩
  | 5 => ⟨exRanks, exVal 5, fun _ => none, fun f => if f = "a" then a else none⟩
  | 6 => ⟨exRanks, exVal 1000, fun _ => none, fun f => if f = "a" then a else none⟩
  | 7 => ⟨exRanks, exVal 1000, fun f => if f = "b" then some ⟨exRanks, exRanks, true, 0, none'⟩ else none,
      fun f => if f = "a" then a else none⟩
  | 8 => ⟨exRanks, exVal 1000, fun f => if f = "b" then some ⟨exRanks, exRanks, true, 1, none'⟩ else none,
      fun f => if f = "a" then a else none⟩
  | 9 => ⟨exRanks, exVal 1000, fun f => if f = "b" then some ⟨exRanks, exRanks, true, 1, exRow 0 (exVal 1000) none'⟩ else none,
      fun f => if f = "a" then a else none⟩
  | 10 | 11 | 12 => ⟨exRanks', exVal 0, fun _ => none, ab⟩
  | 13 => ⟨exRanks', exVal 0, fun f => if f = "a" then some oa else none, ab⟩
  | 14 => ⟨exRanks', exVal 0, fun f => if f = "b" then some ob else if f = "a" then some oa else none, ab⟩
  | 15 => ⟨exRanks', cur2, fun f => if f = "b" then some ob else if f = "a" then some oa else none, ab⟩
  | 16 => ⟨exRanks', cur2, fun f => if f = "b" then some { ob with nb := 2 } else if f = "a" then some oa else none, ab⟩
  | 17 | 18 => ⟨exRanks', cur2, fun f => if f = "b" then some { ob with nb := 2, cell := exRow 1 cur2 ob.cell }
      else if f = "a" then some oa else none, ab⟩
  | _ => ⟨exRanks', cur2, fun f => if f = "b" then none else if f = "a" then some oa else none,
      fun f => if f = "b" then some ⟨exRanks, exRow 1 cur2 ob.cell⟩ else if f = "a" then a else none⟩

theorem exIte {β : Type} (f : String → Option β) (n : String) (v w : Option β) :
    putAt (fun m => if m = n then v else f m) n w = fun m => if m = n then w else f m := by
  funext m
  rw [putAt]
  split <;> simp [*]

theorem exState_step : (Tables.empty (exVal 7)).step (.start (exRanks, exVal 5)) = (true, exState 1) ∧
    (exState 1).step (.openFile "a" .write exRanks) = (true, exState 2) ∧
    (exState 2).step (.on "a" .appendFrame) = (true, exState 3) ∧
    (exState 3).step (.on "a" (.writeAll 0)) = (true, exState 4) ∧
    (exState 4).step (.close "a") = (true, exState 5) ∧
    (exState 5).step (.compute (exVal 1000)) = (true, exState 6) ∧
    (exState 6).step (.openFile "b" .overwrite exRanks) = (true, exState 7) ∧
    (exState 7).step (.on "b" .appendFrame) = (true, exState 8) ∧
    (exState 8).step (.on "b" (.writeAll 0)) = (true, exState 9) ∧
    (exState 9).step (.start (exRanks', exVal 0)) = (true, exState 10) ∧
    (exState 10).step (.openFile "a" .write exRanks') = (false, exState 11) ∧
    (exState 11).step (.openFile "c" .read exRanks') = (false, exState 12) ∧
    (exState 12).step (.openFile "a" .read [exGlob]) = (true, exState 13) ∧
    (exState 13).step (.openFile "b" .append exRanks') = (true, exState 14) ∧
    (exState 14).step (.on "a" (.readAll 0)) = (true, exState 15) ∧
    (exState 15).step (.on "b" .appendFrame) = (true, exState 16) ∧
    (exState 16).step (.on "b" (.writeAll (-1))) = (true, exState 17) ∧
    (exState 17).step (.on "a" (.writeAll 0)) = (false, exState 18) ∧
    (exState 18).step (.close "b") = (true, exState 19) := by
  refine ⟨?_, ?_, ?_, ?_, ?_, ?_, ?_, ?_, ?_, ?_, ?_, ?_, ?_, ?_, ?_, ?_, ?_, ?_, ?_⟩
  · rfl
  · rfl
  · simp [exState, Tables.step, PyFile.lift, OpenedFile.table, Table.step, exIte]
  · simp [exState, Tables.step, PyFile.lift, OpenedFile.table, Table.step, exIte, exStored, Table.write, Table.put, meantFrame]
    rfl
  · simp [exState, Tables.step, exIte, OpenedFile.shut]
    rfl
  · rfl
  · rfl
  · simp [exState, Tables.step, PyFile.lift, OpenedFile.table, Table.step, exIte]
  · simp [exState, Tables.step, PyFile.lift, OpenedFile.table, Table.step, exIte, exStored, Table.write, Table.put, meantFrame]
    rfl
  · simp only [exState, Tables.step, OpenedFile.shut, Prod.mk.injEq, true_and]
    congr 1
    funext f
    by_cases h : f = "b" <;> simp [h]
  · simp [exState, Tables.step, openedAs]
  · simp [exState, Tables.step, openedAs]
  · simp [exState, Tables.step, openedAs, exRow_rows]
    rfl
  · simp [exState, Tables.step, openedAs, exRow_rows]
    rfl
  · simp [exState, Tables.step, PyFile.lift, OpenedFile.table, Table.step, exGlob_stored, Table.read, Table.set, meantFrame, exRow]
    funext f
    by_cases h : f = "a" <;> simp [putAt, h]
  · simp [exState, Tables.step, PyFile.lift, OpenedFile.table, Table.step, exIte]
  · simp [exState, Tables.step, PyFile.lift, OpenedFile.table, Table.step, exIte, exStored', Table.write, Table.put, meantFrame]
    rfl
  · simp [exState, Tables.step, PyFile.lift, OpenedFile.table, Table.step, exGlob_stored, Table.write]
    funext f
    by_cases h : f = "a" <;> simp [putAt, h]
  · simp [exState, Tables.step, exIte, OpenedFile.shut]

theorem exSome (rs : List FileRank) : SomeOf rs rs := List.forall₂_same.2 fun _ _ => ⟨rfl, fun _ h => h⟩

/-- The hypotheses of `C100_files` are met. -/
theorem exTakes : (Tables.empty (exVal 7)).TakesAll exSteps exTables := by
  obtain ⟨e1, e2, e3, e4, e5, e6, e7, e8, e9, e10, e11, e12, e13, e14, e15, e16, e17, e18, e19⟩ := exState_step
  have on : ∀ {s : Tables Int} {f : String} {op : FileOp Empty} (o : OpenedFile Int), s.opened f = some o →
      (∀ fr ns, op ≠ .write fr ns ∧ op ≠ .read fr ns) → (o.writable = false → RefusedBy o.ranks op) →
      (o.table s.cur).ReadsFilled (storedNames o.ranks) (PyFile.lift op) → s.Takes (.on f op) (.on f op) := by
    intro s f op o h1 h2 h3 h4
    refine ⟨rfl, rfl, o, h1, ?_, h3, h4⟩
    cases op with
    | write fr ns => exact absurd rfl (h2 fr ns).1
    | read fr ns => exact absurd rfl (h2 fr ns).2
    | _ => trivial
  have new : Opens exRanks .write (none : Option (ShutFile Int)) ∧ Opens exRanks .overwrite (none : Option (ShutFile Int)) :=
    ⟨fun _ => ⟨⟨_, exRanks_ok⟩, exNumbered⟩, fun _ => ⟨⟨_, exRanks_ok⟩, exNumbered⟩⟩
  unfold exSteps exTables
  refine ⟨⟨exRanks_hold 5, exRanks_distinct⟩, ?_⟩
  rw [e1]
  refine ⟨⟨rfl, rfl, rfl, rfl, exSome _, new.1⟩, ?_⟩
  rw [e2]
  refine ⟨on _ rfl (by simp) (by simp) trivial, ?_⟩
  rw [e3]
  refine ⟨on _ rfl (by simp) (by simp) trivial, ?_⟩
  rw [e4]
  refine ⟨⟨rfl, by simp [exState]⟩, ?_⟩
  rw [e5]
  refine ⟨exRanks_hold 1000, ?_⟩
  rw [e6]
  refine ⟨⟨rfl, rfl, rfl, rfl, exSome _, new.2⟩, ?_⟩
  rw [e7]
  refine ⟨on _ rfl (by simp) (by simp) trivial, ?_⟩
  rw [e8]
  refine ⟨on _ rfl (by simp) (by simp) trivial, ?_⟩
  rw [e9]
  refine ⟨⟨exRanks_hold' 0, exRanks_distinct'⟩, ?_⟩
  rw [e10]
  refine ⟨⟨rfl, rfl, rfl, rfl, exSome _, ⟨by simp, by simp, by simp⟩⟩, ?_⟩
  rw [e11]
  refine ⟨⟨rfl, rfl, rfl, rfl, exSome _, by simp [exState, Opens]⟩, ?_⟩
  rw [e12]
  refine ⟨⟨rfl, rfl, rfl, rfl, ?_, ⟨by simp, fun _ => ⟨_, exRanks_ok, exGlob_ok, exGlob_data⟩, by simp⟩⟩, ?_⟩
  · exact .cons ⟨rfl, fun c hc => by
      rw [exGlob, List.mem_singleton] at hc
      subst hc
      exact List.mem_cons_self⟩ .nil
  rw [e13]
  refine ⟨⟨rfl, rfl, rfl, rfl, exSome _, ⟨by simp, fun _ => ⟨_, exRanks_ok, exRanks_ok', C94_same exSameData exRanks_ok exRanks_ok'⟩,
    fun _ => ?_⟩⟩, ?_⟩
  · intro r' hr' e' he' l total hl r hr
    rw [exRanks', List.mem_singleton] at hr'
    subst hr'
    rw [exProc_entries] at he'
    simp only [List.mem_cons, List.not_mem_nil, or_false] at he'
    rcases he' with rfl | rfl | rfl
    · cases hl
    · cases hl
    · cases hl
      simp only [exRanks, List.mem_cons, List.not_mem_nil, or_false] at hr
      rcases hr with rfl | rfl <;>
      · rw [exProc_entries]
        exact ⟨_, List.mem_cons_of_mem _ (List.mem_cons_of_mem _ List.mem_cons_self), rfl, 0, exVal 1000 "p", by
          simp [exRow]⟩
  rw [e14]
  refine ⟨on _ rfl (by simp) (fun _ => trivial) ?_, ?_⟩
  · unfold Table.ReadsFilled PyFile.lift
    dsimp only
    rw [exGlob_stored]
    simp [Table.Filled, OpenedFile.table, meantFrame, exRow]
  rw [e15]
  refine ⟨on _ rfl (by simp) (by simp) trivial, ?_⟩
  rw [e16]
  refine ⟨on _ rfl (by simp) (by simp) trivial, ?_⟩
  rw [e17]
  refine ⟨on _ rfl (by simp) (fun _ => ?_) trivial, ?_⟩
  · show RefusedBy [exGlob] (.writeAll 0)
    intro n hn
    rw [exGlob_stored] at hn
    cases hn
    rintro ⟨r, hr, e, he, e1, e2⟩
    rw [List.mem_singleton] at hr
    subst hr
    obtain ⟨c, hc, hx⟩ := List.mem_flatMap.1 he
    rw [exGlob, List.mem_singleton] at hc
    subst hc
    obtain ⟨x, -, rfl⟩ := List.mem_map.1 hx
    exact e2 rfl
  rw [e18]
  exact ⟨⟨rfl, by simp [exState]⟩, trivial⟩

/-- What is expected of the tables. -/
theorem exRun : (Tables.empty (exVal 7)).run exTables =
    ([true, true, true, true, true, true, true, true, true, true, false, false, true, true, true, true, true, false, true],
      exState 19) := by
  obtain ⟨e1, e2, e3, e4, e5, e6, e7, e8, e9, e10, e11, e12, e13, e14, e15, e16, e17, e18, e19⟩ := exState_step
  simp only [exTables, Tables.run, e1, e2, e3, e4, e5, e6, e7, e8, e9, e10, e11, e12, e13, e14, e15, e16, e17, e18, e19]

/-- The calls have the outcomes that are expected. -/
example : List.Forall₂ AsExpected (FileSystem.empty.run exSteps).1
    [true, true, true, true, true, true, true, true, true, true, false, false, true, true, true, true, true, false, true] := by
  have := (C100_files (exVal 7) exTakes).1
  rwa [exRun] at this

/-- A third program that reads frame 1 of `b`. -/
def exThird : List (FsOp (Memory Int) (Memory Int) (OpenArgs Int)) :=
  [.start (exMem 0), .openFile "b" .read (exArgs exRanks), .on "b" (.readAll 1)]

/-- A third program reads the frame that the second has added to `b`: two fields have the values that the second has
read from `a`, the third its own. -/
example : let w := (FileSystem.empty.run exSteps).2.run exThird
    w.1 = [.ok (), .ok (), .ok ()] ∧
      ProgramHolds exRanks w.2.mem fun m => if m = "u" then exVal 5 "u" else if m = "T" then exVal 5 "T" else exVal 0 m := by
  refine C100_finds (exVal 7) exTakes (f := "b") (c := ⟨exRanks, exRow 1
    (fun m => if m = "u" then exVal 5 "u" else if m = "T" then exVal 5 "T" else exVal 0 m)
      (exRow 0 (exVal 1000) fun _ _ => none)⟩) (by rw [exRun]; rfl) (by rw [exRun]; rfl) exRanks_ok exRanks_ok
    (C94_same ⟨fun r hr r' hr' => exRanks_ok.same r hr r' hr', fun _ _ _ => Iff.rfl⟩ exRanks_ok exRanks_ok)
    exRanks_distinct (exRanks_hold 0) rfl (fun n hn => ?_) (by rw [exStored]; simp)
  rw [exStored] at hn
  simp only [List.mem_cons, List.not_mem_nil, or_false] at hn
  rcases hn with rfl | rfl | rfl <;> simp [exRow]

/-- The same as the model computes it: `u` on the two processes, and `p`. -/
example : let w := (FileSystem.empty.run exSteps).2.run exThird
    (w.2.mem "u").map (fun m => m.bufs.map fun b => [b 0, b 1]) = [[[some 5, some 6]], [[some 7, none]]] ∧
      (w.2.mem "p").map (fun m => m.bufs.map fun b => [b 0, b 1]) = [[[some 1, some 11]], [[some 2, some 12]]] := by
  decide +kernel

/-- The file `a` stays as it is after the first program has closed it, although the second asks for a new file `a` and
tries to write (`C100_read_only`, `C100_others`). -/
example : ((FileSystem.empty.run exSteps).2.content "a").isSome ∧
    (FileSystem.empty.run exSteps).2.content "a" = (FileSystem.empty.run (exSteps.take 5)).2.content "a" := by
  have h5 : (FileSystem.empty.run (exSteps.take 5)).2.objs "a" = none := by with_unfolding_all rfl
  obtain ⟨d, hd⟩ : ∃ d, (FileSystem.empty.run (exSteps.take 5)).2.files "a" = some d := ⟨_, rfl⟩
  have := C100_read_only h5 hd (exSteps.drop 5) (by
    intro mode a h
    simp only [exSteps, List.drop_succ_cons, List.drop_zero, List.mem_cons, FsOp.openFile.injEq, List.not_mem_nil, or_false,
      reduceCtorEq, false_or] at h
    simp at h
    rcases h with ⟨rfl, rfl⟩ | ⟨rfl, rfl⟩
    · exact Or.inr rfl
    · exact Or.inl ⟨rfl, by simp [exArgs]⟩)
  have e : (FileSystem.empty.run exSteps).2 = ((FileSystem.empty.run (exSteps.take 5)).2.run (exSteps.drop 5)).2 := by
    conv_lhs => rw [← List.take_append_drop 5 exSteps]
    rw [run_append]
  rw [e, this]
  refine ⟨rfl, ?_⟩
  rw [FileSystem.content, h5]
  exact hd.symm

/-- The three refusals at the end of these programs (`C100_refuses`): `a` exists, `nope` does not. -/
example : let w := (FileSystem.empty.run exSteps).2
    w.step (.openFile "b" .write (exArgs exRanks)) = (.throw .fileIOError, w) ∧
      w.step (.openFile "nope" .read (exArgs exRanks)) = (.throw .fileIOError, w) ∧
      w.step (.openFile "nope" .append (exArgs exRanks)) = (.throw .fileIOError, w) :=
  ⟨(C100_refuses _ (by with_unfolding_all rfl) _).1 (by
      intro h
      have : ((FileSystem.empty.run exSteps).2.files "b").isSome = true := by decide +kernel
      rw [h] at this
      cases this),
    ((C100_refuses _ (by with_unfolding_all rfl) _).2 (by with_unfolding_all rfl)).1,
    ((C100_refuses _ (by with_unfolding_all rfl) _).2 (by with_unfolding_all rfl)).2⟩

/-- Writing `b` anew after these programs gives the same file and the same outcomes as when there is no `b`
(`C100_overwrites`): the new file has one frame, and reading frame 1 fails. -/
example : let w := (FileSystem.empty.run exSteps).2
    let ops := [.on "b" .appendFrame, .on "b" (.writeAll 0), .on "b" (.readAll 1), .close "b"]
    let r := w.run (.openFile "b" .overwrite (exArgs exRanks') :: ops)
    let r' := ({ w with files := putAt w.files "b" none } : FileSystem Int).run (.openFile "b" .overwrite (exArgs exRanks') :: ops)
    (r'.1 = r.1 ∧ r'.2.mem = r.2.mem ∧ r'.2.content = r.2.content) ∧ r.1 = [.ok (), .ok (), .ok (), .throw .fileIOError, .ok ()] :=
  ⟨C100_overwrites (FileSystem.empty.run exSteps).2
      { (FileSystem.empty.run exSteps).2 with files := putAt (FileSystem.empty.run exSteps).2.files "b" none } (f := "b")
      (by with_unfolding_all rfl) rfl rfl (fun _ hg => if_neg hg) _ _,
    by decide +kernel⟩

end Verif.Props.FilesEx
