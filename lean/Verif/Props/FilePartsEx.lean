import Verif.Props.FileParts
import Verif.Props.FileRanksEx
/-
A program that has only two of the three variables of a file, as an example for C94.
-/
namespace Verif.Props
open Verif Verif.Ccoord Verif.Layout Verif.Layout.FieldLayout Verif.RawMemory Verif.FileIO Verif.NetCDF

/-- The field `u` alone. -/
def exOnlyU (n loc : Int) : IoColl := ⟨"other", true, [exG "u" .rowMajor n loc], [], .global [3] [n] [loc]⟩

/-- One process without the state field `T`. -/
def exSub : FileRank := ⟨([3], [3], [0]), [exOnlyU 3 0, exCollL [1, 2] 0]⟩

theorem exOnlyU_store (n loc : Int) : (exOnlyU n loc).toStore = [("u", exG "u" .rowMajor n loc, none)] := by
  simp [exOnlyU, IoColl.toStore, IoColl.plain, IoColl.subs, exG]

theorem exSub_colls : CollsOk exSub.dom exSub.colls := by
  refine ⟨by simp [exSub, Pos], by simp [exSub], ⟨by decide, by decide, by decide, trivial⟩, ⟨_, _, rfl, rfl⟩, ?_, ?_, ?_⟩
  · intro c hc
    simp only [exSub, List.mem_cons, List.not_mem_nil, or_false] at hc
    rcases hc with rfl | rfl
    · refine ⟨rfl, by simp [exOnlyU, exG], by simp [exOnlyU], ?_, by intro _ _ _ h; cases h⟩
      intro nb sh loc h x hx
      rw [exOnlyU_store, List.mem_singleton] at hx
      subst hx
      exact ⟨exG_field _ (Or.inr rfl) (by decide) (by decide) (by decide), rfl, by simp [exG], fun _ => rfl,
        fun _ => exClean.2.1, fun h => absurd rfl h⟩
    · refine ⟨rfl, by simp [exCollL], by simp [exCollL], (by intro _ _ _ h; cases h), ?_⟩
      intro ids' total off' h
      cases h
      refine ⟨by decide, by decide +kernel, exClean.2.2.2.1, ?_⟩
      intro x hx
      rw [exCollL_store, List.mem_singleton] at hx
      subst hx
      exact ⟨exL_field _, exClean.2.2.1, by simp [exL], fun _ => rfl, fun _ => exClean.2.2.1, fun _ => exClean.2.2.2.2⟩
  · simp [exSub, IoColl.fileNames, exOnlyU_store, exCollL_store]
    simp [exOnlyU, exCollL]
  · simp [exSub, IoColl.fileNames, IoColl.subs, exOnlyU_store, exCollL_store]
    simp [exOnlyU, exCollL]

theorem exSub_ok : ProgramOk [3] [exSub] := by
  refine ⟨by simp, by decide, ?_, by simp, ?_, ?_, ?_, ?_⟩
  · intro r hr
    rw [List.mem_singleton] at hr
    subst hr
    exact exSub_colls
  · intro g hg
    rcases exBox hg with rfl | rfl | rfl <;> decide +kernel
  · intro r hr r' hr'
    rw [List.mem_singleton] at hr hr'
    rw [hr, hr']
  · intro r hr c hc nb sh loc h x hx
    rw [List.mem_singleton] at hr
    subst hr
    simp only [exSub, List.mem_cons, List.not_mem_nil, or_false] at hc
    rcases hc with rfl | rfl
    · rw [exOnlyU_store, List.mem_singleton] at hx
      subst hx
      exact ⟨rfl, rfl⟩
    · cases h
  · intro r hr c hc ids total off h
    rw [List.mem_singleton] at hr
    subst hr
    simp only [exSub, List.mem_cons, List.not_mem_nil, or_false] at hc
    rcases hc with rfl | rfl <;> cases h
    refine ⟨by decide, fun x hx => ?_⟩
    rw [exCollL_store, List.mem_singleton] at hx
    subst hx
    exact Or.inl rfl

theorem exSub_data : PartData exRanks [exSub] := by
  refine ⟨?_, ?_⟩
  · intro r hr r' hr' c' hc'
    rw [List.mem_singleton] at hr'
    subst hr'
    have hG : ∀ oT oU n loc, (exOnlyU 3 0).PartOf (exCollG oT oU n loc) := by
      intro oT oU n loc
      refine ⟨rfl, fun y hy => ?_⟩
      rw [IoColl.sig, exOnlyU_store] at hy
      rw [IoColl.sig, exCollG_store]
      simp only [List.map_cons, List.map_nil, List.mem_cons, List.not_mem_nil, or_false] at hy ⊢
      subst hy
      exact Or.inr rfl
    have hL : ∀ ids off, (exCollL [1, 2] 0).PartOf (exCollL ids off) := by
      intro ids off
      refine ⟨rfl, fun y hy => ?_⟩
      rw [IoColl.sig, exCollL_store] at hy ⊢
      exact hy
    simp only [exSub, List.mem_cons, List.not_mem_nil, or_false] at hc'
    simp only [exRanks, List.mem_cons, List.not_mem_nil, or_false] at hr
    rcases hr with rfl | rfl <;> rcases hc' with rfl | rfl
    · exact ⟨_, List.mem_cons_self, hG ..⟩
    · exact ⟨_, List.mem_cons_of_mem _ List.mem_cons_self, hL ..⟩
    · exact ⟨_, List.mem_cons_self, hG ..⟩
    · exact ⟨_, List.mem_cons_of_mem _ List.mem_cons_self, hL ..⟩
  · intro l hl g
    have : l = "L" := by simpa [localNames, exSub, exOnlyU, exCollL] using hl
    subst this
    simp only [InLocal, exRanks, List.mem_cons, List.not_mem_nil, or_false, exists_eq_or_imp, exists_eq_left, exProc_ids]
    rw [show exSub.ids "L" = [1, 2] by decide +kernel]
    simp only [List.mem_cons, List.not_mem_nil, or_false, exists_eq_or_imp, exists_eq_left]
    rw [show (exProc .colMajor .colMajor 2 0 [1] 0).coord 1 = [1] by decide +kernel,
      show (exProc .colMajor .rowMajor 1 2 [0] 1).coord 0 = [2] by decide +kernel,
      show exSub.coord 1 = [1] by decide +kernel, show exSub.coord 2 = [2] by decide +kernel]

theorem exSub_stored : storedNames [exSub] = ["u", "p"] := by
  simp [storedNames, FileRank.entries, exSub, exOnlyU_store, exCollL_store]

theorem exSub_entries : exSub.entries =
    [(none, "u", exG "u" .rowMajor 3 0, none), (some ("L", 2), "p", exL 2, none)] := by
  simp [FileRank.entries, exSub, exOnlyU_store, exCollL_store]
  simp [IoColl.kind, exOnlyU, exCollL]

/-- Values of `u` and `p`. -/
def exSubMem (a : Int) : Memory Int
  | "u" => [⟨[], [exRamp 3 a]⟩]
  | "p" => [⟨[], [exPairs 2 (a + 1)]⟩]
  | _ => []

theorem exSub_hold (a : Int) : ProgramHolds [exSub] (exSubMem a) (exVal a) := by
  intro n hn
  rw [exSub_stored] at hn
  simp only [List.mem_cons, List.not_mem_nil, or_false] at hn
  rcases hn with rfl | rfl
  · exact .cons ⟨(none, "u", exG "u" .rowMajor 3 0, none), by rw [exSub_entries]; exact List.mem_cons_self, rfl, _, rfl,
      exG_holds (Or.inr rfl) a 0 (by simp)⟩ .nil
  · refine .cons ⟨(some ("L", 2), "p", exL 2, none), by rw [exSub_entries]; exact List.mem_cons_of_mem _ List.mem_cons_self, rfl, _, rfl, ?_⟩ .nil
    have := exL_holds 2 a 1 [1, 2] exSub.coord (exVarP 1) 0 (by
      intro i hi
      have : i = 0 ∨ i = 1 := by omega
      rcases this with rfl | rfl <;> decide +kernel)
    simpa [FileRank.view, LocalPart.view, show exSub.ids "L" = [1, 2] by decide +kernel] using this

/-- The program without `T` reads the second frame. -/
example :
    let w := createFile .write (exRanks.map FileRank.colls) (fun _ _ => 77) (fun _ _ => 78) (exMem 5) exOps
    let p := useFile .read ([exSub].map FileRank.colls) w.disk (exSubMem 0) [.readAll 1]
    p.results = [.ok ()] ∧ ProgramHolds [exSub] p.mem (exVal 1000) ∧ p.disk = w.disk := by
  have h := C94_read exRanks_ok exNumbered (Or.inl rfl) (fun _ _ => 77) (fun _ _ => 78) (exRanks_hold 5) exRanks_same
    exRanks_names exRanks_gaps exSub_ok exSub_data (by rw [exSub_stored]; simp) (exSub_hold 0) (fr := 1)
    (val := exVal 1000) (by
      rw [exStored, exSub_stored]
      simp [exSops, Table.run, Table.step, Table.write, Table.read, Table.put, Table.set, meantFrame])
  exact h.2

/-- The same as the model computes it. -/
example :
    let w := createFile .write (exRanks.map FileRank.colls) (fun _ _ => 77) (fun _ _ => 78) (exMem 5) exOps
    let p := useFile .read ([exSub].map FileRank.colls) w.disk (exSubMem 0) [.readAll 1]
    p.registered = [[.ok (), .ok ()]] ∧ p.results = [.ok ()] ∧
      (p.mem "u").map (fun m => m.bufs.map fun b => [b 0, b 1, b 2]) = [[[some 1000, some 1001, some 1002]]] ∧
      (p.mem "p").map (fun m => m.bufs.map fun b => [b 0, b 1, b 2, b 3]) =
        [[[some 1001, some 1011, some 1002, some 1012]]] := by
  decide +kernel

/-- The program without `T` adds a frame and changes `u` in the first one; then the program with all variables reads what
it has added, and `T` in the frame before. -/
def exSubUses : List (FileUse Int) :=
  [⟨[exSub], .append, exSubMem 30, exVal 30, [.appendFrame, .writeAll (-1), .write 0 ["u"], .write 0 ["T"]],
      [.appendFrame, .writeAll (-1), .write 0 ["u"], .write 0 ["T"]]⟩,
   ⟨exRanks, .read, exMem 0, exVal 0, [.read 2 ["p", "u"], .read 1 ["T"]], [.read 2 ["p", "u"], .read 1 ["T"]]⟩]

/-- The hypotheses of `C94_programs` are met. -/
theorem exSubUses_ok :
    UsesPart [3] exRanks (Table.run (storedNames exRanks) ⟨true, 0, exVal 5, fun _ _ => none⟩ exSops).2.cell exSubUses := by
  generalize hcell : (Table.run (storedNames exRanks) ⟨true, 0, exVal 5, fun _ _ => none⟩ exSops).2.cell = cell
  have hval : ∃ v : String → Values Int, ∀ n ∈ ["T", "u", "p"], cell 0 n = some (exVal 5 n) ∧ cell 1 n = some (v n) := by
    refine ⟨fun n => if n = "T" then exVal 5 n else exVal 1000 n, ?_⟩
    rw [← hcell, exStored]
    simp [exSops, Table.run, Table.step, Table.write, Table.read, Table.put, Table.set, meantFrame]
  have hout : ∀ fr n v, cell fr n = some v → 0 ≤ fr ∧ fr < 2 := by
    rw [← hcell, exStored]
    intro fr n v
    simp [exSops, Table.run, Table.step, Table.write, Table.read, Table.put, Table.set, meantFrame]
    intro h
    repeat' split at h
    all_goals first | omega | cases h
  obtain ⟨w, hval⟩ := hval
  refine ⟨⟨exSub_ok, exSub_data, Or.inr rfl, exSub_hold 30, ?_, ?_, fun e => by cases e⟩, ?_, ?_⟩
  · exact .cons .appendFrame (.cons (.writeAll _) (.cons (.write _ _) (.cons (.write _ _) .nil)))
  · simp [NoLocalNames, localNames, exSub, exOnlyU, exCollL]
  · intro _ r' hr' e' he' l total h r hr
    have hlt : l = "L" ∧ total = 2 := by
      have he' : e' ∈ exSub.entries := by
        have : r' = exSub := by simpa [exSubUses] using hr'
        rw [← this]; exact he'
      rw [exSub_entries] at he'
      simp only [List.mem_cons, List.not_mem_nil, or_false] at he'
      rcases he' with rfl | rfl
      · cases h
      · cases h; exact ⟨rfl, rfl⟩
    obtain ⟨rfl, rfl⟩ := hlt
    simp only [exRanks, List.mem_cons, List.not_mem_nil, or_false] at hr
    rcases hr with rfl | rfl <;>
      exact ⟨_, by rw [exProc_entries]; exact List.mem_cons_of_mem _ (List.mem_cons_of_mem _ List.mem_cons_self), rfl, 0, _,
        (hval "p" (by simp)).1⟩
  · intro nb hnb
    have : nb = 2 := by
      have h1 := hnb.1 1 "u" _ (hval _ (by simp)).2
      rcases hnb.2 with h | ⟨n, v, h⟩
      · omega
      · have := hout _ _ _ h; omega
    subst this
    simp only [FileUse.table]
    rw [exSub_stored]
    refine ⟨?_, ?_⟩
    · simp [Table.NoGaps, Table.step, Table.write, Table.put, meantFrame, Table.ReadsFilled, Table.Filled]
    generalize hcell' : (Table.run _ _ _).2.cell = cell'
    simp [Table.run, Table.step, Table.write, Table.read, Table.put, Table.set, meantFrame] at hcell'
    have hval' : ∀ n ∈ ["u", "p"], cell' 2 n = some (exVal 30 n) := by
      rw [← hcell']
      simp
    have hT : ∃ v, cell' 1 "T" = some v := by
      rw [← hcell']
      exact ⟨_, by simpa using (hval "T" (by simp)).2⟩
    have hout' : ∀ fr n v, cell' fr n = some v → 0 ≤ fr ∧ fr < 3 := by
      intro fr n v h
      rw [← hcell'] at h
      simp only at h
      repeat' split at h
      all_goals first | omega | (have := hout _ _ _ h; omega)
    refine ⟨⟨exRanks_ok, C94_same exSelf exRanks_ok exRanks_ok, Or.inl rfl, exRanks_hold 0, ?_, ?_,
      fun _ => by simp [RefusedBy, FirstNot]⟩, (by simp), ?_⟩
    · exact .cons (.read _ _) (.cons (.read _ _) .nil)
    · simp [NoLocalNames, localNames, exRanks, exProc, exCollG, exCollL]
    · intro nb hnb'
      have : nb = 3 := by
        have h1 := hnb'.1 2 "u" _ (hval' _ (by simp))
        rcases hnb'.2 with h | ⟨n, v, h⟩
        · omega
        · have := hout' _ _ _ h; omega
      subst this
      rw [exStored]
      refine ⟨?_, trivial⟩
      obtain ⟨v, h1⟩ := hT
      have h2 := hval' "u" (by simp)
      have h3 := hval' "p" (by simp)
      simp [Table.NoGaps, Table.step, Table.read, Table.set, meantFrame, Table.ReadsFilled,
        Table.Filled, FileUse.table, h1, h2, h3]

/-- Both programs find what the table expects. -/
example :
    let w := createFile .write (exRanks.map FileRank.colls) (fun _ _ => 77) (fun _ _ => 78) (exMem 5) exOps
    BehavesPart (Table.run (storedNames exRanks) ⟨true, 0, exVal 5, fun _ _ => none⟩ exSops).2.cell exSubUses
      (runUses w.disk exSubUses) :=
  C94_programs exRanks_ok exNumbered (Or.inl rfl) _ _ (exRanks_hold 5) exRanks_same exRanks_names exRanks_gaps exSubUses_ok

/-- The same as the model computes it: the results of the calls, and what the second program has read. -/
example :
    let w := createFile .write (exRanks.map FileRank.colls) (fun _ _ => 77) (fun _ _ => 78) (exMem 5) exOps
    let rs := runUses w.disk exSubUses
    rs.map (fun r => r.results) = [[.ok (), .ok (), .ok (), .throw .fileIOError], [.ok (), .ok ()]] ∧
      rs.map (fun r => r.nbFrames) = [3, 3] ∧
      ((rs.map fun r => (r.mem "p").map fun m => m.bufs.map fun b => [b 0, b 1])) =
        [[[[some 31, some 41]]], [[[some 31, some 41]], [[some 32, some 42]]]] ∧
      ((rs.map fun r => (r.mem "T").map fun m => m.bufs.map fun b => [b 0, b 1])) =
        [[], [[[some 5, some 6], [some 105, some 106]], [[some 7, none], [some 107, none]]]] := by
  decide +kernel

/-- What the program without `T` leaves as it is. -/
example :
    let d := (createFile .write (exRanks.map FileRank.colls) (fun _ _ => 77) (fun _ _ => 78) (exMem 5) exOps).disk
    let d' := (useFile .append ([exSub].map FileRank.colls) d (exSubMem 30) [.appendFrame, .writeAll (-1), .write 0 ["u"], .write 0 ["T"]]).disk
    d'.data.vars "T" = d.data.vars "T" := by
  have hus := exSubUses_ok
  obtain ⟨h1, h2, h3⟩ := hus
  exact (C94_others exRanks_ok exNumbered (Or.inl rfl) _ _ (exRanks_hold 5) exRanks_same exRanks_names exRanks_gaps
    ⟨h1, h2, fun nb hnb => ⟨(h3 nb hnb).1, trivial⟩⟩).1 "T" (by
      show "T" ∉ storedNames [exSub]
      rw [exSub_stored]; simp)

end Verif.Props
