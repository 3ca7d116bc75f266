import Verif.Props.FileRanks
import Verif.Props.FileSessionEx
/-
Three programs that use the same file, as an example for C66: the programs of `FileSessionEx.lean`, now with their
collections.
-/
namespace Verif.Props
open Verif Verif.Ccoord Verif.Layout Verif.Layout.FieldLayout Verif.RawMemory Verif.FileIO Verif.NetCDF

/-- A state field `T` with one old value and a field `u` on a part of a grid with three points. -/
def exCollG (oT oU : StorageOrder) (n loc : Int) : IoColl :=
  ⟨"", true, [exG "T, sub_field index 0" oT n loc, exG "T, sub_field index 1" oT n loc, exG "u" oU n loc],
    [⟨"T", 1, ["T, sub_field index 0", "T, sub_field index 1"], exG "T" oT n loc⟩], .global [3] [n] [loc]⟩

/-- A field `p` on the local collection `L`. -/
def exCollL (ids : List Int) (off : Int) : IoColl := ⟨"L", true, [exL ids.length], [], .isLocal ids 2 off⟩

/-- A process. -/
def exProc (oT oU : StorageOrder) (n loc : Int) (ids : List Int) (off : Int) : FileRank :=
  ⟨([3], [n], [loc]), [exCollG oT oU n loc, exCollL ids off]⟩

/-- Two processes, with two pixels and one pixel, each with one pixel of the local collection. -/
def exRanks : List FileRank :=
  [exProc .colMajor .colMajor 2 0 [1] 0, exProc .colMajor .rowMajor 1 2 [0] 1]

/-- One process. -/
def exRanks' : List FileRank := [exProc .rowMajor .colMajor 3 0 [1, 2] 0]

theorem exCollG_store (oT oU : StorageOrder) (n loc : Int) : (exCollG oT oU n loc).toStore =
    [("T", exG "T" oT n loc, some 1), ("u", exG "u" oU n loc, none)] := by
  simp [exCollG, IoColl.toStore, IoColl.plain, IoColl.subs, exG]

theorem exCollL_store (ids : List Int) (off : Int) : (exCollL ids off).toStore = [("p", exL ids.length, none)] := by
  simp [exCollL, IoColl.toStore, IoColl.plain, IoColl.subs, exL]

theorem exClean : Clean "T" ∧ Clean "u" ∧ Clean "p" ∧ Clean "L" ∧ Clean "pixel" := by decide +kernel

theorem exProc_ok {oT oU : StorageOrder} (hT : oT = .colMajor ∨ oT = .rowMajor) (hU : oU = .colMajor ∨ oU = .rowMajor)
    {n loc : Int} (h0 : 0 ≤ n) (h1 : 0 ≤ loc) (h2 : loc + n ≤ 3) {ids : List Int} {off : Int}
    (hids : ∀ id ∈ ids, 0 ≤ id ∧ id < n) : CollsOk (exProc oT oU n loc ids off).dom (exProc oT oU n loc ids off).colls := by
  refine ⟨by simp [exProc, Pos], by simp [exProc], ⟨h0, h1, h2, trivial⟩, ⟨_, _, rfl, rfl⟩, ?_, ?_, ?_⟩
  · intro c hc
    simp only [exProc, List.mem_cons, List.not_mem_nil, or_false] at hc
    rcases hc with rfl | rfl
    · refine ⟨rfl, by simp [exCollG, exG], by simp [exCollG], ?_, by intro _ _ _ h; cases h⟩
      intro nb sh loc h x hx
      rw [exCollG_store] at hx
      simp only [List.mem_cons, List.not_mem_nil, or_false] at hx
      rcases hx with rfl | rfl
      · exact ⟨exG_field _ hT h0 h1 h2, rfl, by simp [exG], fun _ => rfl, fun _ => exClean.1, fun h => absurd rfl h⟩
      · exact ⟨exG_field _ hU h0 h1 h2, rfl, by simp [exG], fun _ => rfl, fun _ => exClean.2.1, fun h => absurd rfl h⟩
    · refine ⟨rfl, by simp [exCollL], by simp [exCollL], (by intro _ _ _ h; cases h), ?_⟩
      intro ids' total off' h
      cases h
      refine ⟨by decide, fun id hid => ?_, exClean.2.2.2.1, ?_⟩
      · have := hids id hid
        simpa [exProc, getSize] using this
      · intro x hx
        rw [exCollL_store, List.mem_singleton] at hx
        subst hx
        exact ⟨exL_field _, exClean.2.2.1, by simp [exL], fun _ => rfl, fun _ => exClean.2.2.1, fun _ => exClean.2.2.2.2⟩
  · simp [exProc, IoColl.fileNames, exCollG_store, exCollL_store]
    simp [exCollG, exCollL]
  · simp [exProc, IoColl.fileNames, IoColl.subs, exCollG_store, exCollL_store]
    simp [exCollG, exCollL]

theorem exProc_sig (oT oU : StorageOrder) (n loc : Int) (ids : List Int) (off : Int) :
    (exProc oT oU n loc ids off).colls.map IoColl.sig =
      [(none, [("T", some 1, "pixel", [1], 1, .real), ("u", none, "pixel", [1], 1, .real)]),
        (some ("L", 2), [("p", none, "pixel", [2], 1, .real)])] := by
  simp only [exProc, List.map_cons, List.map_nil, IoColl.sig, exCollG_store, exCollL_store]
  rfl

theorem exRanks_ok : ProgramOk [3] exRanks := by
  refine ⟨by simp [exRanks], by decide, ?_, ?_, ?_, ?_, ?_, ?_⟩
  · intro r hr
    simp only [exRanks, List.mem_cons, List.not_mem_nil, or_false] at hr
    rcases hr with rfl | rfl <;>
      exact exProc_ok (by simp) (by simp) (by decide) (by decide) (by decide) (by decide)
  · simp only [exRanks, List.pairwise_cons, List.mem_singleton, forall_eq, List.not_mem_nil, false_imp_iff, implies_true,
      List.Pairwise.nil, and_true]
    intro g h1 h2
    obtain ⟨i, rfl, h3, h4⟩ := exAt h1
    obtain ⟨j, hj, h5, h6⟩ := exAt h2
    simp at hj
    omega
  · intro g hg
    rcases exBox hg with rfl | rfl | rfl <;> decide +kernel
  · intro r hr r' hr'
    simp only [exRanks, List.mem_cons, List.not_mem_nil, or_false] at hr hr'
    rcases hr with rfl | rfl <;> rcases hr' with rfl | rfl <;> simp only [exProc_sig]
  · intro r hr c hc nb sh loc h x hx
    simp only [exRanks, List.mem_cons, List.not_mem_nil, or_false] at hr
    rcases hr with rfl | rfl <;> simp only [exProc, List.mem_cons, List.not_mem_nil, or_false] at hc <;>
      rcases hc with rfl | rfl <;> try (cases h; done)
    all_goals
      rw [exCollG_store] at hx
      simp only [List.mem_cons, List.not_mem_nil, or_false] at hx
      rcases hx with rfl | rfl <;> exact ⟨rfl, rfl⟩
  · intro r hr c hc ids total off h
    simp only [exRanks, List.mem_cons, List.not_mem_nil, or_false] at hr
    rcases hr with rfl | rfl <;> simp only [exProc, List.mem_cons, List.not_mem_nil, or_false] at hc <;>
      rcases hc with rfl | rfl <;> cases h
    all_goals
      refine ⟨by decide, fun x hx => ?_⟩
      rw [exCollL_store, List.mem_singleton] at hx
      subst hx
      exact Or.inl rfl

theorem exRanks_ok' : ProgramOk [3] exRanks' := by
  refine ⟨by simp [exRanks'], by decide, ?_, by simp [exRanks'], ?_, ?_, ?_, ?_⟩
  · intro r hr
    rw [exRanks', List.mem_singleton] at hr
    subst hr
    exact exProc_ok (by simp) (by simp) (by decide) (by decide) (by decide) (by decide)
  · intro g hg
    rcases exBox hg with rfl | rfl | rfl <;> decide +kernel
  · intro r hr r' hr'
    rw [exRanks', List.mem_singleton] at hr hr'
    rw [hr, hr']
  · intro r hr c hc nb sh loc h x hx
    rw [exRanks', List.mem_singleton] at hr
    subst hr
    simp only [exProc, List.mem_cons, List.not_mem_nil, or_false] at hc
    rcases hc with rfl | rfl
    · rw [exCollG_store] at hx
      simp only [List.mem_cons, List.not_mem_nil, or_false] at hx
      rcases hx with rfl | rfl <;> exact ⟨rfl, rfl⟩
    · cases h
  · intro r hr c hc ids total off h
    rw [exRanks', List.mem_singleton] at hr
    subst hr
    simp only [exProc, List.mem_cons, List.not_mem_nil, or_false] at hc
    rcases hc with rfl | rfl <;> cases h
    refine ⟨by decide, fun x hx => ?_⟩
    rw [exCollL_store, List.mem_singleton] at hx
    subst hx
    exact Or.inl rfl

theorem exProc_local (oT oU : StorageOrder) (n loc : Int) (ids : List Int) (off : Int) (l : String) :
    (exProc oT oU n loc ids off).localColl l = if "L" = l then some (ids, 2, off) else none := by
  simp only [FileRank.localColl, exProc, List.findSome?_cons, exCollG, exCollL, List.findSome?_nil]
  split <;> simp_all

theorem exProc_ids (oT oU : StorageOrder) (n loc : Int) (ids : List Int) (off : Int) :
    (exProc oT oU n loc ids off).ids "L" = ids := by
  rw [FileRank.ids, exProc_local]; rfl

theorem exNumbered : Numbered exRanks := by
  intro before r after h l ids total off hl
  have hr : r = exProc .colMajor .colMajor 2 0 [1] 0 ∧ before = [] ∨
      r = exProc .colMajor .rowMajor 1 2 [0] 1 ∧ before = [exProc .colMajor .colMajor 2 0 [1] 0] := by
    match before, h with
    | [], h => left; injection h with h1; exact ⟨h1.symm, rfl⟩
    | [a], h =>
      right
      injection h with h1 h2
      injection h2 with h3
      exact ⟨h3.symm, by rw [h1]⟩
    | a :: b :: c, h =>
      injection h with h1 h2
      injection h2 with h3 h4
      exact absurd h4.symm (by simp)
  rcases hr with ⟨rfl, rfl⟩ | ⟨rfl, rfl⟩ <;>
  · rw [exProc_local] at hl
    split at hl
    · subst_vars
      cases hl
      simp [exRanks, exProc_ids]
    · cases hl

theorem exSameData : SameData exRanks exRanks' := by
  refine ⟨?_, ?_⟩
  · intro r hr r' hr'
    simp only [exRanks, exRanks', List.mem_cons, List.not_mem_nil, or_false] at hr hr'
    subst hr'
    rcases hr with rfl | rfl <;> simp only [exProc_sig]
  · intro l hl g
    have : l = "L" := by simpa [localNames, exRanks, exProc, exCollG, exCollL] using hl
    subst this
    simp only [InLocal, exRanks, exRanks', List.mem_cons, List.not_mem_nil, or_false, exists_eq_or_imp, exists_eq_left, exProc_ids]
    rw [show (exProc .colMajor .colMajor 2 0 [1] 0).coord 1 = [1] by decide +kernel,
      show (exProc .colMajor .rowMajor 1 2 [0] 1).coord 0 = [2] by decide +kernel,
      show (exProc .rowMajor .colMajor 3 0 [1, 2] 0).coord 1 = [1] by decide +kernel,
      show (exProc .rowMajor .colMajor 3 0 [1, 2] 0).coord 2 = [2] by decide +kernel]

theorem exStored : storedNames exRanks = ["T", "u", "p"] := by
  simp [storedNames, exRanks, FileRank.entries, exProc, exCollG_store, exCollL_store]

theorem exStored' : storedNames exRanks' = ["T", "u", "p"] := by
  simp [storedNames, exRanks', FileRank.entries, exProc, exCollG_store, exCollL_store]

theorem exProc_entries (oT oU : StorageOrder) (n loc : Int) (ids : List Int) (off : Int) :
    (exProc oT oU n loc ids off).entries = [(none, "T", exG "T" oT n loc, some 1), (none, "u", exG "u" oU n loc, none),
      (some ("L", 2), "p", exL ids.length, none)] := by
  simp [FileRank.entries, exProc, exCollG_store, exCollL_store]
  simp [IoColl.kind, exCollG, exCollL]

theorem exHoldsT {oT oU : StorageOrder} (hT : oT = .colMajor ∨ oT = .rowMajor) {n loc : Int} {ids : List Int} {off : Int}
    (a b : Int) (hb : b = a + loc) :
    (exProc oT oU n loc ids off).Holds "T" (exVal a "T") ⟨cycled 1 0, [exRamp n b, exRamp n (b + 100)]⟩ := by
  have h0 : Holds (exG "T" oT n loc) (exRamp n b) fun cc s g => exVal a "T" 0 cc s (id g) :=
    exG_holds hT a 0 (by simp; omega)
  have h1 : Holds (exG "T" oT n loc) (exRamp n (b + 100)) fun cc s g => exVal a "T" 1 cc s (id g) :=
    exG_holds hT a 1 (by simp; omega)
  refine ⟨(none, "T", exG "T" oT n loc, some 1), by rw [exProc_entries]; exact List.mem_cons_self, rfl, 0, rfl, rfl, ?_, ?_⟩
  · intro c hc
    simp only [List.mem_cons, List.not_mem_nil, or_false] at hc
    rcases hc with rfl | rfl
    · exact ⟨_, h0⟩
    · exact ⟨_, h1⟩
  · intro k hk
    have : k = 0 ∨ k = 1 := by omega
    rcases this with rfl | rfl
    · exact ⟨0, _, by decide, rfl, h0⟩
    · exact ⟨1, _, by decide, rfl, h1⟩

theorem exHoldsT' {oT oU : StorageOrder} (hT : oT = .colMajor ∨ oT = .rowMajor) {n loc : Int} {ids : List Int} {off : Int}
    (a b : Int) (hb : b = a + loc) :
    (exProc oT oU n loc ids off).Holds "T" (exVal a "T") ⟨cycled 1 1, [exRamp n (b + 100), exRamp n b]⟩ := by
  have h0 : Holds (exG "T" oT n loc) (exRamp n b) fun cc s g => exVal a "T" 0 cc s (id g) :=
    exG_holds hT a 0 (by simp; omega)
  have h1 : Holds (exG "T" oT n loc) (exRamp n (b + 100)) fun cc s g => exVal a "T" 1 cc s (id g) :=
    exG_holds hT a 1 (by simp; omega)
  refine ⟨(none, "T", exG "T" oT n loc, some 1), by rw [exProc_entries]; exact List.mem_cons_self, rfl, 1, rfl, rfl, ?_, ?_⟩
  · intro c hc
    simp only [List.mem_cons, List.not_mem_nil, or_false] at hc
    rcases hc with rfl | rfl
    · exact ⟨_, h1⟩
    · exact ⟨_, h0⟩
  · intro k hk
    have : k = 0 ∨ k = 1 := by omega
    rcases this with rfl | rfl
    · exact ⟨1, _, by decide, rfl, h0⟩
    · exact ⟨0, _, by decide, rfl, h1⟩

theorem exHoldsU {oT oU : StorageOrder} (hU : oU = .colMajor ∨ oU = .rowMajor) {n loc : Int} {ids : List Int} {off : Int}
    (a b : Int) (hb : b = a + loc) : (exProc oT oU n loc ids off).Holds "u" (exVal a "u") ⟨[], [exRamp n b]⟩ :=
  ⟨(none, "u", exG "u" oU n loc, none), by rw [exProc_entries]; exact List.mem_cons_of_mem _ List.mem_cons_self, rfl, _, rfl,
     exG_holds hU a 0 (by simp; omega)⟩

theorem exHoldsP {oT oU : StorageOrder} {n loc : Int} {ids : List Int} {off : Int} (a first : Int)
    (hc : ∀ i : Nat, i < ids.length → (exProc oT oU n loc ids off).coord (ids.getD i 0) = [first + i]) :
    (exProc oT oU n loc ids off).Holds "p" (exVal a "p") ⟨[], [exPairs ids.length (a + first)]⟩ := by
  refine ⟨(some ("L", 2), "p", exL ids.length, none), by
    rw [exProc_entries]; exact List.mem_cons_of_mem _ (List.mem_cons_of_mem _ List.mem_cons_self), rfl, _, rfl, ?_⟩
  have := exL_holds ids.length a first ids (exProc oT oU n loc ids off).coord (exVarP 1) 0 hc
  simpa [FileRank.view, LocalPart.view, exProc_ids] using this

theorem exRanks_hold (a : Int) : ProgramHolds exRanks (exMem a) (exVal a) := by
  intro n hn
  rw [exStored] at hn
  simp only [List.mem_cons, List.not_mem_nil, or_false] at hn
  rcases hn with rfl | rfl | rfl
  · refine .cons ?_ (.cons ?_ .nil)
    · exact exHoldsT (Or.inl rfl) a a (by omega)
    · have := exHoldsT (oT := .colMajor) (oU := .rowMajor) (n := 1) (loc := 2) (ids := [0]) (off := 1) (Or.inl rfl) a (a + 2) rfl
      rwa [show a + 2 + 100 = a + 102 by omega] at this
  · exact .cons (exHoldsU (Or.inl rfl) a a (by omega)) (.cons (exHoldsU (Or.inr rfl) a (a + 2) rfl) .nil)
  · refine .cons (exHoldsP a 1 ?_) (.cons (exHoldsP a 2 ?_) .nil)
    · intro i hi
      have : i = 0 := by simpa using hi
      subst this
      decide +kernel
    · intro i hi
      have : i = 0 := by simpa using hi
      subst this
      decide +kernel

theorem exRanks_hold' (a : Int) : ProgramHolds exRanks' (exMem' a) (exVal a) := by
  intro n hn
  rw [exStored'] at hn
  simp only [List.mem_cons, List.not_mem_nil, or_false] at hn
  rcases hn with rfl | rfl | rfl
  · exact .cons (exHoldsT' (Or.inr rfl) a a (by omega)) .nil
  · exact .cons (exHoldsU (Or.inl rfl) a a (by omega)) .nil
  · refine .cons (exHoldsP a 1 ?_) .nil
    intro i hi
    have : i = 0 ∨ i = 1 := by simp at hi; omega
    rcases this with rfl | rfl <;> decide +kernel

theorem exRanks_same : List.Forall₂ (SameOp (ProgramHolds exRanks)) exOps exSops :=
  .cons .appendFrame (.cons (.writeAll 0) (.cons .appendFrame (.cons (.compute (exRanks_hold 1000))
    (.cons (.write _ _) (.cons (.write _ _) (.cons (.write _ _) (.cons (.read _ _) (.cons (.write _ _) .nil))))))))

theorem exRanks_names : ∀ op ∈ exOps, NoLocalNames exRanks op := by
  simp [exOps, NoLocalNames, localNames, exRanks, exProc, exCollG, exCollL]

theorem exRanks_gaps : Table.NoGaps (storedNames exRanks) ⟨true, 0, exVal 5, fun _ _ => none⟩ exSops := by
  rw [exStored]
  simp [exSops, Table.NoGaps, Table.step, Table.write, Table.put, meantFrame,
    Table.ReadsFilled, Table.Filled]

/-- The hypotheses of `C66_new` are met; this is what the table expects, and what the model does. -/
example :
    (Table.run (storedNames exRanks) ⟨true, 0, exVal 5, fun _ _ => none⟩ exSops).1 =
      [true, true, true, true, true, false, false, true, true] ∧
    let p := createFile .write (exRanks.map FileRank.colls) (fun _ _ => 77) (fun _ _ => 78) (exMem 5) exOps
    p.registered = [[.ok (), .ok ()], [.ok (), .ok ()]] ∧
      p.results = [.ok (), .ok (), .ok (), .ok (), .ok (), .throw .fileIOError, .throw .fileIOError, .ok (), .ok ()] ∧
      p.nbFrames = 2 ∧ p.disk.vars = ["T", "u", "L", "p"] := by
  refine ⟨?_, ?_⟩
  · rw [exStored]
    simp [exSops, Table.run, Table.step, Table.write, Table.read, Table.put, Table.set, meantFrame]
  · decide +kernel

/-- The round trip, from the theorem: the program with one process reads the second frame. -/
example :
    let w := createFile .write (exRanks.map FileRank.colls) (fun _ _ => 77) (fun _ _ => 78) (exMem 5) exOps
    let p := useFile .read (exRanks'.map FileRank.colls) w.disk (exMem' 0) [.readAll 1]
    p.results = [.ok ()] ∧ ProgramHolds exRanks' p.mem fun n => exVal (if n = "T" then 5 else 1000) n := by
  have h := C66_round_trip exRanks_ok exNumbered (Or.inl rfl) (fun _ _ => 77) (fun _ _ => 78) (exRanks_hold 5) exRanks_same
    exRanks_names exRanks_gaps exRanks_ok' exSameData (by rw [exStored]; simp) (exRanks_hold' 0) (fr := 1)
    (val := fun n => exVal (if n = "T" then 5 else 1000) n) (by
      rw [exStored]
      simp [exSops, Table.run, Table.step, Table.write, Table.read, Table.put, Table.set, meantFrame])
  exact h.2

/-- The same as the model computes it. -/
example :
    let w := createFile .write (exRanks.map FileRank.colls) (fun _ _ => 77) (fun _ _ => 78) (exMem 5) exOps
    let p := useFile .read (exRanks'.map FileRank.colls) w.disk (exMem' 0) [.readAll 1]
    p.registered = [[.ok (), .ok ()]] ∧ p.results = [.ok ()] ∧
      (p.mem "p").map (fun m => m.bufs.map fun b => [b 0, b 1, b 2, b 3]) =
        [[[some 1001, some 1011, some 1002, some 1012]]] ∧
      (p.mem "T").map (fun m => (m.idx, m.bufs.map fun b => [b 0, b 1, b 2])) =
        [([1, 0], [[some 105, some 106, some 107], [some 5, some 6, some 7]])] := by
  decide +kernel

/-- The program with one process adds a frame, and then the one with two processes reads it. -/
def exUses : List (FileUse Int) :=
  [⟨exRanks', .append, exMem' 30, exVal 30, [.appendFrame, .writeAll (-1), .write 0 ["u"]],
      [.appendFrame, .writeAll (-1), .write 0 ["u"]]⟩,
   ⟨exRanks, .read, exMem 0, exVal 0, [.readAll 2, .write 0 ["u"], .read 0 ["u"]], [.readAll 2, .write 0 ["u"], .read 0 ["u"]]⟩]

/-- **C66** What the hypothesis on the first name leaves out: in a file opened for reading, the entries of a local
collection are unknown until one of its fields has been read, and until then a write of such a field makes no request.
The call returns as if it had written, and the file keeps its values; after a read the same call throws. -/
theorem C66_silent :
    let w := createFile .write (exRanks.map FileRank.colls) (fun _ _ => 77) (fun _ _ => 78) (exMem 5) exOps
    let v := useFile .read (exRanks.map FileRank.colls) w.disk (exMem 900) [.write 0 ["p"]]
    let r := useFile .read (exRanks.map FileRank.colls) v.disk (exMem 0) [.read 0 ["p"], .write 0 ["p"]]
    v.results = [.ok ()] ∧ r.results = [.ok (), .throw .fileIOError] ∧
      (r.mem "p").map (fun m => m.bufs.map fun b => [b 0, b 1]) = [[[some 6, some 16]], [[some 7, some 17]]] := by
  decide +kernel

theorem exSelf : SameData exRanks exRanks :=
  ⟨exRanks_ok.same, fun _ _ _ => Iff.rfl⟩

theorem exRanks_kinds {r : FileRank} (hr : r ∈ exRanks) :
    r.entries.map (fun e => (e.1, e.2.1)) = [(none, "T"), (none, "u"), (some ("L", 2), "p")] := by
  simp only [exRanks, List.mem_cons, List.not_mem_nil, or_false] at hr
  rcases hr with rfl | rfl <;> simp [exProc_entries]

/-- The field `u` is not one of a local collection. -/
theorem exRanks_global : ¬ ∃ r ∈ exRanks, ∃ e ∈ r.entries, e.2.1 = "u" ∧ e.1 ≠ none := by
  rintro ⟨r, hr, e, he, hn, hk⟩
  have hm := List.mem_map_of_mem (f := fun e => (e.1, e.2.1)) he
  rw [exRanks_kinds hr] at hm
  simp only [List.mem_cons, List.not_mem_nil, or_false, Prod.mk.injEq] at hm
  rcases hm with hm | hm | hm
  · exact hk hm.1
  · exact hk hm.1
  · rw [hn] at hm; exact absurd hm.2 (by decide)

/-- The hypotheses of `C66_programs` are met. -/
theorem exUses_ok : UsesOk [3] exRanks (Table.run (storedNames exRanks) ⟨true, 0, exVal 5, fun _ _ => none⟩ exSops).2.cell exUses := by
  generalize hcell : (Table.run (storedNames exRanks) ⟨true, 0, exVal 5, fun _ _ => none⟩ exSops).2.cell = cell
  have hval : ∃ v : String → Values Int, ∀ n ∈ ["T", "u", "p"], cell 0 n = some (exVal 5 n) ∧ cell 1 n = some (v n) := by
    refine ⟨fun n => if n = "T" then exVal 5 n else exVal 1000 n, ?_⟩
    rw [← hcell, exStored]
    simp [exSops, Table.run, Table.step, Table.write, Table.read, Table.put, Table.set, meantFrame]
  have hout : ∀ fr n v, cell fr n = some v → 0 ≤ fr ∧ fr < 2 := by
    rw [← hcell, exStored]
    intro fr n v
    simp [exSops, Table.run, Table.step, Table.write, Table.read, Table.put, Table.set, meantFrame]
    intro h
    repeat' split at h
    all_goals first | omega | cases h
  obtain ⟨w, hval⟩ := hval
  refine ⟨⟨exRanks_ok', exSameData, Or.inr rfl, exRanks_hold' 30, ?_, ?_, fun e => by cases e⟩, ?_, ?_⟩
  · exact .cons .appendFrame (.cons (.writeAll _) (.cons (.write _ _) .nil))
  · simp [exUses, NoLocalNames, localNames, exRanks', exProc, exCollG, exCollL]
  · intro _ r hr e he l total h
    have : r.entries.map (fun e => (e.1, e.2.1)) = [(none, "T"), (none, "u"), (some ("L", 2), "p")] := by
      simp only [exRanks, List.mem_cons, List.not_mem_nil, or_false] at hr
      rcases hr with rfl | rfl <;> simp [exProc_entries]
    have hm := List.mem_map_of_mem (f := fun e => (e.1, e.2.1)) he
    rw [this] at hm
    refine ⟨e, he, h, 0, ?_⟩
    simp only [List.mem_cons, List.not_mem_nil, or_false, Prod.mk.injEq] at hm
    rcases hm with hm | hm | hm <;> rw [hm.2] <;> exact ⟨_, (hval _ (by simp)).1⟩
  · intro nb hnb
    have : nb = 2 := by
      have h1 := hnb.1 1 "u" _ (hval _ (by simp)).2
      rcases hnb.2 with h | ⟨n, v, h⟩
      · omega
      · have := hout _ _ _ h; omega
    subst this
    rw [exStored]
    simp only [exUses, FileUse.table]
    refine ⟨?_, ?_⟩
    · simp [Table.NoGaps, Table.step, Table.write, Table.put, meantFrame, Table.ReadsFilled, Table.Filled]
    generalize hcell' : (Table.run _ _ _).2.cell = cell'
    simp [Table.run, Table.step, Table.write, Table.read, Table.put, Table.set, meantFrame] at hcell'
    have hval' : ∀ n ∈ ["T", "u", "p"], cell' 2 n = some (exVal 30 n) ∧ cell' 0 "u" = some (exVal 30 "u") := by
      rw [← hcell']
      simp
    have hout' : ∀ fr n v, cell' fr n = some v → 0 ≤ fr ∧ fr < 3 := by
      intro fr n v h
      rw [← hcell'] at h
      simp only at h
      repeat' split at h
      all_goals first | omega | (have := hout _ _ _ h; omega)
    refine ⟨⟨exRanks_ok, exSelf, Or.inl rfl, exRanks_hold 0, ?_, ?_, ?_⟩, (by simp), ?_⟩
    · exact .cons (.readAll _) (.cons (.write _ _) (.cons (.read _ _) .nil))
    · simp [NoLocalNames, localNames, exRanks, exProc, exCollG, exCollL]
    · intro _
      simp only [List.mem_cons, List.not_mem_nil, or_false, forall_eq_or_imp, forall_eq, RefusedBy, FirstNot, true_and,
        and_true]
      intro n hn
      cases hn
      exact exRanks_global
    · intro nb hnb'
      have : nb = 3 := by
        have h1 := hnb'.1 2 "u" _ (hval' _ (by simp)).1
        rcases hnb'.2 with h | ⟨n, v, h⟩
        · omega
        · have := hout' _ _ _ h; omega
      subst this
      rw [exStored]
      refine ⟨?_, trivial⟩
      have h1 := hval' "T" (by simp)
      have h2 := hval' "u" (by simp)
      have h3 := hval' "p" (by simp)
      simp [Table.NoGaps, Table.step, Table.write, Table.read, Table.put, Table.set, meantFrame, Table.ReadsFilled,
        Table.Filled, FileUse.table, h1, h2, h3]

/-- Both programs find what the table expects. -/
example :
    let w := createFile .write (exRanks.map FileRank.colls) (fun _ _ => 77) (fun _ _ => 78) (exMem 5) exOps
    Behaves (storedNames exRanks) (Table.run (storedNames exRanks) ⟨true, 0, exVal 5, fun _ _ => none⟩ exSops).2.cell exUses
      (runUses w.disk exUses) :=
  C66_programs exRanks_ok exNumbered (Or.inl rfl) _ _ (exRanks_hold 5) exRanks_same exRanks_names exRanks_gaps exUses_ok

/-- The same as the model computes it: the results of the calls, and what the second program has read. -/
example :
    let w := createFile .write (exRanks.map FileRank.colls) (fun _ _ => 77) (fun _ _ => 78) (exMem 5) exOps
    let rs := runUses w.disk exUses
    rs.map (fun r => r.results) = [[.ok (), .ok (), .ok ()], [.ok (), .throw .fileIOError, .ok ()]] ∧
      rs.map (fun r => r.nbFrames) = [3, 3] ∧
      ((rs.map fun r => (r.mem "p").map fun m => m.bufs.map fun b => [b 0, b 1])) =
        [[[[some 31, some 41]]], [[[some 31, some 41]], [[some 32, some 42]]]] ∧
      ((rs.map fun r => (r.mem "u").map fun m => m.bufs.map fun b => [b 0, b 1])) =
        [[[[some 30, some 31]]], [[[some 30, some 31]], [[some 32, none]]]] := by
  decide +kernel

end Verif.Props
