import Verif.Lemmas.ParallelReady
import Verif.Props.FileRanksEx
import Verif.Props.ParallelFile
/-
**C99** File objects over their lifetime in the parallel build.
-/
namespace Verif.Props
open Verif Verif.Ccoord Verif.Layout Verif.Layout.FieldLayout Verif.RawMemory Verif.FileIO Verif.NetCDF

variable {α : Type} {conv : Conv α} {convI : Conv Int}

section
variable {dom : List Int} {rs rs' : List FileRank} {mode : OpenMode}

theorem ready_program (h : ProgramOk dom rs) {F : FileRank → Reg} (hF : ∀ r ∈ rs, RegOf mode r (F r)) (hcount : Counted rs)
    {D : FileDesc} (hD : Fits D dom rs) {s : Sess} (hs : s.vars = joinVars (rs.map F)) (hh : s.hidden = joinHidden (rs.map F))
    {file : NcFile α} {cell : Int → String → Option (Values α)} (hc : Contains D (progOf rs) (joinVars (rs.map F)) file cell)
    (mem : Memory α) : ParWorld.Ready ⟨⟨s, file, mem⟩, false⟩ :=
  ready_of (registered_of h hD hF) (counted_vars h hF hcount) (fun _ _ l _ => counted_hidden rs l) hs hh hc mem

end

/-! ### Examples -/

theorem exRanks_counted : Counted exRanks := by
  intro r hr e he hk
  simp only [exRanks, List.mem_cons, List.not_mem_nil, or_false] at hr
  rcases hr with rfl | rfl <;>
  · rw [exProc_entries] at he
    simp only [List.mem_cons, List.not_mem_nil, or_false] at he
    rcases he with rfl | rfl | rfl
    · decide
    · decide
    · cases hk

theorem exRanks_counted' : Counted exRanks' := by
  intro r hr e he hk
  simp only [exRanks', List.mem_cons, List.not_mem_nil, or_false] at hr
  subst hr
  rw [exProc_entries] at he
  simp only [List.mem_cons, List.not_mem_nil, or_false] at he
  rcases he with rfl | rfl | rfl
  · decide
  · decide
  · cases hk

/-- Calls that succeed. -/
def exParOps : List (FileOp (Memory Int)) :=
  [.appendFrame, .writeAll 0, .appendFrame, .compute (exMem 1000), .write (-1) ["u", "p"], .read 0 ["p", "T"], .write (-1) ["T"]]

/-- The same for the table. -/
def exParSops : List (FileOp (String → Values Int)) :=
  [.appendFrame, .writeAll 0, .appendFrame, .compute (exVal 1000), .write (-1) ["u", "p"], .read 0 ["p", "T"], .write (-1) ["T"]]

theorem exPar_same : List.Forall₂ (SameOp (ProgramHolds exRanks)) exParOps exParSops :=
  .cons .appendFrame (.cons (.writeAll 0) (.cons .appendFrame (.cons (.compute (exRanks_hold 1000))
    (.cons (.write _ _) (.cons (.read _ _) (.cons (.write _ _) .nil))))))

theorem exPar_names : ∀ op ∈ exParOps, NoLocalNames exRanks op := by
  simp [exParOps, NoLocalNames, localNames, exRanks, exProc, exCollG, exCollL]

theorem exPar_gaps : Table.NoGaps (storedNames exRanks) ⟨true, 0, exVal 5, fun _ _ => none⟩ exParSops := by
  rw [exStored]
  simp [exParSops, Table.NoGaps, Table.step, Table.write, Table.put, meantFrame, Table.ReadsFilled, Table.Filled]

theorem exPar_all : ∀ o ∈ (Table.run (storedNames exRanks) ⟨true, 0, exVal 5, fun _ _ => none⟩ exParSops).1, o = true := by
  rw [exStored]
  simp [exParSops, Table.run, Table.step, Table.write, Table.read, Table.put, Table.set, meantFrame]

/-- The two processes of `exRanks` after the registration in a new file. -/
def exParWorld : World Int :=
  let s := joinSess .write ((registerRanks .write [] [] 0 (exRanks.map FileRank.colls)).map Prod.snd)
  ⟨s, NcFile.created s.vars s.hidden (fun _ _ => 77) (fun _ _ => 78), exMem 5⟩

theorem exParWorld_ready : ParWorld.Ready ⟨exParWorld, false⟩ ∧
    ∀ op ∈ exParOps, NoHidden exParWorld.sess.vars exParWorld.sess.hidden op := by
  obtain ⟨D, hD, -⟩ := exists_fits exRanks_ok exNumbered
  have hF : ∀ r ∈ exRanks, RegOf .write r (regOf .write [] [] 0 r) := fun r hr => regOf_new exRanks_ok (Or.inl rfl) hr
  have hsess := joinSess_created (mode := .write) (F := regOf .write [] [] 0) exRanks_ok.nonempty
    (fun r hr => (regOf_writing exRanks_ok (Or.inl rfl) hr).2.nbFrames)
  unfold exParWorld
  rw [registerRanks_snd, hsess]
  exact ⟨ready_program exRanks_ok hF exRanks_counted hD rfl rfl
    (created_contains (registered_of exRanks_ok hD hF) (fun _ _ => 77) (fun _ _ => 78)) _,
    fun op hop => noHidden_of exRanks_ok hF _ (exPar_names op hop)⟩

/-! ### Operations -/

/-- **C99** An operation that succeeds in the serial build succeeds on all processes in the parallel build, with the same
effect on the file, the memory and the file object, and the file is in the collective mode again. -/
theorem C99_step (hc : conv.Faithful) (hcI : convI.Faithful) {w : World α} (hr : ParWorld.Ready ⟨w, false⟩)
    {op : FileOp (Memory α)} (ho : NoHidden w.sess.vars w.sess.hidden op) (h : (w.step op).1 = .ok ()) :
    ParWorld.step conv convI ⟨w, false⟩ op = (.ok (), ⟨(w.step op).2, false⟩) ∧ ParWorld.Ready ⟨(w.step op).2, false⟩ :=
  have k := (par_step hc hcI hr ho).1 h
  ⟨k.1, k.2.ready hr⟩

/-- Writing a frame of all fields, two global ones (one with history) and a local one, after `append_frame`. -/
example : ParWorld.Ready ⟨exParWorld, false⟩ ∧ ((exParWorld.step .appendFrame).2.step (.writeAll 0)).1 = .ok () ∧
    (ParWorld.step exConv exConv ⟨(exParWorld.step .appendFrame).2, false⟩ (.writeAll 0)).1 = .ok () :=
  ⟨exParWorld_ready.1, by decide +kernel, by decide +kernel⟩

/-- **C99** An operation that does not succeed in the serial build does not succeed in the parallel build either, unless it
writes to a file that was opened for reading. -/
theorem C99_fails (hc : conv.Faithful) (hcI : convI.Faithful) {w : World α} (hr : ParWorld.Ready ⟨w, false⟩)
    {op : FileOp (Memory α)} (ho : NoHidden w.sess.vars w.sess.hidden op) (ha : op.Allowed w.sess.mode)
    (h : (w.step op).1 ≠ .ok ()) : (ParWorld.step conv convI ⟨w, false⟩ op).1 ≠ .ok () :=
  fun k => h ((par_step hc hcI hr ho).2 ha k)

/-- A frame that does not exist. -/
example : FileOp.Allowed exParWorld.sess.mode (.write (C := Memory Int) 3 ["u"]) ∧
    (exParWorld.step (.write 3 ["u"])).1 = .throw .fileIOError ∧
    (ParWorld.step exConv exConv ⟨exParWorld, false⟩ (.write 3 ["u"])).1 = .throw .fileIOError :=
  ⟨by show exParWorld.sess.mode ≠ .read; decide +kernel, by decide +kernel, by decide +kernel⟩

/-- **C99** Sequences of operations that succeed in the serial build do the same in the parallel build. -/
theorem C99_run_partial (hc : conv.Faithful) (hcI : convI.Faithful) {w : World α} (hr : ParWorld.Ready ⟨w, false⟩)
    {ops : List (FileOp (Memory α))} (ho : ∀ op ∈ ops, NoHidden w.sess.vars w.sess.hidden op)
    (h : ∀ o ∈ (w.run ops).1, o = .ok ()) :
    ParWorld.run conv convI ⟨w, false⟩ ops = ((w.run ops).1.map together, ⟨(w.run ops).2, false⟩) := by
  have hlen : ∀ (ops : List (FileOp (Memory α))) (w : World α), (w.run ops).1.length = ops.length := by
    intro ops
    induction ops with
    | nil => intro w; rfl
    | cons op ops ih => intro w; simp only [World.run, List.length_cons, ih]
  rw [(par_run hc hcI hr ho h).1, List.map_eq_replicate_iff.2 fun x _ => rfl, ← hlen ops w, eq_comm]
  congr 1
  exact List.map_eq_replicate_iff.2 fun o ho => by rw [h o ho]; rfl

theorem exParWorld_ok : ∀ o ∈ (exParWorld.run exParOps).1, o = .ok () := by decide +kernel

example : ParWorld.run exConv exConv ⟨exParWorld, false⟩ exParOps =
    ((exParWorld.run exParOps).1.map together, ⟨(exParWorld.run exParOps).2, false⟩) :=
  C99_run_partial exConv_faithful exConv_faithful exParWorld_ready.1 exParWorld_ready.2 exParWorld_ok

/-! ### Programs -/

section
variable {dom : List Int} {rs rs' : List FileRank} {mode : OpenMode}

/-- **C99** A program that creates a file and makes calls that succeed in the serial build: in the parallel build it has the
same results, the same values in memory and leaves the same file. -/
theorem C99_create_partial (hc : conv.Faithful) (hcI : convI.Faithful) (h : ProgramOk dom rs) (hn : Numbered rs)
    (hcount : Counted rs) (hm : mode = .write ∨ mode = .overwrite) (garbage : String → List Int → α)
    (garbageInt : String → List Int → Int) (mem : Memory α) {ops : List (FileOp (Memory α))}
    (hnames : ∀ op ∈ ops, NoLocalNames rs op)
    (hok : ∀ o ∈ (createFile mode (rs.map FileRank.colls) garbage garbageInt mem ops).results, o = .ok ()) :
    createFilePar conv convI mode (rs.map FileRank.colls) garbage garbageInt mem ops =
      (createFile mode (rs.map FileRank.colls) garbage garbageInt mem ops).inParallel := by
  obtain ⟨D, hD, -⟩ := exists_fits h hn
  have hF : ∀ r ∈ rs, RegOf mode r (regOf mode [] [] 0 r) := fun r hr => regOf_new h hm hr
  have hreg := registered_of h hD hF
  have hsess := joinSess_created (mode := mode) (F := regOf mode [] [] 0) h.nonempty
    (fun r hr => (regOf_writing h hm hr).2.nbFrames)
  unfold createFile at hok ⊢
  unfold createFilePar
  dsimp only at hok ⊢
  rw [registerRanks_snd, hsess] at hok ⊢
  rw [C99_run_partial hc hcI (ready_program h hF hcount hD rfl rfl (created_contains hreg garbage garbageInt) mem)
    (fun op hop => noHidden_of h hF _ (hnames op hop)) hok]
  rfl

theorem exPar_created : ∀ o ∈ (createFile .write (exRanks.map FileRank.colls) (fun _ _ => 77) (fun _ _ => 78) (exMem 5)
    exParOps).results, o = .ok () := by decide +kernel

example : createFilePar exConv exConv .write (exRanks.map FileRank.colls) (fun _ _ => 77) (fun _ _ => 78) (exMem 5) exParOps =
    (createFile .write (exRanks.map FileRank.colls) (fun _ _ => 77) (fun _ _ => 78) (exMem 5) exParOps).inParallel :=
  C99_create_partial exConv_faithful exConv_faithful exRanks_ok exNumbered exRanks_counted (Or.inl rfl) _ _ _ exPar_names
    exPar_created

theorem use_par (hc : conv.Faithful) (hcI : convI.Faithful) (h : ProgramOk dom rs)
    (hm : mode = .write ∨ mode = .overwrite) {D : FileDesc} {d : Disk α} {cell : Int → String → Option (Values α)}
    (hd : FileHas dom rs mode D d cell) {u : FileUse α} (hu : u.Ok dom rs) (hcount : Counted u.ranks)
    (hok : ∀ o ∈ (useFile u.mode (u.ranks.map FileRank.colls) d u.mem u.ops).results, o = .ok ()) :
    useFilePar conv convI u.mode (u.ranks.map FileRank.colls) d u.mem u.ops =
      (useFile u.mode (u.ranks.map FileRank.colls) d u.mem u.ops).inParallel := by
  obtain ⟨r0, rest, hrs⟩ : ∃ r0 rest, rs = r0 :: rest := by
    cases hrs : rs with
    | nil => exact absurd hrs h.nonempty
    | cons a l => exact ⟨a, l, rfl⟩
  have h0 : r0 ∈ rs := by rw [hrs]; simp
  obtain ⟨hd1, hd2⟩ := hd.header r0 h0
  have hF0 : ∀ r ∈ rs, RegOf mode r (regOf mode [] [] 0 r) := fun r hr => regOf_new h hm hr
  have hagain := fun r' hr' => regOf_again h hm h0 hu.ok hu.data hu.mode d.data.numrecs (r' := r') hr'
  dsimp only at hagain
  rw [← hd1, ← hd2] at hagain
  have hF : ∀ r ∈ u.ranks, RegOf u.mode r (regOf u.mode d.dims d.vars d.data.numrecs r) := fun r hr => (hagain r hr).2.1
  have hD := fits_of_same h hd.fits hu.ok hu.data
  have hreg0 := registered_of h hd.fits hF0
  have hreg := registered_of hu.ok hD hF
  have hsig := signature_eq h hF0 hu.ok hF hu.data
  have hcont := C62_any_program hreg0 hreg hsig hd.values
  have hsess := joinSess_created (mode := u.mode) (F := regOf u.mode d.dims d.vars d.data.numrecs) hu.ok.nonempty
    (fun r hr => (hagain r hr).2.2.2.2)
  unfold useFile at hok ⊢
  unfold useFilePar
  dsimp only at hok ⊢
  rw [registerRanks_snd, hsess] at hok ⊢
  rw [C99_run_partial hc hcI (ready_program hu.ok hF hcount hD rfl rfl hcont u.mem)
    (fun op hop => noHidden_of hu.ok hF _ (hu.names op hop)) hok]
  rfl

theorem uses_par (hc : conv.Faithful) (hcI : convI.Faithful) (h : ProgramOk dom rs)
    (hm : mode = .write ∨ mode = .overwrite) {D : FileDesc} (us : List (FileUse α)) {d : Disk α}
    {cell : Int → String → Option (Values α)} (hd : FileHas dom rs mode D d cell) (hus : UsesOk dom rs cell us)
    (hcount : ∀ u ∈ us, Counted u.ranks) (hok : ∀ p ∈ runUses d us, ∀ o ∈ p.results, o = .ok ()) :
    runUsesPar conv convI d us = (runUses d us).map ProgramRun.inParallel := by
  induction us generalizing d cell with
  | nil => rfl
  | cons u us ih =>
    obtain ⟨h1, h2, h3⟩ := hus
    obtain ⟨h4, h5⟩ := h3 _ hd.nbFrames
    obtain ⟨-, -, -, -, k5⟩ := use_has h hm hd h1 h2 h4
    have e := use_par hc hcI h hm hd h1 (hcount u (List.mem_cons_self ..)) (hok _ (List.mem_cons_self ..))
    rw [runUsesPar, runUses, e, List.map_cons]
    congr 1
    exact ih k5 h5 (fun u hu => hcount u (List.mem_cons_of_mem _ hu)) fun p hp => hok p (List.mem_cons_of_mem _ hp)

/-- **C99** A program creates a file, other programs open it one after the other for reading or appending, each with any number
of processes and any decomposition.  If all calls succeed in the serial build, every program has the same results, the same
values in memory and leaves the same file in the parallel build. -/
theorem C99_programs_partial (hc : conv.Faithful) (hcI : convI.Faithful) (h : ProgramOk dom rs) (hn : Numbered rs)
    (hcount : Counted rs) (hm : mode = .write ∨ mode = .overwrite)
    (garbage : String → List Int → α) (garbageInt : String → List Int → Int) {mem : Memory α} {cur : String → Values α}
    (hmem : ProgramHolds rs mem cur) {ops : List (FileOp (Memory α))} {sops : List (FileOp (String → Values α))}
    (hops : List.Forall₂ (SameOp (ProgramHolds rs)) ops sops) (hnames : ∀ op ∈ ops, NoLocalNames rs op)
    (hgap : Table.NoGaps (storedNames rs) ⟨true, 0, cur, fun _ _ => none⟩ sops) {us : List (FileUse α)}
    (hus : UsesOk dom rs (Table.run (storedNames rs) ⟨true, 0, cur, fun _ _ => none⟩ sops).2.cell us)
    (hcounts : ∀ u ∈ us, Counted u.ranks)
    (hok : ∀ o ∈ (createFile mode (rs.map FileRank.colls) garbage garbageInt mem ops).results, o = .ok ())
    (hoks : ∀ p ∈ runUses (createFile mode (rs.map FileRank.colls) garbage garbageInt mem ops).disk us,
      ∀ o ∈ p.results, o = .ok ()) :
    let w := createFile mode (rs.map FileRank.colls) garbage garbageInt mem ops
    let w' := createFilePar conv convI mode (rs.map FileRank.colls) garbage garbageInt mem ops
    w' = w.inParallel ∧ runUsesPar conv convI w'.disk us = (runUses w.disk us).map ProgramRun.inParallel := by
  intro w w'
  have e : w' = w.inParallel := C99_create_partial hc hcI h hn hcount hm garbage garbageInt mem hnames hok
  obtain ⟨-, -, -, -, D, hD⟩ := create_has h hn hm garbage garbageInt hmem hops hnames hgap
  refine ⟨e, ?_⟩
  rw [e]
  exact uses_par hc hcI h hm us hD hus hcounts hoks

/-- The program with one process adds a frame, and then the one with two processes reads it. -/
def exParUses : List (FileUse Int) :=
  [⟨exRanks', .append, exMem' 30, exVal 30, [.appendFrame, .writeAll (-1), .write 0 ["u"]],
      [.appendFrame, .writeAll (-1), .write 0 ["u"]]⟩,
   ⟨exRanks, .read, exMem 0, exVal 0, [.readAll 2, .read 0 ["u"]], [.readAll 2, .read 0 ["u"]]⟩]

theorem exParUses_ok : UsesOk [3] exRanks (Table.run (storedNames exRanks) ⟨true, 0, exVal 5, fun _ _ => none⟩ exParSops).2.cell exParUses := by
  generalize hcell : (Table.run (storedNames exRanks) ⟨true, 0, exVal 5, fun _ _ => none⟩ exParSops).2.cell = cell
  have hval : ∃ v : String → Values Int, ∀ n ∈ ["T", "u", "p"], cell 0 n = some (exVal 5 n) ∧ cell 1 n = some (v n) := by
    refine ⟨fun n => if n = "T" then exVal 5 n else exVal 1000 n, ?_⟩
    rw [← hcell, exStored]
    simp [exParSops, Table.run, Table.step, Table.write, Table.read, Table.put, Table.set, meantFrame]
  have hout : ∀ fr n v, cell fr n = some v → 0 ≤ fr ∧ fr < 2 := by
    rw [← hcell, exStored]
    intro fr n v
    simp [exParSops, Table.run, Table.step, Table.write, Table.read, Table.put, Table.set, meantFrame]
    intro h
    repeat' split at h
    all_goals first | omega | cases h
  obtain ⟨w, hval⟩ := hval
  refine ⟨⟨exRanks_ok', exSameData, Or.inr rfl, exRanks_hold' 30, ?_, ?_, fun e => by cases e⟩, ?_, ?_⟩
  · exact .cons .appendFrame (.cons (.writeAll _) (.cons (.write _ _) .nil))
  · simp [exParUses, NoLocalNames, localNames, exRanks', exProc, exCollG, exCollL]
  · intro _ r hr e he l total h
    have : r.entries.map (fun e => (e.1, e.2.1)) = [(none, "T"), (none, "u"), (some ("L", 2), "p")] := by
      simp only [exRanks, List.mem_cons, List.not_mem_nil, or_false] at hr
      rcases hr with rfl | rfl <;> simp [exProc_entries]
    have hm := List.mem_map_of_mem (f := fun e => (e.1, e.2.1)) he
    rw [this] at hm
    refine ⟨e, he, h, 0, ?_⟩
    simp only [List.mem_cons, List.not_mem_nil, or_false, Prod.mk.injEq] at hm
    rcases hm with hm | hm | hm <;> rw [hm.2] <;> exact ⟨_, (hval _ (by simp)).1⟩
  · intro nb hnb
    have : nb = 2 := by
      have h1 := hnb.1 1 "u" _ (hval _ (by simp)).2
      rcases hnb.2 with h | ⟨n, v, h⟩
      · omega
      · have := hout _ _ _ h; omega
    subst this
    rw [exStored]
    simp only [exParUses, FileUse.table]
    refine ⟨?_, ?_⟩
    · simp [Table.NoGaps, Table.step, Table.write, Table.put, meantFrame, Table.ReadsFilled, Table.Filled]
    generalize hcell' : (Table.run _ _ _).2.cell = cell'
    simp [Table.run, Table.step, Table.write, Table.read, Table.put, Table.set, meantFrame] at hcell'
    have hval' : ∀ n ∈ ["T", "u", "p"], cell' 2 n = some (exVal 30 n) ∧ cell' 0 "u" = some (exVal 30 "u") := by
      rw [← hcell']
      simp
    have hout' : ∀ fr n v, cell' fr n = some v → 0 ≤ fr ∧ fr < 3 := by
      intro fr n v h
      rw [← hcell'] at h
      simp only at h
      repeat' split at h
      all_goals first | omega | (have := hout _ _ _ h; omega)
    refine ⟨⟨exRanks_ok, exSelf, Or.inl rfl, exRanks_hold 0, ?_, ?_,
      fun _ => by simp [RefusedBy, FirstNot]⟩, (by simp), ?_⟩
    · exact .cons (.readAll _) (.cons (.read _ _) .nil)
    · simp [NoLocalNames, localNames, exRanks, exProc, exCollG, exCollL]
    · intro nb hnb'
      have : nb = 3 := by
        have h1 := hnb'.1 2 "u" _ (hval' _ (by simp)).1
        rcases hnb'.2 with h | ⟨n, v, h⟩
        · omega
        · have := hout' _ _ _ h; omega
      subst this
      rw [exStored]
      refine ⟨?_, trivial⟩
      have h1 := hval' "T" (by simp)
      have h2 := hval' "u" (by simp)
      have h3 := hval' "p" (by simp)
      simp [Table.NoGaps, Table.step, Table.write, Table.read, Table.put, Table.set, meantFrame, Table.ReadsFilled,
        Table.Filled, FileUse.table, h1, h2, h3]

example :
    let w := createFile .write (exRanks.map FileRank.colls) (fun _ _ => 77) (fun _ _ => 78) (exMem 5) exParOps
    let w' := createFilePar exConv exConv .write (exRanks.map FileRank.colls) (fun _ _ => 77) (fun _ _ => 78) (exMem 5) exParOps
    w' = w.inParallel ∧ runUsesPar exConv exConv w'.disk exParUses = (runUses w.disk exParUses).map ProgramRun.inParallel :=
  C99_programs_partial exConv_faithful exConv_faithful exRanks_ok exNumbered exRanks_counted (Or.inl rfl) _ _ (exRanks_hold 5)
    exPar_same exPar_names exPar_gaps exParUses_ok (by simp [exParUses, exRanks_counted, exRanks_counted']) exPar_created
    (by decide +kernel)

/-- **C99** Round trip in the parallel build: what one program writes, another one reads, with any numbers of processes,
decompositions and storage orders. -/
theorem C99_round_trip (hc : conv.Faithful) (hcI : convI.Faithful) (h : ProgramOk dom rs) (hn : Numbered rs)
    (hcount : Counted rs) (hm : mode = .write ∨ mode = .overwrite)
    (garbage : String → List Int → α) (garbageInt : String → List Int → Int) {mem : Memory α} {cur : String → Values α}
    (hmem : ProgramHolds rs mem cur) {ops : List (FileOp (Memory α))} {sops : List (FileOp (String → Values α))}
    (hops : List.Forall₂ (SameOp (ProgramHolds rs)) ops sops) (hnames : ∀ op ∈ ops, NoLocalNames rs op)
    (hgap : Table.NoGaps (storedNames rs) ⟨true, 0, cur, fun _ _ => none⟩ sops)
    (hall : ∀ o ∈ (Table.run (storedNames rs) ⟨true, 0, cur, fun _ _ => none⟩ sops).1, o = true)
    (h' : ProgramOk dom rs') (hs : SameData rs rs') (hcount' : Counted rs') (hne : storedNames rs ≠ []) {mem' : Memory α}
    {cur' : String → Values α} (hmem' : ProgramHolds rs' mem' cur') {fr : Int} {val : String → Values α}
    (hval : ∀ n ∈ storedNames rs, (Table.run (storedNames rs) ⟨true, 0, cur, fun _ _ => none⟩ sops).2.cell fr n =
      some (val n)) :
    let w := createFilePar conv convI mode (rs.map FileRank.colls) garbage garbageInt mem ops
    let p := useFilePar conv convI .read (rs'.map FileRank.colls) w.disk mem' [.readAll fr]
    (∀ o ∈ w.results, o = .ok ()) ∧ (∀ os ∈ p.registered, ∀ o ∈ os, o = .ok ()) ∧ p.results = [.ok ()] ∧
      ProgramHolds rs' p.mem val := by
  intro w p
  obtain ⟨-, hres, -, -, D, hD⟩ := create_has h hn hm garbage garbageInt hmem hops hnames hgap
  have hok : ∀ o ∈ (createFile mode (rs.map FileRank.colls) garbage garbageInt mem ops).results, o = .ok () := by
    generalize (createFile mode (rs.map FileRank.colls) garbage garbageInt mem ops).results = a at hres
    generalize (Table.run (storedNames rs) ⟨true, 0, cur, fun _ _ => none⟩ sops).1 = b at hres hall
    induction hres with
    | nil => intro o ho; cases ho
    | @cons a b as bs hab _ ih =>
      intro o ho
      rcases List.mem_cons.1 ho with rfl | ho
      · rw [hall b (List.mem_cons_self ..)] at hab
        have := asExpected_one (.cons hab .nil)
        exact List.head_eq_of_cons_eq this
      · exact ih (fun o ho => hall o (List.mem_cons_of_mem _ ho)) o ho
  have e : w = _ := C99_create_partial hc hcI h hn hcount hm garbage garbageInt mem hnames hok
  obtain ⟨k1, k2, k3⟩ := C66_round_trip h hn hm garbage garbageInt hmem hops hnames hgap h' hs hne hmem' hval
  have ep : p = (useFile .read (rs'.map FileRank.colls)
      (createFile mode (rs.map FileRank.colls) garbage garbageInt mem ops).disk mem' [.readAll fr]).inParallel := by
    show useFilePar conv convI .read (rs'.map FileRank.colls) w.disk mem' [.readAll fr] = _
    rw [e]
    exact use_par hc hcI h hm hD (u := ⟨rs', .read, mem', cur', [.readAll fr], [.readAll fr]⟩)
      ⟨h', hs, Or.inl rfl, hmem', by constructor; exact .readAll fr; constructor, by simp [NoLocalNames],
        fun _ => by simp [RefusedBy, FirstNot]⟩ hcount'
      (by rw [k2]; simp)
  refine ⟨?_, ?_, ?_, ?_⟩
  · intro o ho
    rw [e] at ho
    obtain ⟨o', ho', rfl⟩ := List.mem_map.1 ho
    rw [hok o' ho']; rfl
  · rw [ep]; exact k1
  · rw [ep]
    show List.map together _ = _
    rw [k2]; rfl
  · rw [ep]; exact k3

example :
    let w := createFilePar exConv exConv .write (exRanks.map FileRank.colls) (fun _ _ => 77) (fun _ _ => 78) (exMem 5) exParOps
    let p := useFilePar exConv exConv .read (exRanks'.map FileRank.colls) w.disk (exMem' 0) [.readAll 1]
    p.results = [.ok ()] ∧ ProgramHolds exRanks' p.mem fun n => exVal (if n = "T" then 5 else 1000) n := by
  have h := C99_round_trip exConv_faithful exConv_faithful exRanks_ok exNumbered exRanks_counted (Or.inl rfl) (fun _ _ => 77)
    (fun _ _ => 78) (exRanks_hold 5) exPar_same exPar_names exPar_gaps exPar_all exRanks_ok' exSameData exRanks_counted'
    (by rw [exStored]; simp) (exRanks_hold' 0) (fr := 1) (val := fun n => exVal (if n = "T" then 5 else 1000) n) (by
      rw [exStored]
      simp [exParSops, Table.run, Table.step, Table.write, Table.read, Table.put, Table.set, meantFrame])
  exact h.2.2

/-- The same as the model computes it. -/
example :
    let w := createFilePar exConv exConv .write (exRanks.map FileRank.colls) (fun _ _ => 77) (fun _ _ => 78) (exMem 5) exParOps
    let p := useFilePar exConv exConv .read (exRanks'.map FileRank.colls) w.disk (exMem' 0) [.readAll 1]
    p.registered = [[.ok (), .ok ()]] ∧ p.results = [.ok ()] ∧
      (p.mem "p").map (fun m => m.bufs.map fun b => [b 0, b 1, b 2, b 3]) =
        [[[some 1001, some 1011, some 1002, some 1012]]] ∧
      (p.mem "T").map (fun m => (m.idx, m.bufs.map fun b => [b 0, b 1, b 2])) =
        [([1, 0], [[some 105, some 106, some 107], [some 5, some 6, some 7]])] := by
  decide +kernel

end

/-! ### A file that has been left in the independent mode -/

theorem mapRes_source {β γ : Type} {g : β → Res γ} {l : List β} {r : List γ} (h : mapRes g l = .ok r) :
    ∀ y ∈ r, ∃ x ∈ l, g x = .ok y := by
  have h := mapRes_iff.1 h
  induction h with
  | nil => intro y hy; cases hy
  | @cons a b l r hab _ ih =>
    intro y hy
    rcases List.mem_cons.1 hy with rfl | hy
    · exact ⟨a, List.mem_cons_self .., hab⟩
    · obtain ⟨x, hx, e⟩ := ih (mapRes_iff.2 ‹_›) y hy
      exact ⟨x, List.mem_cons_of_mem _ hx, e⟩

theorem procData_mem {vs : List Var} {ms : List (List Int)} {ps : List (ProcMem α)} {w : StateData α}
    (h : w ∈ procData vs ms ps) : w.v ∈ vs := by
  induction vs generalizing ms ps with
  | nil => cases ms <;> cases ps <;> cases h
  | cons v vs ih =>
    cases ms with
    | nil => cases ps <;> cases h
    | cons m ms =>
      cases ps with
      | nil => cases h
      | cons p ps =>
        rcases List.mem_cons.1 h with rfl | h
        · exact List.mem_cons_self ..
        · exact List.mem_cons_of_mem _ (ih h)

theorem jointly_throws {β : Type} {rs : List (Res β)} {e : Err} (hne : rs ≠ []) (h : ∀ r ∈ rs, r = .throw e) :
    jointly rs = .throw e := by
  have h1 : rs.any isUb = false := by
    rw [List.any_eq_false]
    intro r hr
    rw [h r hr]
    simp [isUb]
  have h2 : rs.all isThrow = true := by
    rw [List.all_eq_true]
    intro r hr
    rw [h r hr]
    rfl
  cases rs with
  | nil => exact absurd rfl hne
  | cons a l =>
    have ha := h a (List.mem_cons_self ..)
    unfold jointly
    rw [if_neg (by rw [h1]; simp), h2, mapRes, show id a = a from rfl, ha]
    rfl

theorem getCall_stuck {nb frame : Int} {k : Nat} {numrecs : Int} {fv : FileVar α} {ws : List (Var × List Int × Mem α)}
    (hne : ws ≠ []) (hg : ∀ w ∈ ws, w.1.field.isGlobal = true) :
    getCall conv true nb frame k numrecs fv ws = (.throw .fileIOError, true) := by
  have hj : jointly (ws.map fun w => w.1.getPart conv true nb frame k w.2.1 numrecs fv w.2.2) = .throw .fileIOError := by
    refine jointly_throws (by simpa using hne) fun r hr => ?_
    obtain ⟨w, hw, rfl⟩ := List.mem_map.1 hr
    rw [Var.getPart, if_pos (hg w hw), if_pos rfl]
  unfold getCall
  dsimp only
  rw [hj]
  simp [indepAfter]

theorem putParts_stuck {writable : Bool} {nb frame : Int} {k : Nat} {fv : FileVar α} {ws : List (Var × List Int × Mem α)}
    (hg : ∀ w ∈ ws, w.1.field.isGlobal = true) :
    putParts conv writable true nb frame k ws fv = (ws.map fun _ => .throw .fileIOError, fv) := by
  induction ws with
  | nil => rfl
  | cons w ws ih =>
    obtain ⟨v, m, b⟩ := w
    have e : v.putPart conv writable true nb frame k m b fv = .throw .fileIOError := by
      rw [Var.putPart, if_pos (hg _ (List.mem_cons_self ..)), Bool.true_or, if_pos rfl]
    rw [putParts, e]
    dsimp only
    rw [ih fun w hw => hg w (List.mem_cons_of_mem _ hw), List.map_cons]

theorem putCall_stuck {writable : Bool} {nb frame : Int} {k : Nat} {fv : FileVar α} {ws : List (Var × List Int × Mem α)}
    (hne : ws ≠ []) (hg : ∀ w ∈ ws, w.1.field.isGlobal = true) :
    putCall conv writable true nb frame k ws fv = (.throw .fileIOError, true, fv) := by
  have hj : jointly (putParts conv writable true nb frame k ws fv).1 = .throw .fileIOError := by
    rw [putParts_stuck hg]
    refine jointly_throws (by simpa using hne) fun r hr => ?_
    obtain ⟨w, hw, rfl⟩ := List.mem_map.1 hr
    rfl
  unfold putCall
  dsimp only
  rw [hj, putParts_stuck hg]
  simp [indepAfter]

/-- Not a success, and the file is still in the independent mode. -/
def Stuck {β γ : Type} (r : Joint β × γ) (indep : γ → Bool) : Prop := (∀ x, r.1 ≠ .ok x) ∧ indep r.2 = true

theorem putPar_stuck {writable : Bool} {x : SessVar} {nb frame : Int} {ws : List (StateData α)} {fv : FileVar α} (hne : ws ≠ [])
    (hg : ∀ w ∈ ws, w.v.field.isGlobal = true) : Stuck (x.putPar conv writable true nb frame ws fv) Prod.fst := by
  have key : ∀ (g : StateData α → Res (Mem α)) {rs},
      mapRes (fun w : StateData α => do let b ← g w; pure (w.v, w.marks, b)) ws = .ok rs →
      rs ≠ [] ∧ ∀ r ∈ rs, r.1.field.isGlobal = true := by
    intro g rs h
    refine ⟨fun e => hne (List.eq_nil_of_length_eq_zero (by rw [← mapRes_length h, e]; rfl)), fun r hr => ?_⟩
    obtain ⟨w, hw, e⟩ := mapRes_source h r hr
    obtain ⟨b, -, e⟩ := Res.bind_eq_ok.1 e
    cases e
    exact hg w hw
  unfold SessVar.putPar
  split
  · rw [List.range_succ_eq_map, putHist]
    split
    · exact ⟨fun x h => (by cases h), rfl⟩
    · exact ⟨fun x h => (by cases h), rfl⟩
    · rename_i rs hrs
      obtain ⟨k1, k2⟩ := key (fun w => stateBuf w.idx w.bufs 0) hrs
      rw [putCall_stuck k1 k2]
      exact ⟨fun x h => (by cases h), rfl⟩
  · split
    · exact ⟨fun x h => (by cases h), rfl⟩
    · exact ⟨fun x h => (by cases h), rfl⟩
    · rename_i rs hrs
      obtain ⟨k1, k2⟩ := key (fun w => at! w.bufs 0) hrs
      rw [putCall_stuck k1 k2]
      exact ⟨fun x h => (by cases h), rfl⟩

theorem getPar_stuck {x : SessVar} {nb frame numrecs : Int} {ws : List (StateData α)} {fv : FileVar α} (hne : ws ≠ [])
    (hg : ∀ w ∈ ws, w.v.field.isGlobal = true) : Stuck (x.getPar conv true nb frame numrecs ws fv) id := by
  unfold SessVar.getPar
  split
  · rw [List.range_succ_eq_map, getHist]
    split
    · rename_i h
      split at h
      · cases h
      · cases h
      · rename_i rs hrs
        have k1 : rs ≠ [] := fun e => hne (List.eq_nil_of_length_eq_zero (by rw [← mapRes_length hrs, e]; rfl))
        rw [getCall_stuck (by simpa using k1) (by
          intro w hw
          obtain ⟨r, hr, rfl⟩ := List.mem_map.1 hw
          obtain ⟨w0, hw0, e⟩ := mapRes_source hrs r hr
          obtain ⟨j, -, e⟩ := Res.bind_eq_ok.1 e
          obtain ⟨b, -, e⟩ := Res.bind_eq_ok.1 e
          cases e
          exact hg w0 hw0)] at h
        cases h
    all_goals
      rename_i h
      refine ⟨fun x h => (by cases h), ?_⟩
      split at h
      · cases h <;> rfl
      · cases h <;> rfl
      · rename_i rs hrs
        have k1 : rs ≠ [] := fun e => hne (List.eq_nil_of_length_eq_zero (by rw [← mapRes_length hrs, e]; rfl))
        rw [getCall_stuck (by simpa using k1) (by
          intro w hw
          obtain ⟨r, hr, rfl⟩ := List.mem_map.1 hw
          obtain ⟨w0, hw0, e⟩ := mapRes_source hrs r hr
          obtain ⟨j, -, e⟩ := Res.bind_eq_ok.1 e
          obtain ⟨b, -, e⟩ := Res.bind_eq_ok.1 e
          cases e
          exact hg w0 hw0)] at h
        cases h <;> rfl
  · split
    · exact ⟨fun x h => (by cases h), rfl⟩
    · exact ⟨fun x h => (by cases h), rfl⟩
    · rename_i rs hrs
      have k1 : rs ≠ [] := fun e => hne (List.eq_nil_of_length_eq_zero (by rw [← mapRes_length hrs, e]; rfl))
      rw [getCall_stuck k1 (by
        intro r hr
        obtain ⟨w, hw, e⟩ := mapRes_source hrs r hr
        obtain ⟨b, -, e⟩ := Res.bind_eq_ok.1 e
        cases e
        exact hg w hw)]
      exact ⟨fun x h => (by cases h), rfl⟩

/-- **C99** A file that was left in the independent mode: writing and reading a global field, with or without history, fails,
changes neither the file nor the memory and leaves the file in the independent mode. -/
theorem C99_stuck {p : ParWorld α} (hi : p.indep = true) {x : SessVar} (hg : ∀ v ∈ x.parts, v.field.isGlobal = true)
    (hd : procData x.parts (p.sess.marksOf x) (p.mem x.name) ≠ []) (frame : Int) :
    ((p.putVar conv x frame).1 ≠ .ok () ∧ (p.putVar conv x frame).2 = p) ∧
      ((p.getVar conv x frame).1 ≠ .ok () ∧ (p.getVar conv x frame).2 = p) := by
  have hg' : ∀ w ∈ procData x.parts (p.sess.marksOf x) (p.mem x.name), w.v.field.isGlobal = true :=
    fun w hw => hg _ (procData_mem hw)
  obtain ⟨w, i⟩ := p
  cases hi
  constructor
  · unfold ParWorld.putVar
    split
    · exact ⟨fun h => (by cases h), rfl⟩
    rename_i fv hf
    split
    · exact ⟨fun h => (by cases h), rfl⟩
    · exact ⟨fun h => (by cases h), rfl⟩
    · obtain ⟨k1, k2⟩ := putPar_stuck (conv := conv) (writable := w.sess.mode ≠ .read) (x := x) (nb := w.sess.nbFrames) (frame := frame)
        (fv := fv) hd hg'
      rcases hp : x.putPar conv (w.sess.mode ≠ .read) true w.sess.nbFrames frame
        (procData x.parts (w.sess.marksOf x) (w.mem x.name)) fv with ⟨j, i, fv'⟩
      rw [hp] at k1 k2
      cases k2
      cases j with
      | ok y => exact absurd rfl (k1 y)
      | throw e => exact ⟨fun h => (by cases h), rfl⟩
      | ub => exact ⟨fun h => (by cases h), rfl⟩
      | apart => exact ⟨fun h => (by cases h), rfl⟩
  · unfold ParWorld.getVar
    split
    · exact ⟨fun h => (by cases h), rfl⟩
    rename_i fv hf
    obtain ⟨k1, k2⟩ := getPar_stuck (conv := conv) (x := x) (nb := w.sess.nbFrames) (frame := frame) (numrecs := w.file.numrecs)
      (fv := fv) hd hg'
    rcases hp : x.getPar conv true w.sess.nbFrames frame w.file.numrecs
      (procData x.parts (w.sess.marksOf x) (w.mem x.name)) fv with ⟨j, i⟩
    rw [hp] at k1 k2
    cases k2
    cases j with
    | ok y => exact absurd rfl (k1 y)
    | throw e => exact ⟨fun h => (by cases h), rfl⟩
    | ub => exact ⟨fun h => (by cases h), rfl⟩
    | apart => exact ⟨fun h => (by cases h), rfl⟩

/-- The file of `exParWorld`, opened for reading, after the local field was read and an attempt to write it: it is in the independent mode. -/
example :
    let w := createFile .write (exRanks.map FileRank.colls) (fun _ _ => 77) (fun _ _ => 78) (exMem 5) exParOps
    let s := joinSess .read ((registerRanks .read w.disk.dims w.disk.vars 2 (exRanks.map FileRank.colls)).map Prod.snd)
    let q := ParWorld.step exConv exConv ⟨⟨s, w.disk.data, exMem 0⟩, false⟩ (.read 0 ["p"])
    let p := ParWorld.step exConv exConv q.2 (.write 0 ["p"])
    q.1 = .ok () ∧ p.1 = .throw .fileIOError ∧ p.2.indep = true ∧
      ∃ x ∈ p.2.sess.vars, (∀ v ∈ x.parts, v.field.isGlobal = true) ∧
        (procData x.parts (p.2.sess.marksOf x) (p.2.mem x.name)).length = 2 := by
  decide +kernel

/-! ### Programs that make calls that fail -/

/-- The claim without the restriction to calls that succeed: programs do the same in both builds. -/
def C99_statement : Prop :=
  ∀ (conv : Conv Int) (convI : Conv Int), conv.Faithful → convI.Faithful → ∀ (dom : List Int) (rs : List FileRank)
    (mode : OpenMode), ProgramOk dom rs → Numbered rs → Counted rs → mode = .write ∨ mode = .overwrite →
    ∀ (garbage : String → List Int → Int) (garbageInt : String → List Int → Int) (mem : Memory Int)
      (cur : String → Values Int), ProgramHolds rs mem cur →
    ∀ (ops : List (FileOp (Memory Int))) (sops : List (FileOp (String → Values Int))),
      List.Forall₂ (SameOp (ProgramHolds rs)) ops sops → (∀ op ∈ ops, NoLocalNames rs op) →
      Table.NoGaps (storedNames rs) ⟨true, 0, cur, fun _ _ => none⟩ sops →
    ∀ us : List (FileUse Int), UsesOk dom rs (Table.run (storedNames rs) ⟨true, 0, cur, fun _ _ => none⟩ sops).2.cell us →
      (∀ u ∈ us, Counted u.ranks) →
      let w := createFile mode (rs.map FileRank.colls) garbage garbageInt mem ops
      let w' := createFilePar conv convI mode (rs.map FileRank.colls) garbage garbageInt mem ops
      (runUsesPar conv convI w'.disk us).map (fun p => p.results) = (runUses w.disk us).map fun p => p.results.map together

/-- A program that opens a file with two frames, asks for frame -3 of a local field, catches the exception and reads a global
field. -/
def exWrongUse : List (FileUse Int) :=
  [⟨exRanks, .read, exMem 0, exVal 0, [.read (-3) ["p"], .read 0 ["u"]], [.read (-3) ["p"], .read 0 ["u"]]⟩]

theorem exWrongUse_ok :
    UsesOk [3] exRanks (Table.run (storedNames exRanks) ⟨true, 0, exVal 5, fun _ _ => none⟩ exSops).2.cell exWrongUse := by
  generalize hcell : (Table.run (storedNames exRanks) ⟨true, 0, exVal 5, fun _ _ => none⟩ exSops).2.cell = cell
  have hval : cell 0 "u" = some (exVal 5 "u") ∧ HasCell cell "p" ∧ ∃ v, cell 1 "u" = some v := by
    refine ⟨?_, ⟨0, exVal 5 "p", ?_⟩, ?_⟩ <;> rw [← hcell, exStored] <;>
    simp [exSops, Table.run, Table.step, Table.write, Table.read, Table.put, Table.set, meantFrame]
  have hout : ∀ fr n v, cell fr n = some v → 0 ≤ fr ∧ fr < 2 := by
    rw [← hcell, exStored]
    intro fr n v
    simp [exSops, Table.run, Table.step, Table.write, Table.read, Table.put, Table.set, meantFrame]
    intro h
    repeat' split at h
    all_goals first | omega | cases h
  obtain ⟨h0, hp, v, h1⟩ := hval
  refine ⟨⟨exRanks_ok, exSelf, Or.inl rfl, exRanks_hold 0, ?_, ?_,
      fun _ => by simp [RefusedBy, FirstNot]⟩, (by simp), ?_⟩
  · exact .cons (.read _ _) (.cons (.read _ _) .nil)
  · simp [NoLocalNames, localNames, exRanks, exProc, exCollG, exCollL]
  · intro nb hnb
    have : nb = 2 := by
      have h1 := hnb.1 1 "u" _ h1
      rcases hnb.2 with h | ⟨n, v, h⟩
      · omega
      · have := hout _ _ _ h; omega
    subst this
    rw [exStored]
    refine ⟨?_, trivial⟩
    simp [Table.NoGaps, Table.step, Table.write, Table.read, Table.put, Table.set, meantFrame, Table.ReadsFilled,
      Table.Filled, FileUse.table, h0, hp]

/-- **C99** In the parallel build a refused transfer of a local field has an effect on what follows.  A program asks for
a frame of a local field that does not exist and catches the exception.  In the serial build it can go on and read other
fields; in the parallel build the file has been left in the independent mode, and reading fails. -/
theorem C99_false : ¬ C99_statement := by
  intro h
  have := h exConv exConv exConv_faithful exConv_faithful [3] exRanks .write exRanks_ok exNumbered exRanks_counted (Or.inl rfl)
    (fun _ _ => 77) (fun _ _ => 78) (exMem 5) (exVal 5) (exRanks_hold 5) exOps exSops exRanks_same exRanks_names exRanks_gaps
    exWrongUse exWrongUse_ok (by simp [exWrongUse, exRanks_counted])
  revert this
  decide +kernel

/-- What the program does in the two builds. -/
example :
    let w := createFile .write (exRanks.map FileRank.colls) (fun _ _ => 77) (fun _ _ => 78) (exMem 5) exOps
    (runUses w.disk exWrongUse).map (fun p => p.results) = [[.throw .fileIOError, .ok ()]] ∧
      (runUsesPar exConv exConv w.disk exWrongUse).map (fun p => p.results) =
        [[.throw .fileIOError, .throw .fileIOError]] := by
  decide +kernel

/-- Two processes, the second one without pixels of the local collection. -/
def exLopsided : List (List IoColl) :=
  [[exCollG .colMajor .colMajor 2 0, ⟨"L", true, [exL 1], [], .isLocal [1] 1 0⟩],
    [exCollG .colMajor .colMajor 1 2, ⟨"L", true, [exL 0], [], .isLocal [] 1 1⟩]]

/-- If one of the processes has no pixels of the local collection, it waits in `ncmpi_end_indep_data` for the other one, which
has left the function by an exception.  In the serial build the same program goes on. -/
example :
    let w := createFile .write exLopsided (fun _ _ => 77) (fun _ _ => 78) (exMem 5) [.appendFrame, .writeAll 0]
    w.results = [.ok (), .ok ()] ∧
      (useFile .read exLopsided w.disk (exMem 5) [.read 0 ["p"], .write 0 ["p"], .readAll 0]).results =
        [.ok (), .throw .fileIOError, .ok ()] ∧
      (useFilePar exConv exConv .read exLopsided w.disk (exMem 5) [.read 0 ["p"], .write 0 ["p"], .readAll 0]).results =
        [.ok (), .apart] := by
  decide +kernel

end Verif.Props
