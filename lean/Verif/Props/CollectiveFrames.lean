import Verif.Lemmas.CollectiveFrames
import Verif.Props.CollectiveRefused
import Verif.Props.ParallelFrames
/-
**C105** The processes of programs that use a file through frame objects come to their end.
-/
namespace Verif.Props
open Verif Verif.Ccoord Verif.Layout Verif.Layout.FieldLayout Verif.RawMemory Verif.FileIO Verif.NetCDF

variable {α : Type} {conv : Conv α} {convI : Conv Int} {dom : List Int} {rs rs' : List FileRank} {mode : OpenMode} {late : Bool}

theorem agreed_of_expected {o : Res Unit} {b : Bool} (h : AsExpected o b) : (together o).Agreed := by
  cases o with
  | ok u => trivial
  | throw e => trivial
  | ub => exact absurd h id

theorem computes_holds {p : FrameProg (Memory α)} {q : FrameProg (String → Values α)} (h : SameProg (ProgramHolds rs) p q) :
    p.Computes (MemoryOf rs.length (storedNames rs)) := by
  induction h with
  | done => trivial
  | take i _ ih => exact ih
  | append _ ih => exact ih
  | use k u _ ih => exact ih
  | compute hc _ ih => exact ⟨memoryOf_holds hc, ih⟩
  | forEach _ _ ihb ih => exact ⟨ihb, ih⟩
  | attempt _ _ ihb ih => exact ⟨ihb, ih⟩

/-- **C105** A program with frame objects, loops over the frames and exceptions that it catches.  If it comes to an end with the same
outcome on all processes, all processes have made the same collective calls, and none waits for ever. -/
theorem C105_exec {n : Nat} (hn : 0 < n) {p : ParWorld α} (h : p.Matched n) {q : FrameProg (Memory α)} (env : List Int)
    (ho : q.Uses fun u => NoHidden p.sess.vars p.sess.hidden (u.op (C := Memory α) 0))
    (hs : q.Computes (MemoryOf n (p.sess.vars.map SessVar.name))) (ha : (ParWorld.exec conv convI q env p).1.Agreed) :
    (∀ i j, i < n → j < n → ParWorld.execTrace conv convI i q env p = ParWorld.execTrace conv convI j q env p) ∧
      AllReturn fun i : Fin n => ParWorld.execTrace conv convI i q env p := by
  have hs := (calls_exec (conv := conv) (convI := convI) q env p h ho hs).same ha
  refine ⟨fun i j hi hj => ?_, returns_of_same hn hs⟩
  obtain ⟨c, hc⟩ := hs
  exact (hc i hi).trans (hc j hj).symm

/-- A loop over two frames, after an exception has been caught. -/
example :
    (ParWorld.exec exConv exConv (exFrameProg (exMem 1000)) [] ⟨exParWorld, false⟩).1 = .ok () ∧
    ∀ i < 2, ParWorld.execTrace exConv exConv i (exFrameProg (exMem 1000)) [] ⟨exParWorld, false⟩ =
      [.putAll "T", .putAll "T", .putAll "u", .putAll "L", .beginIndep, .endIndep, .putAll "T", .putAll "T", .putAll "u",
        .beginIndep, .endIndep, .putAll "u", .getAll "u", .getAll "u"] := by
  decide +kernel

theorem program_calls (h : Verif.ProgramOk dom rs) {F : FileRank → Reg} (hF : ∀ r ∈ rs, RegOf mode r (F r)) (hcount : Counted rs)
    {D : FileDesc} (hD : Fits D dom rs) {s : Sess} (hs : s.vars = joinVars (rs.map F)) (hh : s.hidden = joinHidden (rs.map F))
    (hk : s.marks = joinMarks (rs.map F)) (file : NcFile α) {mem : Memory α} (hmem : MemoryOf rs.length (storedNames rs) mem)
    {q : FrameProg (Memory α)} (hnames : q.Uses fun u => NoLocalNames rs (u.op (C := Memory α) 0))
    (hsized : q.Computes (MemoryOf rs.length (storedNames rs)))
    (ha : (ParWorld.exec conv convI q [] ⟨⟨s, file, mem⟩, false⟩).1.Agreed) :
    Same rs.length fun i => ParWorld.execTrace conv convI i q [] ⟨⟨s, file, mem⟩, false⟩ := by
  refine (calls_exec q [] _ (matched_program h hF hcount hD hs hh hk file hmem false) ?_ ?_).same ha
  · show q.Uses fun u => NoHidden s.vars s.hidden (u.op (C := Memory α) 0)
    rw [hs, hh]
    exact uses_mono (fun u hu => noHidden_of h hF _ hu) hnames
  · show q.Computes (MemoryOf rs.length (s.vars.map SessVar.name))
    rw [hs, joinVars_stored h hF]
    exact hsized

/-- **C105** A program creates a file, registers the same collections on all processes, each with its own part, and uses the file
through frame objects.  If it comes to an end with the same outcome on all processes, none of them waits for ever. -/
theorem C105_create_partial (h : Verif.ProgramOk dom rs) (hn : Numbered rs) (hcount : Counted rs) (hal : CallsAlike rs)
    (hm : mode = .write ∨ mode = .overwrite) (garbage : String → List Int → α) (garbageInt : String → List Int → Int)
    {mem : Memory α} (hmem : MemoryOf rs.length (storedNames rs) mem) {q : FrameProg (Memory α)}
    (hnames : q.Uses fun u => NoLocalNames rs (u.op (C := Memory α) 0))
    (hsized : q.Computes (MemoryOf rs.length (storedNames rs)))
    (ha : (createFramesPar conv convI mode (rs.map FileRank.colls) garbage garbageInt mem q).1.Agreed) :
    AllReturn fun i : Fin rs.length =>
      createFramesTrace conv convI mode (rs.map FileRank.colls) garbage garbageInt mem q i := by
  obtain ⟨D, hD, -⟩ := exists_fits h hn
  have hF : ∀ r ∈ rs, RegOf mode r (regOf mode [] [] 0 r) := fun r hr => regOf_new h hm hr
  have hsess := joinSess_created (mode := mode) (F := regOf mode [] [] 0) h.nonempty
    (fun r hr => (regOf_writing h hm hr).2.nbFrames)
  unfold createFramesPar at ha
  dsimp only at ha
  refine returns_of_same (List.length_pos_of_ne_nil h.nonempty) ?_
  unfold createFramesTrace
  dsimp only
  refine (registrations_same hal true mode [] [] 0).append ?_
  rw [registerRanks_snd, hsess] at ha ⊢
  exact program_calls h hF hcount hD rfl rfl rfl _ hmem hnames hsized ha

theorem use_frames_return (h : Verif.ProgramOk dom rs) (hm : mode = .write ∨ mode = .overwrite) {D : FileDesc} {d : Disk α}
    {cell : Int → String → Option (Values α)} (hd : FileHas dom rs mode D d cell) {u : FrameSession α} (hu : u.Ok dom rs)
    (hcount : Counted u.ranks) (hal : CallsAlike u.ranks)
    (ha : (useFramesPar conv convI u.mode (u.ranks.map FileRank.colls) d u.mem u.prog).1.Agreed) :
    AllReturn fun i : Fin u.ranks.length => useFramesTrace conv convI u.mode (u.ranks.map FileRank.colls) d u.mem u.prog i := by
  obtain ⟨r0, h0⟩ := List.exists_mem_of_ne_nil rs h.nonempty
  obtain ⟨hd1, hd2⟩ := hd.header r0 h0
  have hagain := fun r' hr' => regOf_again h hm h0 hu.ok hu.data hu.mode d.data.numrecs (r' := r') hr'
  dsimp only at hagain
  rw [← hd1, ← hd2] at hagain
  have hF : ∀ r ∈ u.ranks, RegOf u.mode r (regOf u.mode d.dims d.vars d.data.numrecs r) := fun r hr => (hagain r hr).2.1
  have hD' := fits_of_same h hd.fits hu.ok hu.data
  have hsess := joinSess_created (mode := u.mode) (F := regOf u.mode d.dims d.vars d.data.numrecs) hu.ok.nonempty
    (fun r hr => (hagain r hr).2.2.2.2)
  unfold useFramesPar at ha
  dsimp only at ha
  refine returns_of_same (List.length_pos_of_ne_nil hu.ok.nonempty) ?_
  unfold useFramesTrace
  dsimp only
  refine (registrations_same hal true u.mode d.dims d.vars d.data.numrecs).append ?_
  rw [registerRanks_snd, hsess] at ha ⊢
  exact program_calls hu.ok hF hcount hD' rfl rfl rfl _ (memoryOf_holds hu.mem) hu.names (computes_holds hu.same) ha

theorem sessions_return (hc : conv.Faithful) (hcI : convI.Faithful) (h : Verif.ProgramOk dom rs)
    (hm : mode = .write ∨ mode = .overwrite) {D : FileDesc} (us : List (FrameSession α)) {d : Disk α}
    {cell : Int → String → Option (Values α)} (hd : FileHas dom rs mode D d cell) (hus : SessionsOk late dom rs cell us)
    (hcount : ∀ u ∈ us, Counted u.ranks) (hal : ∀ u ∈ us, CallsAlike u.ranks) : SessionsReturn conv convI d us := by
  induction us generalizing d cell with
  | nil => trivial
  | cons u us ih =>
    obtain ⟨h1, h2, h3⟩ := hus
    obtain ⟨h4, h5⟩ := h3 _ hd.nbFrames
    obtain ⟨k1, -, -, k4⟩ := use_frames_has h hm hd h1 h2 h4
    have e := use_frames_par hc hcI h hm hd h1 (hcount u (List.mem_cons_self ..)) h2 h4
    refine ⟨use_frames_return h hm hd h1 (hcount u (List.mem_cons_self ..)) (hal u (List.mem_cons_self ..)) ?_, ?_⟩
    · rw [e]
      exact agreed_of_expected k1
    · rw [e]
      exact ih k4 h5 (fun u hu => hcount u (List.mem_cons_of_mem _ hu)) fun u hu => hal u (List.mem_cons_of_mem _ hu)

/-- **C105** A program creates a file and uses it through frame objects, other programs open it one after the other, each with any
number of processes and any decomposition, and do the same, with loops over the frames and with exceptions that they catch.  The
processes of all programs come to their end.  (No program reads what has not been written or begins to write a local field to a file
that is open for reading; for `file[n]`, see C102.) -/
theorem C105_programs_partial (hc : conv.Faithful) (hcI : convI.Faithful) (h : Verif.ProgramOk dom rs) (hn : Numbered rs)
    (hcount : Counted rs) (hal : CallsAlike rs) (hm : mode = .write ∨ mode = .overwrite) (garbage : String → List Int → α)
    (garbageInt : String → List Int → Int) {mem : Memory α} {cur : String → Values α} (hmem : ProgramHolds rs mem cur)
    {p : FrameProg (Memory α)} {q : FrameProg (String → Values α)} (hs : SameProg (ProgramHolds rs) p q)
    (hnames : p.Uses fun u => NoLocalNames rs (u.op (C := Memory α) 0))
    (hfit : Table.Fits late (storedNames rs) q [] ⟨true, 0, cur, fun _ _ => none⟩) {us : List (FrameSession α)}
    (hus : SessionsOk late dom rs (Table.exec late (storedNames rs) q [] ⟨true, 0, cur, fun _ _ => none⟩).2.cell us)
    (hcounts : ∀ u ∈ us, Counted u.ranks) (hals : ∀ u ∈ us, CallsAlike u.ranks) :
    (AllReturn fun i : Fin rs.length =>
      createFramesTrace conv convI mode (rs.map FileRank.colls) garbage garbageInt mem p i) ∧
    SessionsReturn conv convI (createFramesPar conv convI mode (rs.map FileRank.colls) garbage garbageInt mem p).2.1 us := by
  have e := C104_create hc hcI h hn hcount hm garbage garbageInt hmem hs hnames hfit
  obtain ⟨k1, -, -, D, hD⟩ := create_frames_has h hn hm garbage garbageInt hmem hs hnames hfit
  refine ⟨C105_create_partial h hn hcount hal hm garbage garbageInt (memoryOf_holds hmem) hnames (computes_holds hs) ?_, ?_⟩
  · rw [e]
    exact agreed_of_expected k1
  · rw [e]
    exact sessions_return hc hcI h hm us hD hus hcounts hals

/-- The three programs of the example for C102. -/
example :
    (AllReturn fun i : Fin 2 => createFramesTrace exConv exConv .write (exRanks.map FileRank.colls) (fun _ _ => 77) (fun _ _ => 78)
      (exMem 5) (exFrameProg (exMem 1000)) i) ∧
    SessionsReturn exConv exConv (createFramesPar exConv exConv .write (exRanks.map FileRank.colls) (fun _ _ => 77) (fun _ _ => 78)
      (exMem 5) (exFrameProg (exMem 1000))).2.1 exSessions :=
  C105_programs_partial exConv_faithful exConv_faithful exRanks_ok exNumbered exRanks_counted exRanks_alike (Or.inl rfl) _ _
    (exRanks_hold 5) exFrame_same exFrame_names exFrame_fits exSessions_ok (by simp [exSessions, exRanks_counted, exRanks_counted'])
    (by simp [exSessions, exRanks_alike, exRanks_alike'])

/-! ### Processes that wait for ever -/

/-- **C105** The processes of a program that creates a file, registers the same collections and uses the same frame objects on all
processes come to their end. -/
def C105_statement : Prop :=
  ∀ (dom : List Int) (rs : List FileRank) (mem : Memory Int) (q : FrameProg (Memory Int)), Verif.ProgramOk dom rs → Numbered rs →
    Counted rs → CallsAlike rs → MemoryOf rs.length (storedNames rs) mem →
    (q.Uses fun u => NoLocalNames rs (u.op (C := Memory Int) 0)) → q.Computes (MemoryOf rs.length (storedNames rs)) →
    AllReturn fun i : Fin rs.length =>
      createFramesTrace exConv exConv .write (rs.map FileRank.colls) (fun _ _ => 77) (fun _ _ => 78) mem q i

/-- Writes a frame, appends another one and reads a local field in a loop over the frames; an exception is caught. -/
def exUnevenProg {C : Type} : FrameProg C :=
  .append (.use 0 .writeAll (.append (.attempt (.forEach (.use 0 (.read ["p"]) .done) .done) .done)))

theorem exUnevenProg_traces : ∃ c,
    createFramesTrace exConv exConv .write (exUneven.map FileRank.colls) (fun _ _ => 77) (fun _ _ => 78) exUnevenMem exUnevenProg 0 =
      c ++ [.beginIndep] ∧
    createFramesTrace exConv exConv .write (exUneven.map FileRank.colls) (fun _ _ => 77) (fun _ _ => 78) exUnevenMem exUnevenProg 1 =
      c ++ [.beginIndep, .endIndep] :=
  ⟨(createFramesTrace exConv exConv .write (exUneven.map FileRank.colls) (fun _ _ => 77) (fun _ _ => 78) exUnevenMem
      exUnevenProg 0).dropLast, by decide +kernel, by decide +kernel⟩

/-- **C105** does not hold: a loop over the frames reads a local field, the last frame has been appended and not written; the process
with pixels raises an error and the process without pixels waits for it for ever. -/
theorem C105_false : ¬ C105_statement := by
  intro h
  have h1 := h [3] exUneven exUnevenMem exUnevenProg exUneven_ok exUneven_numbered exUneven_counted exUneven_alike
    (by rw [exUneven_stored]; intro x _; rfl)
    (by simp [exUnevenProg, FrameProg.Uses, FrameUse.op, NoLocalNames, localNames, exUneven, exProc, exCollG, exCollL])
    (by simp [exUnevenProg, FrameProg.Computes])
  have h2 := (C98_returns_iff (by decide) _).1.1 h1 ⟨0, by decide⟩ ⟨1, by decide⟩
  obtain ⟨c, e0, e1⟩ := exUnevenProg_traces
  have h3 : c ++ [CollCall.beginIndep] = c ++ [.beginIndep, .endIndep] := e0.symm.trans (h2.trans e1)
  simp at h3

end Verif.Props
