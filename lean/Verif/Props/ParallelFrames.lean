import Verif.Lemmas.ParallelFrames
import Verif.Props.FrameObjects
import Verif.Props.ParallelRefused
/-
**C104** Programs that use a file through frame objects, in the parallel build.
-/
namespace Verif.Props
open Verif Verif.Ccoord Verif.Layout Verif.Layout.FieldLayout Verif.RawMemory Verif.FileIO Verif.NetCDF

variable {α : Type} {conv : Conv α} {convI : Conv Int} {dom : List Int} {rs rs' : List FileRank} {mode : OpenMode} {late : Bool}

/-- **C104** A program that creates a file and uses it through frame objects, with loops over the frames and with exceptions that it
catches: in the parallel build all processes end as in the serial build, with the same values in memory, and leave the same file in
the collective mode.  (Nothing is asked of the frames: other than a number, a frame object cannot stand for a frame before the first
one, see `C99_false`.) -/
theorem C104_create (hc : conv.Faithful) (hcI : convI.Faithful) (h : Verif.ProgramOk dom rs) (hn : Numbered rs) (hcount : Counted rs)
    (hm : mode = .write ∨ mode = .overwrite) (garbage : String → List Int → α) (garbageInt : String → List Int → Int)
    {mem : Memory α} {cur : String → Values α} (hmem : ProgramHolds rs mem cur) {p : FrameProg (Memory α)}
    {q : FrameProg (String → Values α)} (hs : SameProg (ProgramHolds rs) p q)
    (hnames : p.Uses fun u => NoLocalNames rs (u.op (C := Memory α) 0))
    (hfit : Table.Fits late (storedNames rs) q [] ⟨true, 0, cur, fun _ _ => none⟩) :
    createFramesPar conv convI mode (rs.map FileRank.colls) garbage garbageInt mem p =
      framesInParallel (createFrames mode (rs.map FileRank.colls) garbage garbageInt mem p) := by
  obtain ⟨D, hD, hM⟩ := exists_fits h hn
  have hF : ∀ r ∈ rs, RegOf mode r (regOf mode [] [] 0 r) := fun r hr => regOf_new h hm hr
  have hreg := registered_of h hD hF
  have hcon := created_contains hreg garbage garbageInt
  have hsess := joinSess_created (mode := mode) (F := regOf mode [] [] 0) h.nonempty
    (fun r hr => (regOf_writing h hm hr).2.nbFrames)
  have main := par_exec (conv := conv) (convI := convI) hreg (hreg.writeLaw hm) hc hcI
    (sameProg_congr (fun m c => (programHolds_iff h hF m c).1) hs)
    (uses_mono (fun u hu => noHidden_of h hF _ hu) hnames) (fun e => by rcases hm with rfl | rfl <;> cases e) []
    ⟨Sess.created mode (joinVars (rs.map (regOf mode [] [] 0))) (joinHidden (rs.map (regOf mode [] [] 0)))
      (joinMarks (rs.map (regOf mode [] [] 0))), NcFile.created _ _ garbage garbageInt, mem⟩
    ⟨true, 0, cur, fun _ _ => none⟩ (by rw [storedNames_eq h hF]; exact hfit)
    ⟨⟨rfl, rfl, rfl, by rcases hm with rfl | rfl <;> simp, rfl, le_refl _, le_refl _, by
      intro x hx l hl
      obtain ⟨fv, e1, e2, -⟩ := hcon.entries x hx l hl
      refine ⟨?_, fv, e1, e2, by simp [Sess.created], ?_⟩
      · obtain ⟨r, hr, y, hy⟩ := var_local h hF hx hl
        exact marks_entries h hF hm hr hy fun r hr ids total off hl => hM r hr l ids total off hl
      · rintro ⟨fr, v, hcv⟩
        exact absurd hcv (by simp), hcon.agrees⟩, (programHolds_iff h hF mem cur).1 hmem,
      ready_program h hF hcount hD rfl rfl hcon mem⟩
  have e := main.same
  rw [SameInBoth] at e
  unfold createFrames createFramesPar
  dsimp only
  rw [registerRanks_snd, hsess]
  unfold Sess.created at e
  rw [List.map_nil] at e
  rw [e]
  rfl

theorem use_frames_par (hc : conv.Faithful) (hcI : convI.Faithful) (h : Verif.ProgramOk dom rs)
    (hm : mode = .write ∨ mode = .overwrite) {D : FileDesc} {d : Disk α} {cell : Int → String → Option (Values α)}
    (hd : FileHas dom rs mode D d cell) {u : FrameSession α} (hu : u.Ok dom rs) (hcount : Counted u.ranks)
    (happ : u.mode = .append → ∀ r ∈ rs, ∀ e ∈ r.entries, ∀ l total, e.1 = some (l, total) →
        ∃ e' ∈ r.entries, e'.1 = some (l, total) ∧ HasCell cell e'.2.1)
    (hfit : (u.table cell d.data.numrecs).Fits late (storedNames rs) u.sprog []) :
    useFramesPar conv convI u.mode (u.ranks.map FileRank.colls) d u.mem u.prog =
      framesInParallel (useFrames u.mode (u.ranks.map FileRank.colls) d u.mem u.prog) := by
  obtain ⟨r0, rest, hrs⟩ : ∃ r0 rest, rs = r0 :: rest := by
    cases hrs : rs with
    | nil => exact absurd hrs h.nonempty
    | cons a l => exact ⟨a, l, rfl⟩
  have h0 : r0 ∈ rs := by rw [hrs]; simp
  obtain ⟨hd1, hd2⟩ := hd.header r0 h0
  have hF0 : ∀ r ∈ rs, RegOf mode r (regOf mode [] [] 0 r) := fun r hr => regOf_new h hm hr
  have hagain := fun r' hr' => regOf_again h hm h0 hu.ok hu.data hu.mode d.data.numrecs (r' := r') hr'
  dsimp only at hagain
  rw [← hd1, ← hd2] at hagain
  have hF : ∀ r ∈ u.ranks, RegOf u.mode r (regOf u.mode d.dims d.vars d.data.numrecs r) := fun r hr => (hagain r hr).2.1
  have hD := fits_of_same h hd.fits hu.ok hu.data
  have hreg0 := registered_of h hd.fits hF0
  have hreg := registered_of hu.ok hD hF
  have hsig := signature_eq h hF0 hu.ok hF hu.data
  have hcont := C62_any_program hreg0 hreg hsig hd.values
  have hnm : storedNames rs = storedNames u.ranks := by
    rw [← storedNames_eq h hF0, ← storedNames_eq hu.ok hF]
    have := congrArg (List.map Prod.fst) hsig
    rwa [List.map_map, List.map_map] at this
  have hsess := joinSess_created (mode := u.mode) (F := regOf u.mode d.dims d.vars d.data.numrecs) hu.ok.nonempty
    (fun r hr => (hagain r hr).2.2.2.2)
  have hmarks : ∀ x ∈ joinVars (u.ranks.map (regOf u.mode d.dims d.vars d.data.numrecs)), ∀ l, x.localName = some l →
      (joinMarks (u.ranks.map (regOf u.mode d.dims d.vars d.data.numrecs)) l).map List.length =
        ((progOf u.ranks).hid l).map HiddenPart.size := by
    intro x hx l hl
    obtain ⟨r, hr, y, hy⟩ := var_local hu.ok hF hx hl
    exact marks_lengths hu.ok hF hu.mode hr hy
  obtain ⟨r1, rest1, hrs1⟩ : ∃ r0 rest, u.ranks = r0 :: rest := by
    cases hrs : u.ranks with
    | nil => exact absurd hrs hu.ok.nonempty
    | cons a l => exact ⟨a, l, rfl⟩
  have h1 : r1 ∈ u.ranks := by rw [hrs1]; simp
  have hnn : 0 ≤ d.data.numrecs := by
    rcases hcont.last with h | ⟨n, val, h⟩
    · omega
    · have := hcont.recs _ _ _ h; omega
  have hready := ready_program (s := Sess.opened u.mode (joinVars (u.ranks.map (regOf u.mode d.dims d.vars d.data.numrecs)))
    (joinHidden (u.ranks.map (regOf u.mode d.dims d.vars d.data.numrecs)))
    (joinMarks (u.ranks.map (regOf u.mode d.dims d.vars d.data.numrecs))) d.data) hu.ok hF hcount hD rfl rfl hcont u.mem
  have hmem := (programHolds_iff hu.ok hF _ _).1 hu.mem
  have hsame := sameProg_congr (fun m c => (programHolds_iff hu.ok hF m c).1) hu.same
  have hhid := uses_mono (fun f hf => noHidden_of hu.ok hF (joinVars (u.ranks.map (regOf u.mode d.dims d.vars d.data.numrecs))) hf)
    hu.names
  rw [hnm, ← storedNames_eq hu.ok hF] at hfit
  obtain ⟨w0, hw0⟩ : ∃ w0 : World α, w0 = ⟨Sess.opened u.mode (joinVars (u.ranks.map (regOf u.mode d.dims d.vars d.data.numrecs)))
    (joinHidden (u.ranks.map (regOf u.mode d.dims d.vars d.data.numrecs)))
    (joinMarks (u.ranks.map (regOf u.mode d.dims d.vars d.data.numrecs))) d.data, d.data, u.mem⟩ := ⟨_, rfl⟩
  have main : SameInBoth (ParWorld.exec conv convI u.prog [] ⟨w0, false⟩) (World.exec u.prog [] w0).1 (World.exec u.prog [] w0).2 := by
    rw [hw0]
    rcases hu.mode with hr | ha
    · refine (par_exec hreg (hreg.openLaw (mode := u.mode) (all := false) (by rw [hr]; simp)) hc hcI hsame hhid
        (fun e => uses_mono (fun f hf => refused_of hu.ok hF hf) (hu.refused hr)) [] _ (u.table cell d.data.numrecs) hfit
        ⟨⟨rfl, rfl, rfl, by rw [FrameSession.table, hr]; simp, rfl, hnn, le_refl _, ?_, hcont.agrees⟩, hmem, hready⟩).same
      intro x hx l hl
      obtain ⟨fv, e1, e2, e3⟩ := hcont.entries x hx l hl
      exact ⟨hmarks x hx l hl, by simp [Sess.opened], fv, e1, e2, fun hh => e3 (hh.resolve_left (by simp))⟩
    · refine (par_exec hreg (hreg.openLaw (mode := u.mode) (all := true) (by rw [ha]; simp)) hc hcI hsame hhid
        (fun e => by rw [ha] at e; cases e) [] _ (u.table cell d.data.numrecs) hfit
        ⟨⟨rfl, rfl, rfl, by rw [FrameSession.table, ha]; simp, rfl, hnn, le_refl _, ?_, hcont.agrees⟩, hmem, hready⟩).same
      intro x hx l hl
      obtain ⟨fv, e1, e2, -⟩ := hcont.entries x hx l hl
      refine ⟨hmarks x hx l hl, by simp [Sess.opened], fv, e1, e2, fun _ => ?_⟩
      have hx' := hx
      rw [joinVars_eq hu.ok hF hrs1] at hx'
      obtain ⟨e, he, rfl⟩ := List.mem_map.1 hx'
      obtain ⟨e0, he0, g1, g2, -⟩ := sig_entry (hu.data.same r0 h0 r1 h1).symm he
      cases hk : e.1 with
      | none => rw [varOf, hk] at hl; cases hl
      | some y =>
        obtain ⟨l', total⟩ := y
        have hll : l' = l := by
          rw [varOf, hk] at hl
          exact Option.some.inj hl
        obtain ⟨e0', he0', k1, k2⟩ := happ ha r0 h0 e0 he0 l' total (g1.trans hk)
        obtain ⟨e', he', j1, j2, -⟩ := sig_entry (hu.data.same r0 h0 r1 h1) he0'
        obtain ⟨fv', e1', -, e3'⟩ := hcont.entries (varOf u.ranks e') (by
          rw [joinVars_eq hu.ok hF hrs1]
          exact List.mem_map_of_mem he') l (by rw [varOf, j1, k1, hll]; rfl)
        rw [e1] at e1'
        cases e1'
        exact e3' (by show HasCell cell e'.2.1; rw [j2]; exact k2)
  unfold useFrames useFramesPar
  dsimp only
  rw [registerRanks_snd, hsess]
  rw [hw0, SameInBoth] at main
  unfold Sess.opened at main
  rw [main]
  rfl

theorem sessions_par (hc : conv.Faithful) (hcI : convI.Faithful) (h : Verif.ProgramOk dom rs)
    (hm : mode = .write ∨ mode = .overwrite) {D : FileDesc} (us : List (FrameSession α)) {d : Disk α}
    {cell : Int → String → Option (Values α)} (hd : FileHas dom rs mode D d cell) (hus : SessionsOk late dom rs cell us)
    (hcount : ∀ u ∈ us, Counted u.ranks) :
    runSessionsPar conv convI d us = (runSessions d us).map framesInParallel := by
  induction us generalizing d cell with
  | nil => rfl
  | cons u us ih =>
    obtain ⟨h1, h2, h3⟩ := hus
    obtain ⟨h4, h5⟩ := h3 _ hd.nbFrames
    obtain ⟨-, -, -, k4⟩ := use_frames_has h hm hd h1 h2 h4
    have e := use_frames_par hc hcI h hm hd h1 (hcount u (List.mem_cons_self ..)) h2 h4
    rw [runSessionsPar, runSessions, e, List.map_cons]
    congr 1
    exact ih k4 h5 fun u hu => hcount u (List.mem_cons_of_mem _ hu)

/-- **C104** A program creates a file and uses it through frame objects, other programs open it one after the other, each with any
number of processes and any decomposition, and do the same.  In the parallel build, every program does what it does in the serial
build: all processes come to the end with the same outcome, the same values in memory and the same file.  (No program reads what has
not been written or begins to write a local field to a file that is open for reading; for `file[n]`, see C102.) -/
theorem C104_programs_partial (hc : conv.Faithful) (hcI : convI.Faithful) (h : Verif.ProgramOk dom rs) (hn : Numbered rs)
    (hcount : Counted rs) (hm : mode = .write ∨ mode = .overwrite) (garbage : String → List Int → α)
    (garbageInt : String → List Int → Int) {mem : Memory α} {cur : String → Values α} (hmem : ProgramHolds rs mem cur)
    {p : FrameProg (Memory α)} {q : FrameProg (String → Values α)} (hs : SameProg (ProgramHolds rs) p q)
    (hnames : p.Uses fun u => NoLocalNames rs (u.op (C := Memory α) 0))
    (hfit : Table.Fits late (storedNames rs) q [] ⟨true, 0, cur, fun _ _ => none⟩) {us : List (FrameSession α)}
    (hus : SessionsOk late dom rs (Table.exec late (storedNames rs) q [] ⟨true, 0, cur, fun _ _ => none⟩).2.cell us)
    (hcounts : ∀ u ∈ us, Counted u.ranks) :
    let r := createFrames mode (rs.map FileRank.colls) garbage garbageInt mem p
    let r' := createFramesPar conv convI mode (rs.map FileRank.colls) garbage garbageInt mem p
    r' = framesInParallel r ∧ runSessionsPar conv convI r'.2.1 us = (runSessions r.2.1 us).map framesInParallel := by
  intro r r'
  have e : r' = framesInParallel r := C104_create hc hcI h hn hcount hm garbage garbageInt hmem hs hnames hfit
  obtain ⟨-, -, -, D, hD⟩ := create_frames_has h hn hm garbage garbageInt hmem hs hnames hfit
  refine ⟨e, ?_⟩
  rw [e]
  exact sessions_par hc hcI h hm us hD hus hcounts

/-! ### An example -/

/-- The three programs of the example for C102. -/
example :
    let r := createFrames .write (exRanks.map FileRank.colls) (fun _ _ => 77) (fun _ _ => 78) (exMem 5) (exFrameProg (exMem 1000))
    let r' := createFramesPar exConv exConv .write (exRanks.map FileRank.colls) (fun _ _ => 77) (fun _ _ => 78) (exMem 5)
      (exFrameProg (exMem 1000))
    r' = framesInParallel r ∧
      runSessionsPar exConv exConv r'.2.1 exSessions = (runSessions r.2.1 exSessions).map framesInParallel :=
  C104_programs_partial exConv_faithful exConv_faithful exRanks_ok exNumbered exRanks_counted (Or.inl rfl) _ _ (exRanks_hold 5)
    exFrame_same exFrame_names exFrame_fits exSessions_ok (by simp [exSessions, exRanks_counted, exRanks_counted'])

/-- The same as the model computes it, for the outcomes. -/
example :
    let r' := createFramesPar exConv exConv .write (exRanks.map FileRank.colls) (fun _ _ => 77) (fun _ _ => 78) (exMem 5)
      (exFrameProg (exMem 1000))
    r'.1 = .ok () ∧ r'.2.2.indep = false ∧ r'.2.2.sess.nbFrames = 2 ∧
      (runSessionsPar exConv exConv r'.2.1 exSessions).map (fun s => (s.1, s.2.2.sess.nbFrames)) = [(.ok (), 4), (.ok (), 4)] := by
  decide +kernel

/-! ### What is not so -/

/-- Without the condition on files that are open for reading: a program creates a file, and then it opens it for reading. -/
def C104_statement : Prop :=
  ∀ (conv convI : Conv Int), conv.Faithful → convI.Faithful → ∀ (dom : List Int) (rs : List FileRank), Verif.ProgramOk dom rs →
    Numbered rs → Counted rs → ∀ (garbage : String → List Int → Int) (garbageInt : String → List Int → Int) (mem mem' : Memory Int)
    (cur cur' : String → Values Int), ProgramHolds rs mem cur → ProgramHolds rs mem' cur' →
    ∀ (p p' : FrameProg (Memory Int)) (q q' : FrameProg (String → Values Int)), SameProg (ProgramHolds rs) p q →
    SameProg (ProgramHolds rs) p' q' → (p.Uses fun u => NoLocalNames rs (u.op (C := Memory Int) 0)) →
    (p'.Uses fun u => NoLocalNames rs (u.op (C := Memory Int) 0)) →
    Table.Fits false (storedNames rs) q [] ⟨true, 0, cur, fun _ _ => none⟩ →
    (∀ t, t = (Table.exec false (storedNames rs) q [] ⟨true, 0, cur, fun _ _ => none⟩).2 →
      NbFrames t.cell t.nb ∧ Table.Fits false (storedNames rs) q' [] ⟨false, t.nb, cur', t.cell⟩) →
    let r := createFrames .write (rs.map FileRank.colls) garbage garbageInt mem p
    (useFramesPar conv convI .read (rs.map FileRank.colls) r.2.1 mem' p').1 =
      together (useFrames .read (rs.map FileRank.colls) r.2.1 mem' p').1

/-- Writes one frame. -/
def exOneProg {C : Type} : FrameProg C := .append (.use 0 .writeAll .done)

/-- Reads frame 0, tries to write the local field `p` there, catches the exception and reads the frame again. -/
def exTwiceProg {C : Type} : FrameProg C := .take 0 (.use 0 .readAll (.attempt (.use 0 (.write ["p"]) .done) (.use 0 .readAll .done)))

/-- **C104** The refused write of a local field leaves the file in the independent mode, and the frame cannot be read again; in the
serial build it can. -/
theorem C104_false : ¬ C104_statement := by
  intro h
  have h1 := h exConv exConv exConv_faithful exConv_faithful [3] exRanks exRanks_ok exNumbered exRanks_counted (fun _ _ => 77)
    (fun _ _ => 78) (exMem 5) (exMem 0) (exVal 5) (exVal 0) (exRanks_hold 5) (exRanks_hold 0) exOneProg exTwiceProg exOneProg
    exTwiceProg (.append (.use _ _ .done)) (.take _ (.use _ _ (.attempt (.use _ _ .done) (.use _ _ .done))))
    (by simp [exOneProg, FrameProg.Uses, FrameUse.op, NoLocalNames])
    (by simp [exTwiceProg, FrameProg.Uses, FrameUse.op, NoLocalNames, localNames, exRanks, exProc, exCollG, exCollL])
    (by
      rw [exStored]
      simp [exOneProg, Table.Fits, Table.step, Table.write, Table.put, handedRow, meantFrame, FrameUse.op, Table.ReadsFilled])
    (by
      rintro t rfl
      rw [exStored]
      refine ⟨⟨?_, ?_⟩, ?_⟩
      · intro fr n v
        simp [exOneProg, Table.exec, Table.after, Table.step, Table.write, Table.put, handedRow, meantFrame, FrameUse.op]
        intro h
        repeat' split at h
        all_goals first | omega | cases h
      · right
        exact ⟨"T", exVal 5 "T", by
          simp [exOneProg, Table.exec, Table.after, Table.step, Table.write, Table.put, handedRow, meantFrame, FrameUse.op]⟩
      · simp [exOneProg, exTwiceProg, Table.Fits, Table.exec, Table.after, Table.step, Table.write, Table.read,
          Table.put, Table.set, handedRow, meantFrame, FrameUse.op, Table.ReadsFilled, Table.Filled])
  dsimp only at h1
  revert h1
  decide +kernel

end Verif.Props
