import Verif.Lemmas.ParallelRefused
/-
**C99** Programs in the parallel build that also make calls that are refused.
-/
namespace Verif.Props
open Verif Verif.Ccoord Verif.Layout Verif.Layout.FieldLayout Verif.RawMemory Verif.FileIO Verif.NetCDF

variable {α : Type} {conv : Conv α} {convI : Conv Int} {dom : List Int} {rs rs' : List FileRank} {mode : OpenMode}

theorem staysInReach_mono {V : Type} {p q : String → Prop} (hpq : ∀ n, q n → p n) {known : List String} :
    ∀ {ops : List (FileOp (String → V))} {t : Table V}, t.StaysInReach p known ops → t.StaysInReach q known ops
  | [], _, _ => trivial
  | op :: ops, t, h => by
    refine ⟨?_, staysInReach_mono hpq h.2⟩
    have h1 := h.1
    cases op with
    | read frame names => exact Or.imp id (fun k n hn hq => k n hn (hpq n hq)) h1
    | readAll frame => exact Or.imp id (fun k n hn hq => k n hn (hpq n hq)) h1
    | appendFrame => trivial
    | compute c => trivial
    | write frame names => trivial
    | writeAll frame => trivial

theorem fieldOfLocal_of (h : ProgramOk dom rs) {F : FileRank → Reg} (hF : ∀ r ∈ rs, RegOf mode r (F r)) {n : String}
    (hx : ∃ x ∈ joinVars (rs.map F), x.name = n ∧ x.localName ≠ none) : FieldOfLocal rs n := by
  obtain ⟨r1, rest1, hrs1⟩ : ∃ r0 rest, rs = r0 :: rest := by
    cases hrs : rs with
    | nil => exact absurd hrs h.nonempty
    | cons a l => exact ⟨a, l, rfl⟩
  obtain ⟨x, hx, rfl, hl⟩ := hx
  rw [joinVars_eq h hF hrs1] at hx
  obtain ⟨e, he, rfl⟩ := List.mem_map.1 hx
  refine ⟨r1, by rw [hrs1]; simp, e, he, rfl, fun hk => hl ?_⟩
  rw [varOf, hk]; rfl

/-- **C99** A program that creates a file: its calls may succeed or be refused, because the frame or the name does not exist.
In the parallel build it has the same results, the same values in memory and leaves the same file, as long as no field of a
local collection is read at a frame before the first one. -/
theorem C99_create_refused_partial (hc : conv.Faithful) (hcI : convI.Faithful) (h : ProgramOk dom rs) (hn : Numbered rs)
    (hcount : Counted rs) (hm : mode = .write ∨ mode = .overwrite) (garbage : String → List Int → α)
    (garbageInt : String → List Int → Int) {mem : Memory α} {cur : String → Values α}
    (hmem : ProgramHolds rs mem cur) {ops : List (FileOp (Memory α))} {sops : List (FileOp (String → Values α))}
    (hops : List.Forall₂ (SameOp (ProgramHolds rs)) ops sops) (hnames : ∀ op ∈ ops, NoLocalNames rs op)
    (hgap : Table.NoGaps (storedNames rs) ⟨true, 0, cur, fun _ _ => none⟩ sops)
    (hreach : Table.StaysInReach (FieldOfLocal rs) (storedNames rs) ⟨true, 0, cur, fun _ _ => none⟩ sops) :
    createFilePar conv convI mode (rs.map FileRank.colls) garbage garbageInt mem ops =
      (createFile mode (rs.map FileRank.colls) garbage garbageInt mem ops).inParallel := by
  obtain ⟨D, hD, hM⟩ := exists_fits h hn
  have hF : ∀ r ∈ rs, RegOf mode r (regOf mode [] [] 0 r) := fun r hr => regOf_new h hm hr
  have hreg := registered_of h hD hF
  have hcon := created_contains hreg garbage garbageInt
  have hsess := joinSess_created (mode := mode) (F := regOf mode [] [] 0) h.nonempty
    (fun r hr => (regOf_writing h hm hr).2.nbFrames)
  unfold createFile createFilePar
  dsimp only
  rw [registerRanks_snd, hsess]
  rw [par_run_all hreg (hreg.writeLaw hm) hc hcI (sameOp_congr (fun m c => (programHolds_iff h hF m c).1) hops)
    (fun op hop => noHidden_of h hF _ (hnames op hop)) (fun e => by rcases hm with rfl | rfl <;> cases e)
    (t := ⟨true, 0, cur, fun _ _ => none⟩) (by rw [storedNames_eq h hF]; exact hgap)
    (by rw [storedNames_eq h hF]; exact staysInReach_mono (fun _ => fieldOfLocal_of h hF) hreach)
    ⟨⟨rfl, rfl, rfl, by rcases hm with rfl | rfl <;> simp, rfl, le_refl _, le_refl _, by
      intro x hx l hl
      obtain ⟨fv, e1, e2, -⟩ := hcon.entries x hx l hl
      refine ⟨?_, fv, e1, e2, by simp, ?_⟩
      · obtain ⟨r, hr, y, hy⟩ := var_local h hF hx hl
        exact marks_entries h hF hm hr hy fun r hr ids total off hl => hM r hr l ids total off hl
      · rintro ⟨fr, v, hcv⟩
        exact absurd hcv (by simp), hcon.agrees⟩, (programHolds_iff h hF mem cur).1 hmem,
      ready_program h hF hcount hD rfl rfl hcon mem⟩]
  rfl

/-- The program of `C66_new`, with calls for a frame and for a name that do not exist. -/
theorem exSops_reach : Table.StaysInReach (FieldOfLocal exRanks) (storedNames exRanks) ⟨true, 0, exVal 5, fun _ _ => none⟩ exSops := by
  rw [exStored]
  simp [exSops, Table.StaysInReach, Table.InReach, Table.step, Table.write, Table.put, meantFrame]

example :
    (createFile .write (exRanks.map FileRank.colls) (fun _ _ => 77) (fun _ _ => 78) (exMem 5) exOps).results =
      [.ok (), .ok (), .ok (), .ok (), .ok (), .throw .fileIOError, .throw .fileIOError, .ok (), .ok ()] ∧
    createFilePar exConv exConv .write (exRanks.map FileRank.colls) (fun _ _ => 77) (fun _ _ => 78) (exMem 5) exOps =
      (createFile .write (exRanks.map FileRank.colls) (fun _ _ => 77) (fun _ _ => 78) (exMem 5) exOps).inParallel :=
  ⟨by decide +kernel, C99_create_refused_partial exConv_faithful exConv_faithful exRanks_ok exNumbered exRanks_counted (Or.inl rfl)
    _ _ (exRanks_hold 5) exRanks_same exRanks_names exRanks_gaps exSops_reach⟩

theorem use_par_refused (hc : conv.Faithful) (hcI : convI.Faithful) (h : ProgramOk dom rs)
    (hm : mode = .write ∨ mode = .overwrite) {D : FileDesc} {d : Disk α} {cell : Int → String → Option (Values α)}
    (hd : FileHas dom rs mode D d cell) {u : FileUse α} (hu : u.Ok dom rs) (hcount : Counted u.ranks)
    (happ : u.mode = .append → ∀ r ∈ rs, ∀ e ∈ r.entries, ∀ l total, e.1 = some (l, total) →
        ∃ e' ∈ r.entries, e'.1 = some (l, total) ∧ HasCell cell e'.2.1)
    (hgap : (u.table cell d.data.numrecs).NoGaps (storedNames rs) u.sops)
    (hreach : (u.table cell d.data.numrecs).StaysInReach (FieldOfLocal u.ranks) (storedNames rs) u.sops) :
    useFilePar conv convI u.mode (u.ranks.map FileRank.colls) d u.mem u.ops =
      (useFile u.mode (u.ranks.map FileRank.colls) d u.mem u.ops).inParallel := by
  obtain ⟨r0, rest, hrs⟩ : ∃ r0 rest, rs = r0 :: rest := by
    cases hrs : rs with
    | nil => exact absurd hrs h.nonempty
    | cons a l => exact ⟨a, l, rfl⟩
  have h0 : r0 ∈ rs := by rw [hrs]; simp
  obtain ⟨hd1, hd2⟩ := hd.header r0 h0
  have hF0 : ∀ r ∈ rs, RegOf mode r (regOf mode [] [] 0 r) := fun r hr => regOf_new h hm hr
  have hagain := fun r' hr' => regOf_again h hm h0 hu.ok hu.data hu.mode d.data.numrecs (r' := r') hr'
  dsimp only at hagain
  rw [← hd1, ← hd2] at hagain
  have hF : ∀ r ∈ u.ranks, RegOf u.mode r (regOf u.mode d.dims d.vars d.data.numrecs r) := fun r hr => (hagain r hr).2.1
  have hD := fits_of_same h hd.fits hu.ok hu.data
  have hreg0 := registered_of h hd.fits hF0
  have hreg := registered_of hu.ok hD hF
  have hsig := signature_eq h hF0 hu.ok hF hu.data
  have hcont := C62_any_program hreg0 hreg hsig hd.values
  have hnm : storedNames rs = storedNames u.ranks := by
    rw [← storedNames_eq h hF0, ← storedNames_eq hu.ok hF]
    have := congrArg (List.map Prod.fst) hsig
    rwa [List.map_map, List.map_map] at this
  have hsess := joinSess_created (mode := u.mode) (F := regOf u.mode d.dims d.vars d.data.numrecs) hu.ok.nonempty
    (fun r hr => (hagain r hr).2.2.2.2)
  have hmarks : ∀ x ∈ joinVars (u.ranks.map (regOf u.mode d.dims d.vars d.data.numrecs)), ∀ l, x.localName = some l →
      (joinMarks (u.ranks.map (regOf u.mode d.dims d.vars d.data.numrecs)) l).map List.length =
        ((progOf u.ranks).hid l).map HiddenPart.size := by
    intro x hx l hl
    obtain ⟨r, hr, y, hy⟩ := var_local hu.ok hF hx hl
    exact marks_lengths hu.ok hF hu.mode hr hy
  obtain ⟨r1, rest1, hrs1⟩ : ∃ r0 rest, u.ranks = r0 :: rest := by
    cases hrs : u.ranks with
    | nil => exact absurd hrs hu.ok.nonempty
    | cons a l => exact ⟨a, l, rfl⟩
  have h1 : r1 ∈ u.ranks := by rw [hrs1]; simp
  have hnn : 0 ≤ d.data.numrecs := by
    rcases hcont.last with h | ⟨n, val, h⟩
    · omega
    · have := hcont.recs _ _ _ h; omega
  have hready := ready_program (s := Sess.opened u.mode (joinVars (u.ranks.map (regOf u.mode d.dims d.vars d.data.numrecs)))
    (joinHidden (u.ranks.map (regOf u.mode d.dims d.vars d.data.numrecs)))
    (joinMarks (u.ranks.map (regOf u.mode d.dims d.vars d.data.numrecs))) d.data) hu.ok hF hcount hD rfl rfl hcont u.mem
  have hmem := (programHolds_iff hu.ok hF _ _).1 hu.mem
  have hops := sameOp_congr (fun m c => (programHolds_iff hu.ok hF m c).1) hu.ops
  have hhid := fun op hop => noHidden_of hu.ok hF (joinVars (u.ranks.map (regOf u.mode d.dims d.vars d.data.numrecs)))
    (hu.names op hop)
  rw [hnm, ← storedNames_eq hu.ok hF] at hgap hreach
  replace hreach := staysInReach_mono (fun _ => fieldOfLocal_of hu.ok hF) hreach
  obtain ⟨w0, hw0⟩ : ∃ w0 : World α, w0 = ⟨Sess.opened u.mode (joinVars (u.ranks.map (regOf u.mode d.dims d.vars d.data.numrecs)))
    (joinHidden (u.ranks.map (regOf u.mode d.dims d.vars d.data.numrecs)))
    (joinMarks (u.ranks.map (regOf u.mode d.dims d.vars d.data.numrecs))) d.data, d.data, u.mem⟩ := ⟨_, rfl⟩
  have main : ParWorld.run conv convI ⟨w0, false⟩ u.ops = ((w0.run u.ops).1.map together, ⟨(w0.run u.ops).2, false⟩) := by
    rw [hw0]
    rcases hu.mode with hr | ha
    · refine par_run_all hreg (hreg.openLaw (mode := u.mode) (all := false) (by rw [hr]; simp)) hc hcI hops hhid
        (fun e op hop => refused_of hu.ok hF (hu.refused hr op hop)) hgap hreach
        ⟨⟨rfl, rfl, rfl, by rw [FileUse.table, hr]; simp, rfl, hnn, le_refl _, ?_, hcont.agrees⟩, hmem, hready⟩
      intro x hx l hl
      obtain ⟨fv, e1, e2, e3⟩ := hcont.entries x hx l hl
      exact ⟨hmarks x hx l hl, by simp [Sess.opened], fv, e1, e2, fun hh => e3 (hh.resolve_left (by simp))⟩
    · refine par_run_all hreg (hreg.openLaw (mode := u.mode) (all := true) (by rw [ha]; simp)) hc hcI hops hhid
        (fun e => by rw [ha] at e; cases e) hgap hreach
        ⟨⟨rfl, rfl, rfl, by rw [FileUse.table, ha]; simp, rfl, hnn, le_refl _, ?_, hcont.agrees⟩, hmem, hready⟩
      intro x hx l hl
      obtain ⟨fv, e1, e2, -⟩ := hcont.entries x hx l hl
      refine ⟨hmarks x hx l hl, by simp [Sess.opened], fv, e1, e2, fun _ => ?_⟩
      have hx' := hx
      rw [joinVars_eq hu.ok hF hrs1] at hx'
      obtain ⟨e, he, rfl⟩ := List.mem_map.1 hx'
      obtain ⟨e0, he0, g1, g2, -⟩ := sig_entry (hu.data.same r0 h0 r1 h1).symm he
      cases hk : e.1 with
      | none => rw [varOf, hk] at hl; cases hl
      | some y =>
        obtain ⟨l', total⟩ := y
        have hll : l' = l := by
          rw [varOf, hk] at hl
          exact Option.some.inj hl
        obtain ⟨e0', he0', k1, k2⟩ := happ ha r0 h0 e0 he0 l' total (g1.trans hk)
        obtain ⟨e', he', j1, j2, -⟩ := sig_entry (hu.data.same r0 h0 r1 h1) he0'
        obtain ⟨fv', e1', -, e3'⟩ := hcont.entries (varOf u.ranks e') (by
          rw [joinVars_eq hu.ok hF hrs1]
          exact List.mem_map_of_mem he') l (by rw [varOf, j1, k1, hll]; rfl)
        rw [e1] at e1'
        cases e1'
        exact e3' (by show HasCell cell e'.2.1; rw [j2]; exact k2)
  unfold useFile useFilePar
  dsimp only
  rw [registerRanks_snd, hsess]
  rw [hw0] at main
  unfold Sess.opened at main
  rw [main]
  rfl

theorem uses_par_refused (hc : conv.Faithful) (hcI : convI.Faithful) (h : ProgramOk dom rs)
    (hm : mode = .write ∨ mode = .overwrite) {D : FileDesc} (us : List (FileUse α)) {d : Disk α}
    {cell : Int → String → Option (Values α)} (hd : FileHas dom rs mode D d cell) (hus : UsesOk dom rs cell us)
    (hreach : UsesInReach rs cell us) (hcount : ∀ u ∈ us, Counted u.ranks) :
    runUsesPar conv convI d us = (runUses d us).map ProgramRun.inParallel := by
  induction us generalizing d cell with
  | nil => rfl
  | cons u us ih =>
    obtain ⟨h1, h2, h3⟩ := hus
    obtain ⟨h4, h5⟩ := h3 _ hd.nbFrames
    obtain ⟨h6, h7⟩ := hreach _ hd.nbFrames
    obtain ⟨-, -, -, -, k5⟩ := use_has h hm hd h1 h2 h4
    have e := use_par_refused hc hcI h hm hd h1 (hcount u (List.mem_cons_self ..)) h2 h4 h6
    rw [runUsesPar, runUses, e, List.map_cons]
    congr 1
    exact ih k5 h5 h7 fun u hu => hcount u (List.mem_cons_of_mem _ hu)

/-- **C99** A program creates a file, other programs open it one after the other for reading or appending, each with any number
of processes and any decomposition.  Their calls may succeed or be refused, because a frame or a name does not exist or
because the file is open for reading only.  Every program has the same results, the same values in memory and leaves the same
file in the parallel build, as long as no program reads a field of a local collection at a frame before the first one
(`C99_false`) or begins to write one to a file that is open for reading. -/
theorem C99_programs_refused_partial (hc : conv.Faithful) (hcI : convI.Faithful) (h : ProgramOk dom rs) (hn : Numbered rs)
    (hcount : Counted rs) (hm : mode = .write ∨ mode = .overwrite)
    (garbage : String → List Int → α) (garbageInt : String → List Int → Int) {mem : Memory α} {cur : String → Values α}
    (hmem : ProgramHolds rs mem cur) {ops : List (FileOp (Memory α))} {sops : List (FileOp (String → Values α))}
    (hops : List.Forall₂ (SameOp (ProgramHolds rs)) ops sops) (hnames : ∀ op ∈ ops, NoLocalNames rs op)
    (hgap : Table.NoGaps (storedNames rs) ⟨true, 0, cur, fun _ _ => none⟩ sops)
    (hreach : Table.StaysInReach (FieldOfLocal rs) (storedNames rs) ⟨true, 0, cur, fun _ _ => none⟩ sops)
    {us : List (FileUse α)}
    (hus : UsesOk dom rs (Table.run (storedNames rs) ⟨true, 0, cur, fun _ _ => none⟩ sops).2.cell us)
    (hreaches : UsesInReach rs (Table.run (storedNames rs) ⟨true, 0, cur, fun _ _ => none⟩ sops).2.cell us)
    (hcounts : ∀ u ∈ us, Counted u.ranks) :
    let w := createFile mode (rs.map FileRank.colls) garbage garbageInt mem ops
    let w' := createFilePar conv convI mode (rs.map FileRank.colls) garbage garbageInt mem ops
    w' = w.inParallel ∧ runUsesPar conv convI w'.disk us = (runUses w.disk us).map ProgramRun.inParallel := by
  intro w w'
  have e : w' = w.inParallel := C99_create_refused_partial hc hcI h hn hcount hm garbage garbageInt hmem hops hnames hgap hreach
  obtain ⟨-, -, -, -, D, hD⟩ := create_has h hn hm garbage garbageInt hmem hops hnames hgap
  refine ⟨e, ?_⟩
  rw [e]
  exact uses_par_refused hc hcI h hm us hD hus hreaches hcounts

theorem NbFrames.nonneg {V : Type} {cell : Int → String → Option V} {nb : Int} (h : NbFrames cell nb) : 0 ≤ nb := by
  rcases h.2 with e | ⟨n, v, e⟩
  · omega
  · have := h.1 _ _ _ e; omega

/-- The two programs of `C66_programs`; the second one makes a call that is refused. -/
theorem exUses_reach (cell : Int → String → Option (Values Int)) : UsesInReach exRanks cell exUses := by
  intro nb hnb
  have h0 := NbFrames.nonneg hnb
  refine ⟨by simp [Table.StaysInReach, Table.InReach], ?_⟩
  intro nb' hnb'
  have h1 := NbFrames.nonneg hnb'
  rw [exStored]
  refine ⟨?_, trivial⟩
  refine ⟨Or.inl (show -nb' ≤ (2 : Int) by omega), trivial, Or.inr ?_, trivial⟩
  intro n hn
  rw [List.mem_singleton] at hn
  rw [hn]
  exact exRanks_global

example :
    let w := createFile .write (exRanks.map FileRank.colls) (fun _ _ => 77) (fun _ _ => 78) (exMem 5) exOps
    let w' := createFilePar exConv exConv .write (exRanks.map FileRank.colls) (fun _ _ => 77) (fun _ _ => 78) (exMem 5) exOps
    (runUses w.disk exUses).map (fun r => r.results) = [[.ok (), .ok (), .ok ()], [.ok (), .throw .fileIOError, .ok ()]] ∧
    w' = w.inParallel ∧ runUsesPar exConv exConv w'.disk exUses = (runUses w.disk exUses).map ProgramRun.inParallel :=
  ⟨by decide +kernel, C99_programs_refused_partial exConv_faithful exConv_faithful exRanks_ok exNumbered exRanks_counted (Or.inl rfl)
    _ _ (exRanks_hold 5) exRanks_same exRanks_names exRanks_gaps exSops_reach exUses_ok (exUses_reach _)
    (by simp [exUses, exRanks_counted, exRanks_counted'])⟩

/-- A field of a local collection at a frame after the last one, then another field: the same in both builds (unlike
`exWrongUse`). -/
example :
    let w := createFile .write (exRanks.map FileRank.colls) (fun _ _ => 77) (fun _ _ => 78) (exMem 5) exOps
    (useFile .read (exRanks.map FileRank.colls) w.disk (exMem 0) [.read 3 ["p"], .read 0 ["u"]]).results =
        [.throw .fileIOError, .ok ()] ∧
      (useFilePar exConv exConv .read (exRanks.map FileRank.colls) w.disk (exMem 0) [.read 3 ["p"], .read 0 ["u"]]).results =
        [.throw .fileIOError, .ok ()] := by
  decide +kernel

end Verif.Props
