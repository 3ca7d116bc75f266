import Verif.Lemmas.FileRanks
/-
C66: programs with collections that use the same file, from the registration of the collections to the values.
-/
namespace Verif.Props
open Verif Verif.Ccoord Verif.Layout Verif.Layout.FieldLayout Verif.RawMemory Verif.FileIO Verif.NetCDF

variable {α : Type}

section
variable {dom : List Int} {rs rs' : List FileRank} {mode : OpenMode}

/-- **C66** The calls that define dimensions and variables are collective: all processes of a program make the same ones,
in the same order, with the same sizes and the same dimensions and type for each variable, although their parts of the
domain differ. -/
theorem C66_collective (h : ProgramOk dom rs) (hm : mode = .write ∨ mode = .overwrite) :
    let regs := registerRanks mode [] [] 0 (rs.map FileRank.colls)
    ∀ r ∈ regs, ∀ r' ∈ regs, (∀ o ∈ r.1, o = .ok ()) ∧ r.2.fileDims = r'.2.fileDims ∧ r.2.fileVars = r'.2.fileVars ∧
      r.2.vars.map (fun v => (v.1.name, v.1.hist, v.1.dims, v.1.dataType)) =
        r'.2.vars.map fun v => (v.1.name, v.1.hist, v.1.dims, v.1.dataType) := by
  intro regs s hs s' hs'
  have key : regs = rs.map fun r => (Reg.opened mode [] [] 0).run (registerAll r.colls) := by
    show registerRanks _ _ _ _ _ = _
    rw [registerRanks, List.map_map]
    rfl
  rw [key] at hs hs'
  obtain ⟨r, hr, rfl⟩ := List.mem_map.1 hs
  obtain ⟨r', hr', rfl⟩ := List.mem_map.1 hs'
  exact ⟨(regOf_writing h hm hr).1, header_eq h hm hr hr'⟩

/-- What is known about a file that the program `rs` has created: its header is the one that the program has defined, and
it contains the values `cell`. -/
structure FileHas (dom : List Int) (rs : List FileRank) (mode : OpenMode) (D : FileDesc) (d : Disk α)
    (cell : Int → String → Option (Values α)) : Prop where
  fits : Fits D dom rs
  header : ∀ r ∈ rs, d.dims = (regOf mode [] [] 0 r).fileDims ∧ d.vars = (regOf mode [] [] 0 r).fileVars
  values : Contains D (progOf rs) (joinVars (rs.map (regOf mode [] [] 0))) d.data cell

theorem FileHas.nbFrames {D : FileDesc} {d : Disk α} {cell : Int → String → Option (Values α)}
    (h : FileHas dom rs mode D d cell) : NbFrames cell d.data.numrecs :=
  ⟨h.values.recs, h.values.last⟩

theorem create_has (h : ProgramOk dom rs) (hn : Numbered rs) (hm : mode = .write ∨ mode = .overwrite)
    (garbage : String → List Int → α) (garbageInt : String → List Int → Int) {mem : Memory α} {cur : String → Values α}
    (hmem : ProgramHolds rs mem cur) {ops : List (FileOp (Memory α))} {sops : List (FileOp (String → Values α))}
    (hops : List.Forall₂ (SameOp (ProgramHolds rs)) ops sops) (hnames : ∀ op ∈ ops, NoLocalNames rs op)
    (hgap : Table.NoGaps (storedNames rs) ⟨true, 0, cur, fun _ _ => none⟩ sops) :
    let p := createFile mode (rs.map FileRank.colls) garbage garbageInt mem ops
    let t := Table.run (storedNames rs) ⟨true, 0, cur, fun _ _ => none⟩ sops
    (∀ os ∈ p.registered, ∀ o ∈ os, o = .ok ()) ∧ List.Forall₂ AsExpected p.results t.1 ∧
      ProgramHolds rs p.mem t.2.cur ∧ p.nbFrames = t.2.nb ∧ ∃ D, FileHas dom rs mode D p.disk t.2.cell := by
  intro p t
  obtain ⟨D, hD, hM⟩ := exists_fits h hn
  have hF : ∀ r ∈ rs, RegOf mode r (regOf mode [] [] 0 r) := fun r hr => regOf_new h hm hr
  have hreg := registered_of h hD hF
  have hsess := joinSess_created (mode := mode) (F := regOf mode [] [] 0) h.nonempty
    (fun r hr => (regOf_writing h hm hr).2.nbFrames)
  have hp : p = createFile mode (rs.map FileRank.colls) garbage garbageInt mem ops := rfl
  unfold createFile at hp
  dsimp only at hp
  rw [registerRanks_snd, hsess] at hp
  have main := C62_new hreg hm (marks := joinMarks (rs.map (regOf mode [] [] 0)))
    (fun x hx l hl => by
      obtain ⟨r, hr, y, hy⟩ := var_local h hF hx hl
      exact marks_entries h hF hm hr hy fun r hr ids total off hl => hM r hr l ids total off hl)
    garbage garbageInt ((programHolds_iff h hF mem cur).1 hmem)
    (sameOp_congr (fun m c => (programHolds_iff h hF m c).1) hops)
    (fun op hop => noHidden_of h hF _ (hnames op hop))
    (by rw [storedNames_eq h hF]; exact hgap)
  rw [storedNames_eq h hF] at main
  obtain ⟨m1, m2, m3, m4⟩ := main
  obtain ⟨r0, rest, hrs⟩ : ∃ r0 rest, rs = r0 :: rest := by
    cases hrs : rs with
    | nil => exact absurd hrs h.nonempty
    | cons a l => exact ⟨a, l, rfl⟩
  have h0 : r0 ∈ rs := by rw [hrs]; simp
  refine ⟨ok_all fun r hr => (regOf_writing h hm hr).1, ?_, ?_, ?_, D, hD, ?_, ?_⟩
  · rw [hp]; exact m1
  · rw [hp]; exact (programHolds_iff h hF _ _).2 m4
  · rw [hp]; exact m3
  · intro r hr
    obtain ⟨e1, e2, -⟩ := header_eq h hm h0 hr
    rw [hp, headerOf_map hrs]
    exact ⟨e1, e2⟩
  · rw [hp]; exact m2

/-- **C66** A program whose processes have collections that can be stored together creates a file: every registration
succeeds on every process, and then whatever is appended, written, read and computed, in any order, succeeds or fails
as expected of a table with one row per frame and one column per field, and the fields have the values that the table
gives. -/
theorem C66_new (h : ProgramOk dom rs) (hn : Numbered rs) (hm : mode = .write ∨ mode = .overwrite)
    (garbage : String → List Int → α) (garbageInt : String → List Int → Int) {mem : Memory α} {cur : String → Values α}
    (hmem : ProgramHolds rs mem cur) {ops : List (FileOp (Memory α))} {sops : List (FileOp (String → Values α))}
    (hops : List.Forall₂ (SameOp (ProgramHolds rs)) ops sops) (hnames : ∀ op ∈ ops, NoLocalNames rs op)
    (hgap : Table.NoGaps (storedNames rs) ⟨true, 0, cur, fun _ _ => none⟩ sops) :
    let p := createFile mode (rs.map FileRank.colls) garbage garbageInt mem ops
    let t := Table.run (storedNames rs) ⟨true, 0, cur, fun _ _ => none⟩ sops
    (∀ os ∈ p.registered, ∀ o ∈ os, o = .ok ()) ∧ List.Forall₂ AsExpected p.results t.1 ∧
      ProgramHolds rs p.mem t.2.cur ∧ p.nbFrames = t.2.nb := by
  obtain ⟨h1, h2, h3, h4, -⟩ := create_has h hn hm garbage garbageInt hmem hops hnames hgap
  exact ⟨h1, h2, h3, h4⟩

theorem use_has (h : ProgramOk dom rs) (hm : mode = .write ∨ mode = .overwrite) {D : FileDesc} {d : Disk α}
    {cell : Int → String → Option (Values α)} (hd : FileHas dom rs mode D d cell) {u : FileUse α} (hu : u.Ok dom rs)
    (happ : u.mode = .append → ∀ r ∈ rs, ∀ e ∈ r.entries, ∀ l total, e.1 = some (l, total) →
        ∃ e' ∈ r.entries, e'.1 = some (l, total) ∧ HasCell cell e'.2.1)
    (hgap : (u.table cell d.data.numrecs).NoGaps (storedNames rs) u.sops) :
    let p := useFile u.mode (u.ranks.map FileRank.colls) d u.mem u.ops
    let t := (u.table cell d.data.numrecs).run (storedNames rs) u.sops
    (∀ os ∈ p.registered, ∀ o ∈ os, o = .ok ()) ∧ List.Forall₂ AsExpected p.results t.1 ∧
      ProgramHolds u.ranks p.mem t.2.cur ∧ p.nbFrames = t.2.nb ∧ FileHas dom rs mode D p.disk t.2.cell := by
  intro p t
  obtain ⟨r0, rest, hrs⟩ : ∃ r0 rest, rs = r0 :: rest := by
    cases hrs : rs with
    | nil => exact absurd hrs h.nonempty
    | cons a l => exact ⟨a, l, rfl⟩
  have h0 : r0 ∈ rs := by rw [hrs]; simp
  obtain ⟨hd1, hd2⟩ := hd.header r0 h0
  have hF0 : ∀ r ∈ rs, RegOf mode r (regOf mode [] [] 0 r) := fun r hr => regOf_new h hm hr
  have hagain := fun r' hr' => regOf_again h hm h0 hu.ok hu.data hu.mode d.data.numrecs (r' := r') hr'
  dsimp only at hagain
  rw [← hd1, ← hd2] at hagain
  have hF : ∀ r ∈ u.ranks, RegOf u.mode r (regOf u.mode d.dims d.vars d.data.numrecs r) := fun r hr => (hagain r hr).2.1
  have hD := fits_of_same h hd.fits hu.ok hu.data
  have hreg0 := registered_of h hd.fits hF0
  have hreg := registered_of hu.ok hD hF
  have hsig := signature_eq h hF0 hu.ok hF hu.data
  have hc := C62_any_program hreg0 hreg hsig hd.values
  have hnm : storedNames rs = storedNames u.ranks := by
    rw [← storedNames_eq h hF0, ← storedNames_eq hu.ok hF]
    have := congrArg (List.map Prod.fst) hsig
    rwa [List.map_map, List.map_map] at this
  have hsess := joinSess_created (mode := u.mode) (F := regOf u.mode d.dims d.vars d.data.numrecs) hu.ok.nonempty
    (fun r hr => (hagain r hr).2.2.2.2)
  have hp : p = useFile u.mode (u.ranks.map FileRank.colls) d u.mem u.ops := rfl
  unfold useFile at hp
  dsimp only at hp
  rw [registerRanks_snd, hsess] at hp
  have hmarks : ∀ x ∈ joinVars (u.ranks.map (regOf u.mode d.dims d.vars d.data.numrecs)), ∀ l, x.localName = some l →
      (joinMarks (u.ranks.map (regOf u.mode d.dims d.vars d.data.numrecs)) l).map List.length =
        ((progOf u.ranks).hid l).map HiddenPart.size := by
    intro x hx l hl
    obtain ⟨r, hr, y, hy⟩ := var_local hu.ok hF hx hl
    exact marks_lengths hu.ok hF hu.mode hr hy
  obtain ⟨r1, rest1, hrs1⟩ : ∃ r0 rest, u.ranks = r0 :: rest := by
    cases hrs : u.ranks with
    | nil => exact absurd hrs hu.ok.nonempty
    | cons a l => exact ⟨a, l, rfl⟩
  have h1 : r1 ∈ u.ranks := by rw [hrs1]; simp
  have main : List.Forall₂ AsExpected p.results t.1 ∧
      Contains D (progOf u.ranks) (joinVars (u.ranks.map (regOf u.mode d.dims d.vars d.data.numrecs))) p.disk.data t.2.cell ∧
      p.nbFrames = t.2.nb ∧
      ∀ x ∈ joinVars (u.ranks.map (regOf u.mode d.dims d.vars d.data.numrecs)),
        VarHolds (progOf u.ranks) x (p.mem x.name) (t.2.cur x.name) := by
    have hgap' := hgap
    have ht : t = (u.table cell d.data.numrecs).run (storedNames rs) u.sops := rfl
    rw [hnm, ← storedNames_eq hu.ok hF] at hgap' ht
    have hmem := (programHolds_iff hu.ok hF _ _).1 hu.mem
    have hops := sameOp_congr (fun m c => (programHolds_iff hu.ok hF m c).1) hu.ops
    have hhid := fun op hop => noHidden_of hu.ok hF (joinVars (u.ranks.map (regOf u.mode d.dims d.vars d.data.numrecs)))
      (hu.names op hop)
    rw [hp, ht]
    rcases hu.mode with hr | ha
    · have := C62_read hreg hc hmarks hmem hops hhid
        (fun op hop => refused_of hu.ok hF (hu.refused hr op hop)) (by
        have e : u.table cell d.data.numrecs = ⟨false, d.data.numrecs, u.cur, cell⟩ := by
          rw [FileUse.table, hr]; rfl
        rw [← e]; exact hgap')
      have e : u.table cell d.data.numrecs = ⟨false, d.data.numrecs, u.cur, cell⟩ := by
        rw [FileUse.table, hr]; rfl
      rw [e, hr] at *
      exact this
    · have := C62_append hreg hc hmarks (by
        intro x hx l hl
        rw [joinVars_eq hu.ok hF hrs1] at hx
        obtain ⟨e, he, rfl⟩ := List.mem_map.1 hx
        obtain ⟨e0, he0, g1, g2, -⟩ := sig_entry (hu.data.same r0 h0 r1 h1).symm he
        cases hk : e.1 with
        | none => rw [varOf, hk] at hl; cases hl
        | some y =>
          obtain ⟨l', total⟩ := y
          have hll : l' = l := by
            rw [varOf, hk] at hl
            exact Option.some.inj hl
          obtain ⟨e0', he0', k1, k2⟩ := happ ha r0 h0 e0 he0 l' total (g1.trans hk)
          obtain ⟨e', he', j1, j2, -⟩ := sig_entry (hu.data.same r0 h0 r1 h1) he0'
          refine ⟨varOf u.ranks e', ?_, ?_, ?_⟩
          · rw [joinVars_eq hu.ok hF hrs1]
            exact List.mem_map_of_mem he'
          · rw [varOf, j1, k1, hll]; rfl
          · show HasCell cell e'.2.1
            rw [j2]; exact k2) hmem hops hhid (by
        have e : u.table cell d.data.numrecs = ⟨true, d.data.numrecs, u.cur, cell⟩ := by
          rw [FileUse.table, ha]; rfl
        rw [← e]; exact hgap')
      have e : u.table cell d.data.numrecs = ⟨true, d.data.numrecs, u.cur, cell⟩ := by
        rw [FileUse.table, ha]; rfl
      rw [e, ha] at *
      exact this
  obtain ⟨m1, m2, m3, m4⟩ := main
  refine ⟨ok_all fun r hr => (hagain r hr).1, m1, (programHolds_iff hu.ok hF _ _).2 m4, m3, hd.fits, ?_, ?_⟩
  · intro r hr
    obtain ⟨e1, e2, -⟩ := header_eq h hm h0 hr
    rw [hp, headerOf_map hrs1]
    exact ⟨((hagain r1 h1).2.2.1.trans hd1).trans e1, ((hagain r1 h1).2.2.2.1.trans hd2).trans e2⟩
  · exact C62_any_program hreg hreg0 hsig.symm m2

theorem uses_behave (h : ProgramOk dom rs) (hm : mode = .write ∨ mode = .overwrite) {D : FileDesc} (us : List (FileUse α))
    {d : Disk α} {cell : Int → String → Option (Values α)} (hd : FileHas dom rs mode D d cell)
    (hus : UsesOk dom rs cell us) : Behaves (storedNames rs) cell us (runUses d us) := by
  induction us generalizing d cell with
  | nil => rfl
  | cons u us ih =>
    obtain ⟨h1, h2, h3⟩ := hus
    obtain ⟨h4, h5⟩ := h3 _ hd.nbFrames
    obtain ⟨k1, k2, k3, k4, k5⟩ := use_has h hm hd h1 h2 h4
    exact ⟨_, hd.nbFrames, k1, k2, k3, k4, ih k5 h5⟩

/-- **C66** A program creates a file; then any number of programs open it one after the other, for reading or for
appending.  Each may have any number of processes, another decomposition of the domain and other storage orders, as long as
it has the same fields, and local collections with the same pixels.  Each of them finds the table that the programs before
have left: all its registrations succeed, all its calls succeed or fail as expected of that table, and its fields
have the values that the table gives. -/
theorem C66_programs (h : ProgramOk dom rs) (hn : Numbered rs) (hm : mode = .write ∨ mode = .overwrite)
    (garbage : String → List Int → α) (garbageInt : String → List Int → Int) {mem : Memory α} {cur : String → Values α}
    (hmem : ProgramHolds rs mem cur) {ops : List (FileOp (Memory α))} {sops : List (FileOp (String → Values α))}
    (hops : List.Forall₂ (SameOp (ProgramHolds rs)) ops sops) (hnames : ∀ op ∈ ops, NoLocalNames rs op)
    (hgap : Table.NoGaps (storedNames rs) ⟨true, 0, cur, fun _ _ => none⟩ sops) {us : List (FileUse α)}
    (hus : UsesOk dom rs (Table.run (storedNames rs) ⟨true, 0, cur, fun _ _ => none⟩ sops).2.cell us) :
    Behaves (storedNames rs) (Table.run (storedNames rs) ⟨true, 0, cur, fun _ _ => none⟩ sops).2.cell us
      (runUses (createFile mode (rs.map FileRank.colls) garbage garbageInt mem ops).disk us) := by
  obtain ⟨-, -, -, -, D, hD⟩ := create_has h hn hm garbage garbageInt hmem hops hnames hgap
  exact uses_behave h hm us hD hus

/-- **C66** What one program writes into a new file, another program reads, whatever number of processes, decomposition and
storage orders they have: a frame in which all fields have been written has the values last written there. -/
theorem C66_round_trip (h : ProgramOk dom rs) (hn : Numbered rs) (hm : mode = .write ∨ mode = .overwrite)
    (garbage : String → List Int → α) (garbageInt : String → List Int → Int) {mem : Memory α} {cur : String → Values α}
    (hmem : ProgramHolds rs mem cur) {ops : List (FileOp (Memory α))} {sops : List (FileOp (String → Values α))}
    (hops : List.Forall₂ (SameOp (ProgramHolds rs)) ops sops) (hnames : ∀ op ∈ ops, NoLocalNames rs op)
    (hgap : Table.NoGaps (storedNames rs) ⟨true, 0, cur, fun _ _ => none⟩ sops)
    (h' : ProgramOk dom rs') (hs : SameData rs rs') (hne : storedNames rs ≠ []) {mem' : Memory α} {cur' : String → Values α}
    (hmem' : ProgramHolds rs' mem' cur') {fr : Int} {val : String → Values α}
    (hval : ∀ n ∈ storedNames rs, (Table.run (storedNames rs) ⟨true, 0, cur, fun _ _ => none⟩ sops).2.cell fr n =
      some (val n)) :
    let w := createFile mode (rs.map FileRank.colls) garbage garbageInt mem ops
    let p := useFile .read (rs'.map FileRank.colls) w.disk mem' [.readAll fr]
    (∀ os ∈ p.registered, ∀ o ∈ os, o = .ok ()) ∧ p.results = [.ok ()] ∧ ProgramHolds rs' p.mem val := by
  intro w
  obtain ⟨-, -, -, -, D, hD⟩ := create_has h hn hm garbage garbageInt hmem hops hnames hgap
  generalize hcell : (Table.run (storedNames rs) ⟨true, 0, cur, fun _ _ => none⟩ sops).2.cell = cell at *
  obtain ⟨n0, hn0⟩ := List.exists_mem_of_ne_nil _ hne
  obtain ⟨hb0, hb1⟩ := hD.values.recs _ _ _ (hval n0 hn0)
  have hmf : meantFrame w.disk.data.numrecs fr = some fr := by rw [meantFrame, if_pos ⟨hb0, hb1⟩]
  obtain ⟨cur2, q1, q2, -⟩ := Table.read_filled (V := Values α) (frame := fr) (storedNames rs)
    ⟨false, w.disk.data.numrecs, cur', cell⟩ (fun _ h => h) hmf hval
  have key := use_has h hm hD
    (u := ⟨rs', .read, mem', cur', [.readAll fr], [.readAll fr]⟩)
    ⟨h', hs, Or.inl rfl, hmem', by constructor; exact .readAll fr; constructor, by simp [NoLocalNames],
      fun _ => by simp [RefusedBy, FirstNot]⟩
    (fun e => by cases e)
    (by
      refine ⟨?_, trivial⟩
      intro n hn _
      change match meantFrame w.disk.data.numrecs fr with
        | some fr => cell fr n ≠ none
        | none => HasCell cell n
      rw [hmf]
      simp [hval n hn])
  obtain ⟨k1, k2, k3, -, -⟩ := key
  change List.Forall₂ AsExpected _ [(Table.read _ fr _ ⟨false, w.disk.data.numrecs, cur', cell⟩).1] at k2
  change ProgramHolds rs' _ (Table.read _ fr _ ⟨false, w.disk.data.numrecs, cur', cell⟩).2.cur at k3
  rw [q1] at k2 k3
  refine ⟨k1, asExpected_one k2, fun n hn => ?_⟩
  have hnr : n ∈ storedNames rs := by
    obtain ⟨r0, rest, hrs⟩ : ∃ r0 rest, rs = r0 :: rest := by
      cases hrs : rs with
      | nil => exact absurd hrs h.nonempty
      | cons a l => exact ⟨a, l, rfl⟩
    obtain ⟨r1, rest1, hrs1⟩ : ∃ r0 rest, rs' = r0 :: rest := by
      cases hrs : rs' with
      | nil => exact absurd hrs h'.nonempty
      | cons a l => exact ⟨a, l, rfl⟩
    rw [hrs1] at hn
    obtain ⟨e, he, rfl⟩ := List.mem_map.1 hn
    obtain ⟨e0, he0, -, g2, -⟩ := sig_entry (hs.same r0 (by rw [hrs]; simp) r1 (by rw [hrs1]; simp)).symm he
    rw [hrs, ← g2]
    exact List.mem_map.2 ⟨e0, he0, rfl⟩
  rw [← q2 n hnr]
  exact k3 n hn

end

end Verif.Props
