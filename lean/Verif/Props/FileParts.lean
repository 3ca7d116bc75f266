import Verif.Lemmas.FileParts
import Verif.Props.FileRanks
/-
C94: programs that use only some of the fields of a file.
-/
namespace Verif.Props
open Verif Verif.Ccoord Verif.Layout Verif.Layout.FieldLayout Verif.RawMemory Verif.FileIO Verif.NetCDF

variable {α : Type}

section
variable {D : FileDesc} {P P' : Program} {vars vars' : List SessVar} {hidden hidden' : String → Option (List Var)}

theorem Registered.sub (h : Registered D P vars hidden) (hs : vars'.Sublist vars) : Registered D P vars' hidden :=
  have hm : ∀ {x}, x ∈ vars' → x ∈ vars := fun hx => hs.subset hx
  ⟨h.nodup.sublist (hs.map _), fun x hx => h.global x (hm hx), fun x hx => h.isLocal x (hm hx),
    fun x hx => h.hidden_eq x (hm hx), fun x hx => h.hid x (hm hx), fun x hx => h.pixels x (hm hx)⟩

/-- What the file contains after a session with some of the variables that left the others alone. -/
theorem Contains.whole (hreg : Registered D P vars hidden) (hreg' : Registered D P' vars' hidden')
    (hfind : ∀ x' ∈ vars', ∃ x ∈ vars, signature x = signature x') {file file' : NcFile α}
    {cell cell' : Int → String → Option (Values α)} (hc : Contains D P vars file cell)
    (hc' : Contains D P' vars' file' cell')
    (hvars : ∀ n, n ∉ vars'.map SessVar.name → file'.vars n = file.vars n)
    (hcell : ∀ fr n, n ∉ vars'.map SessVar.name → cell' fr n = cell fr n) (hhid : file'.hidden = file.hidden) :
    Contains D P vars file' cell' := by
  have hsub : (vars.filter fun x => x.name ∈ vars'.map SessVar.name).Sublist vars := List.filter_sublist
  have hmid : Contains D P (vars.filter fun x => x.name ∈ vars'.map SessVar.name) file' cell' := by
    refine hc'.part hreg' (hreg.sub hsub) fun x hx => ?_
    rw [List.mem_filter, decide_eq_true_eq] at hx
    obtain ⟨hx, hn⟩ := hx
    obtain ⟨x', hx', hn'⟩ := List.mem_map.1 hn
    obtain ⟨y, hy, hsig⟩ := hfind x' hx'
    have hyn : y.name = x.name := by
      have := congrArg Prod.fst hsig
      exact this.trans hn'
    obtain rfl : y = x := List.inj_on_of_nodup_map hreg.nodup hy hx hyn
    exact ⟨x', hx', hsig.symm⟩
  have hin : ∀ {x : SessVar}, x ∈ vars → x.name ∈ vars'.map SessVar.name →
      x ∈ vars.filter fun x => x.name ∈ vars'.map SessVar.name := by
    intro x hx hn
    rw [List.mem_filter, decide_eq_true_eq]
    exact ⟨hx, hn⟩
  refine ⟨fun x hx => ?_, hc'.recs, hc'.last, fun x hx l hl => ?_⟩
  · by_cases hn : x.name ∈ vars'.map SessVar.name
    · exact hmid.each x (hin hx hn)
    · obtain ⟨fv, h1, h2, h3⟩ := hc.each x hx
      exact ⟨fv, (hvars _ hn).trans h1, h2, fun fr val hv => h3 fr val (by rw [← hcell fr _ hn]; exact hv)⟩
  · by_cases hn : x.name ∈ vars'.map SessVar.name
    · exact hmid.entries x (hin hx hn) l hl
    · obtain ⟨fv, h1, h2, h3⟩ := hc.entries x hx l hl
      refine ⟨fv, by rw [hhid]; exact h1, h2, fun hh => h3 ?_⟩
      obtain ⟨fr, v, hv⟩ := hh
      exact ⟨fr, v, by rw [← hcell fr _ hn]; exact hv⟩

end

section
variable {dom : List Int} {rs rs' : List FileRank} {mode : OpenMode}

theorem part_has (h : ProgramOk dom rs) (hm : mode = .write ∨ mode = .overwrite) {D : FileDesc} {d : Disk α}
    {cell : Int → String → Option (Values α)} (hd : FileHas dom rs mode D d cell) {u : FileUse α} (hu : u.OkPart dom rs)
    (happ : u.mode = .append → ∀ r' ∈ u.ranks, ∀ e' ∈ r'.entries, ∀ l total, e'.1 = some (l, total) →
        ∀ r ∈ rs, ∃ e ∈ r.entries, e.1 = some (l, total) ∧ HasCell cell e.2.1)
    (hgap : (u.table cell d.data.numrecs).NoGaps (storedNames u.ranks) u.sops) :
    let p := useFile u.mode (u.ranks.map FileRank.colls) d u.mem u.ops
    let t := (u.table cell d.data.numrecs).run (storedNames u.ranks) u.sops
    (∀ os ∈ p.registered, ∀ o ∈ os, o = .ok ()) ∧ List.Forall₂ AsExpected p.results t.1 ∧
      ProgramHolds u.ranks p.mem t.2.cur ∧ p.nbFrames = t.2.nb ∧ FileHas dom rs mode D p.disk t.2.cell ∧
      (∀ n, n ∉ storedNames u.ranks → p.disk.data.vars n = d.data.vars n) ∧
      (u.mode = .read → p.disk = d) := by
  intro p t
  obtain ⟨r0, rest, hrs⟩ : ∃ r0 rest, rs = r0 :: rest := by
    cases hrs : rs with
    | nil => exact absurd hrs h.nonempty
    | cons a l => exact ⟨a, l, rfl⟩
  have h0 : r0 ∈ rs := by rw [hrs]; simp
  obtain ⟨hd1, hd2⟩ := hd.header r0 h0
  have hF0 : ∀ r ∈ rs, RegOf mode r (regOf mode [] [] 0 r) := fun r hr => regOf_new h hm hr
  have hagain := fun r' hr' => regOf_part h hm h0 hu.ok hu.data hu.mode d.data.numrecs (r' := r') hr'
  dsimp only at hagain
  rw [← hd1, ← hd2] at hagain
  have hF : ∀ r ∈ u.ranks, RegOf u.mode r (regOf u.mode d.dims d.vars d.data.numrecs r) := fun r hr => (hagain r hr).2.1
  have hD := fits_of_part h hd.fits hu.ok hu.data
  have hreg0 := registered_of h hd.fits hF0
  have hreg := registered_of hu.ok hD hF
  have hsig := signature_part h hF0 hu.ok hF hu.data
  have hc := hd.values.part hreg0 hreg hsig
  have hnm := storedNames_eq hu.ok hF
  have hsess := joinSess_created (mode := u.mode) (F := regOf u.mode d.dims d.vars d.data.numrecs) hu.ok.nonempty
    (fun r hr => (hagain r hr).2.2.2.2)
  have hp : p = useFile u.mode (u.ranks.map FileRank.colls) d u.mem u.ops := rfl
  unfold useFile at hp
  dsimp only at hp
  rw [registerRanks_snd, hsess] at hp
  have hmarks : ∀ x ∈ joinVars (u.ranks.map (regOf u.mode d.dims d.vars d.data.numrecs)), ∀ l, x.localName = some l →
      (joinMarks (u.ranks.map (regOf u.mode d.dims d.vars d.data.numrecs)) l).map List.length =
        ((progOf u.ranks).hid l).map HiddenPart.size := by
    intro x hx l hl
    obtain ⟨r, hr, y, hy⟩ := var_local hu.ok hF hx hl
    exact marks_lengths hu.ok hF hu.mode hr hy
  obtain ⟨r1, rest1, hrs1⟩ : ∃ r0 rest, u.ranks = r0 :: rest := by
    cases hrs : u.ranks with
    | nil => exact absurd hrs hu.ok.nonempty
    | cons a l => exact ⟨a, l, rfl⟩
  have h1 : r1 ∈ u.ranks := by rw [hrs1]; simp
  have hhid := fun op hop => noHidden_of hu.ok hF (joinVars (u.ranks.map (regOf u.mode d.dims d.vars d.data.numrecs)))
    (hu.names op hop)
  have main : List.Forall₂ AsExpected p.results t.1 ∧
      Contains D (progOf u.ranks) (joinVars (u.ranks.map (regOf u.mode d.dims d.vars d.data.numrecs))) p.disk.data t.2.cell ∧
      p.nbFrames = t.2.nb ∧
      ∀ x ∈ joinVars (u.ranks.map (regOf u.mode d.dims d.vars d.data.numrecs)),
        VarHolds (progOf u.ranks) x (p.mem x.name) (t.2.cur x.name) := by
    have hgap' := hgap
    have ht : t = (u.table cell d.data.numrecs).run (storedNames u.ranks) u.sops := rfl
    rw [← hnm] at hgap' ht
    have hmem := (programHolds_iff hu.ok hF _ _).1 hu.mem
    have hops := sameOp_congr (fun m c => (programHolds_iff hu.ok hF m c).1) hu.ops
    rw [hp, ht]
    rcases hu.mode with hr | ha
    · have := C62_read hreg hc hmarks hmem hops hhid
        (fun op hop => refused_of hu.ok hF (hu.refused hr op hop)) (by
        have e : u.table cell d.data.numrecs = ⟨false, d.data.numrecs, u.cur, cell⟩ := by
          rw [FileUse.table, hr]; rfl
        rw [← e]; exact hgap')
      have e : u.table cell d.data.numrecs = ⟨false, d.data.numrecs, u.cur, cell⟩ := by
        rw [FileUse.table, hr]; rfl
      rw [e, hr] at *
      exact this
    · have := append_entries hreg hc hmarks (by
        intro x hx l hl
        rw [joinVars_eq hu.ok hF hrs1] at hx
        obtain ⟨e, he, rfl⟩ := List.mem_map.1 hx
        cases hk : e.1 with
        | none => rw [varOf, hk] at hl; cases hl
        | some y =>
          obtain ⟨l', total⟩ := y
          have hll : l' = l := by
            rw [varOf, hk] at hl
            exact Option.some.inj hl
          subst hll
          obtain ⟨e0, he0, k1, k2⟩ := happ ha r1 h1 e he l' total hk r0 h0
          obtain ⟨fv, f1, -, f3⟩ := hd.values.entries (varOf rs e0)
            (by rw [joinVars_eq h hF0 hrs]; exact List.mem_map_of_mem he0) l' (by rw [varOf, k1]; rfl)
          exact ⟨fv, f1, f3 k2⟩) hmem hops hhid (by
        have e : u.table cell d.data.numrecs = ⟨true, d.data.numrecs, u.cur, cell⟩ := by
          rw [FileUse.table, ha]; rfl
        rw [← e]; exact hgap')
      have e : u.table cell d.data.numrecs = ⟨true, d.data.numrecs, u.cur, cell⟩ := by
        rw [FileUse.table, ha]; rfl
      rw [e, ha] at *
      exact this
  have hbes := run_beside u.ops (w := ⟨⟨u.mode, joinVars (u.ranks.map (regOf u.mode d.dims d.vars d.data.numrecs)),
    joinHidden (u.ranks.map (regOf u.mode d.dims d.vars d.data.numrecs)), d.data.numrecs,
    joinMarks (u.ranks.map (regOf u.mode d.dims d.vars d.data.numrecs)), [], []⟩, d.data, u.mem⟩) hhid
  have hoth : ∀ n, n ∉ storedNames u.ranks → p.disk.data.vars n = d.data.vars n := by
    intro n hn
    rw [hp]
    exact hbes.others n (by rw [← hnm] at hn; exact hn)
  obtain ⟨m1, m2, m3, m4⟩ := main
  refine ⟨ok_all fun r hr => (hagain r hr).1, m1, (programHolds_iff hu.ok hF _ _).2 m4, m3, ⟨hd.fits, ?_, ?_⟩, hoth, ?_⟩
  · intro r hr
    obtain ⟨e1, e2, -⟩ := header_eq h hm h0 hr
    rw [hp, headerOf_map hrs1]
    exact ⟨((hagain r1 h1).2.2.1.trans hd1).trans e1, ((hagain r1 h1).2.2.2.1.trans hd2).trans e2⟩
  · refine Contains.whole hreg0 hreg hsig hd.values m2 (fun n hn => hoth n (by rw [← hnm]; exact hn)) (fun fr n hn => ?_) ?_
    · exact Table.run_beside u.sops _ fr n (by rw [← hnm]; exact hn)
    · rw [hp]
      exact hbes.entries hu.mode
  · intro hr
    have e := hbes.reading hr
    rw [hp, headerOf_map hrs1]
    dsimp only
    rw [e, (hagain r1 h1).2.2.1, (hagain r1 h1).2.2.2.1]

theorem parts_behave (h : ProgramOk dom rs) (hm : mode = .write ∨ mode = .overwrite) {D : FileDesc} (us : List (FileUse α))
    {d : Disk α} {cell : Int → String → Option (Values α)} (hd : FileHas dom rs mode D d cell)
    (hus : UsesPart dom rs cell us) : BehavesPart cell us (runUses d us) := by
  induction us generalizing d cell with
  | nil => rfl
  | cons u us ih =>
    obtain ⟨h1, h2, h3⟩ := hus
    obtain ⟨h4, h5⟩ := h3 _ hd.nbFrames
    obtain ⟨k1, k2, k3, k4, k5, -, -⟩ := part_has h hm hd h1 h2 h4
    exact ⟨_, hd.nbFrames, k1, k2, k3, k4, ih k5 h5⟩

/-- **C94** A program creates a file; then any number of programs open it one after the other, for reading or for
appending.  Each may have only some of the fields, in collections and an order of its own, with any number of processes,
another decomposition and other storage orders.  Each of them finds, for its fields, the table that the programs before
have left, whichever fields those had: all its registrations succeed, all its calls succeed or fail as expected of that
table, and its fields have the values that the table gives. -/
theorem C94_programs (h : ProgramOk dom rs) (hn : Numbered rs) (hm : mode = .write ∨ mode = .overwrite)
    (garbage : String → List Int → α) (garbageInt : String → List Int → Int) {mem : Memory α} {cur : String → Values α}
    (hmem : ProgramHolds rs mem cur) {ops : List (FileOp (Memory α))} {sops : List (FileOp (String → Values α))}
    (hops : List.Forall₂ (SameOp (ProgramHolds rs)) ops sops) (hnames : ∀ op ∈ ops, NoLocalNames rs op)
    (hgap : Table.NoGaps (storedNames rs) ⟨true, 0, cur, fun _ _ => none⟩ sops) {us : List (FileUse α)}
    (hus : UsesPart dom rs (Table.run (storedNames rs) ⟨true, 0, cur, fun _ _ => none⟩ sops).2.cell us) :
    BehavesPart (Table.run (storedNames rs) ⟨true, 0, cur, fun _ _ => none⟩ sops).2.cell us
      (runUses (createFile mode (rs.map FileRank.colls) garbage garbageInt mem ops).disk us) := by
  obtain ⟨-, -, -, -, D, hD⟩ := create_has h hn hm garbage garbageInt hmem hops hnames hgap
  exact parts_behave h hm us hD hus

/-- **C94** What a program does with its fields leaves the other variables of the file as they are: no value of a
variable that the program does not have changes, at any frame, whatever the program writes.  (For files that this library
has created, opened with `Append` or `Read`.) -/
theorem C94_others (h : ProgramOk dom rs) (hn : Numbered rs) (hm : mode = .write ∨ mode = .overwrite)
    (garbage : String → List Int → α) (garbageInt : String → List Int → Int) {mem : Memory α} {cur : String → Values α}
    (hmem : ProgramHolds rs mem cur) {ops : List (FileOp (Memory α))} {sops : List (FileOp (String → Values α))}
    (hops : List.Forall₂ (SameOp (ProgramHolds rs)) ops sops) (hnames : ∀ op ∈ ops, NoLocalNames rs op)
    (hgap : Table.NoGaps (storedNames rs) ⟨true, 0, cur, fun _ _ => none⟩ sops) {u : FileUse α}
    (hus : UsesPart dom rs (Table.run (storedNames rs) ⟨true, 0, cur, fun _ _ => none⟩ sops).2.cell [u]) :
    let d := (createFile mode (rs.map FileRank.colls) garbage garbageInt mem ops).disk
    let d' := (useFile u.mode (u.ranks.map FileRank.colls) d u.mem u.ops).disk
    (∀ n, n ∉ storedNames u.ranks → d'.data.vars n = d.data.vars n) ∧ (u.mode = .read → d' = d) := by
  obtain ⟨-, -, -, -, D, hD⟩ := create_has h hn hm garbage garbageInt hmem hops hnames hgap
  obtain ⟨h1, h2, h3⟩ := hus
  obtain ⟨h4, -⟩ := h3 _ hD.nbFrames
  obtain ⟨-, -, -, -, -, k6, k7⟩ := part_has h hm hD h1 h2 h4
  exact ⟨k6, k7⟩

/-- **C94** A program that has only some of the fields reads what was written: a frame in which those fields have been
written has the values last written there, whether or not the other fields have been written in that frame. -/
theorem C94_read (h : ProgramOk dom rs) (hn : Numbered rs) (hm : mode = .write ∨ mode = .overwrite)
    (garbage : String → List Int → α) (garbageInt : String → List Int → Int) {mem : Memory α} {cur : String → Values α}
    (hmem : ProgramHolds rs mem cur) {ops : List (FileOp (Memory α))} {sops : List (FileOp (String → Values α))}
    (hops : List.Forall₂ (SameOp (ProgramHolds rs)) ops sops) (hnames : ∀ op ∈ ops, NoLocalNames rs op)
    (hgap : Table.NoGaps (storedNames rs) ⟨true, 0, cur, fun _ _ => none⟩ sops)
    (h' : ProgramOk dom rs') (hs : PartData rs rs') (hne : storedNames rs' ≠ []) {mem' : Memory α} {cur' : String → Values α}
    (hmem' : ProgramHolds rs' mem' cur') {fr : Int} {val : String → Values α}
    (hval : ∀ n ∈ storedNames rs', (Table.run (storedNames rs) ⟨true, 0, cur, fun _ _ => none⟩ sops).2.cell fr n =
      some (val n)) :
    let w := createFile mode (rs.map FileRank.colls) garbage garbageInt mem ops
    let p := useFile .read (rs'.map FileRank.colls) w.disk mem' [.readAll fr]
    (∀ os ∈ p.registered, ∀ o ∈ os, o = .ok ()) ∧ p.results = [.ok ()] ∧ ProgramHolds rs' p.mem val ∧ p.disk = w.disk := by
  intro w
  obtain ⟨-, -, -, -, D, hD⟩ := create_has h hn hm garbage garbageInt hmem hops hnames hgap
  generalize hcell : (Table.run (storedNames rs) ⟨true, 0, cur, fun _ _ => none⟩ sops).2.cell = cell at *
  obtain ⟨n0, hn0⟩ := List.exists_mem_of_ne_nil _ hne
  obtain ⟨hb0, hb1⟩ := hD.values.recs _ _ _ (hval n0 hn0)
  have hmf : meantFrame w.disk.data.numrecs fr = some fr := by rw [meantFrame, if_pos ⟨hb0, hb1⟩]
  obtain ⟨cur2, q1, q2, -⟩ := Table.read_filled (V := Values α) (frame := fr) (storedNames rs')
    ⟨false, w.disk.data.numrecs, cur', cell⟩ (fun _ h => h) hmf hval
  have key := part_has h hm hD
    (u := ⟨rs', .read, mem', cur', [.readAll fr], [.readAll fr]⟩)
    ⟨h', hs, Or.inl rfl, hmem', by constructor; exact .readAll fr; constructor, by simp [NoLocalNames],
      fun _ => by simp [RefusedBy, FirstNot]⟩
    (fun e => by cases e)
    (by
      refine ⟨?_, trivial⟩
      intro n hn _
      change match meantFrame w.disk.data.numrecs fr with
        | some fr => cell fr n ≠ none
        | none => HasCell cell n
      rw [hmf]
      simp [hval n hn])
  obtain ⟨k1, k2, k3, -, -, -, k7⟩ := key
  change List.Forall₂ AsExpected _ [(Table.read _ fr _ ⟨false, w.disk.data.numrecs, cur', cell⟩).1] at k2
  change ProgramHolds rs' _ (Table.read _ fr _ ⟨false, w.disk.data.numrecs, cur', cell⟩).2.cur at k3
  rw [q1] at k2 k3
  refine ⟨k1, asExpected_one k2, fun n hn => ?_, k7 rfl⟩
  rw [← q2 n hn]
  exact k3 n hn

/-- **C94** Programs with all the fields are a special case. -/
theorem C94_same (h : SameData rs rs') (hok : ProgramOk dom rs) (hok' : ProgramOk dom rs') : PartData rs rs' := by
  refine ⟨fun r hr r' hr' c' hc' => ?_, fun l hl => h.pixels l ?_⟩
  · obtain ⟨c, hc, e⟩ := sig_coll (h.same r hr r' hr').symm hc'
    exact ⟨c, hc, (congrArg Prod.fst e).symm, fun y hy => by rw [e]; exact hy⟩
  · obtain ⟨r, hr⟩ := List.exists_mem_of_ne_nil _ hok.nonempty
    obtain ⟨r', hr'⟩ := List.exists_mem_of_ne_nil _ hok'.nonempty
    rw [hok.localNames_iff hr]
    rw [hok'.localNames_iff hr'] at hl
    obtain ⟨⟨ids, t, off⟩, hx⟩ := Option.ne_none_iff_exists'.1 hl
    obtain ⟨ids', off', e⟩ := sig_local (h.same r hr r' hr').symm (hok.colls r hr) hx
    rw [e]
    simp

end

end Verif.Props
