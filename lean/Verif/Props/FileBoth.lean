import Verif.Lemmas.FileBoth
import Verif.Props.FileRanks
import Verif.Props.FileAtts
/-
Data and global attributes of one file do not disturb each other: C95.
-/
namespace Verif.Props
open Verif Verif.NetCDF Verif.NetCDFAtt

variable {α V : Type}

theorem table_run_append : ∀ (ops ops' : List (AttOp V)) (t : AttTable V),
    t.run (ops ++ ops') = ((t.run ops).1 ++ ((t.run ops).2.run ops').1, ((t.run ops).2.run ops').2)
  | [], _, _ => rfl
  | op :: ops, ops', t => by
    rw [List.cons_append, AttTable.run, table_run_append ops ops']
    rfl

theorem table_run_register (k : Nat) (t : AttTable V) :
    (t.run (List.replicate k .register)).1 = List.replicate k true ∧
      (k ≠ 0 → (t.run (List.replicate k .register)).2 = { t with touched := t.touched || t.isNew, registered := true }) := by
  induction k generalizing t with
  | zero => exact ⟨rfl, fun h => absurd rfl h⟩
  | succ k ih =>
    obtain ⟨h1, h2⟩ := ih (t.step .register).2
    refine ⟨congrArg (true :: ·) h1, fun _ => ?_⟩
    show ((t.step .register).2.run (List.replicate k .register)).2 = _
    cases k with
    | zero => rfl
    | succ k =>
      rw [h2 (Nat.succ_ne_zero k)]
      simp [AttTable.step, Bool.or_assoc]

theorem noClash_register (k : Nat) (t : AttTable V) : t.NoClash (List.replicate k .register) := by
  induction k generalizing t with
  | zero => trivial
  | succ k ih => exact ⟨trivial, ih _⟩

theorem noClash_append : ∀ (ops : List (AttOp V)) {ops' : List (AttOp V)} {t : AttTable V}, t.NoClash ops →
    (t.run ops).2.NoClash ops' → t.NoClash (ops ++ ops')
  | [], _, _, _, h => h
  | _ :: ops, _, _, h, h' => ⟨h.1, noClash_append ops h.2 h'⟩

theorem noClash_writes : ∀ (ops : List (AttOp V)) {t : AttTable V},
    (∀ op ∈ ops, ∃ name ty value, op = .writeAtt name ty value ∧ ty.stored = true) → t.NoClash ops
  | [], _, _ => trivial
  | op :: ops, t, h => by
    obtain ⟨n, ty, v, rfl, -⟩ := h _ List.mem_cons_self
    exact ⟨trivial, noClash_writes ops fun o ho => h o (List.mem_cons_of_mem _ ho)⟩

theorem orderly_register (k : Nat) : Orderly false (List.replicate k (.register : AttOp V)) := by
  induction k with
  | zero => trivial
  | succ k ih => exact ⟨rfl, ih⟩

theorem orderly_writes : ∀ (ops : List (AttOp V)) (k : Nat),
    (∀ op ∈ ops, ∃ name ty value, op = .writeAtt name ty value ∧ ty.stored = true) →
    Orderly false (ops ++ List.replicate k .register)
  | [], k, _ => orderly_register k
  | op :: ops, k, h => by
    obtain ⟨n, ty, v, rfl, -⟩ := h _ List.mem_cons_self
    exact orderly_writes ops k fun o ho => h o (List.mem_cons_of_mem _ ho)

theorem dataOps_same {C D : Type} {R : C → D → Prop} {ops : List (BothOp C V)} {sops : List (BothOp D V)}
    (h : List.Forall₂ (SameBoth R) ops sops) : List.Forall₂ (SameOp R) (dataOps ops) (dataOps sops) := by
  induction h with
  | nil => exact .nil
  | cons h _ ih =>
    cases h with
    | data h => exact .cons h ih
    | writeAtt => exact ih
    | updateAtt => exact ih

theorem meets_all {os : List (Res Unit)} {bs : List Bool} (h : List.Forall₂ Meets os bs) : List.Forall₂ AsExpected os bs :=
  h.imp fun _ _ => meets_expected

/-- **C95** On a file with registered collections: every call succeeds or fails as expected, the data calls leave values in
memory and file that are exactly those of the same calls without any attribute calls, and the names and values of the
attributes are those of the table. -/
theorem C95_calls {W : Type} {R : Memory α → (String → W) → Prop} {known : List String} {ops : List (BothOp (Memory α) V)}
    {sops : List (BothOp (String → W) V)} (hops : List.Forall₂ (SameBoth R) ops sops) {t : BothTable W V} {w : BothWorld α V}
    (h : AttRel t.atts w.atts) (hr : t.atts.registered = true) (hty : ∀ op ∈ ops, BothTyped op) (hnc : t.NoClash known sops)
    (hd : List.Forall₂ AsExpected (w.data.run (dataOps ops)).1 (t.data.run known (dataOps sops)).1) :
    List.Forall₂ AsExpected (w.run ops).1 (t.run known sops).1 ∧ (w.run ops).2.data = (w.data.run (dataOps ops)).2 ∧
      (w.run ops).2.atts.names = (t.run known sops).2.atts.names ∧
      ∀ n, (t.run known sops).2.atts.Reads n ((w.run ops).2.atts.readAtt n) := by
  obtain ⟨h1, h2, -, h4⟩ := both_run hops ⟨h, hr⟩ hty hnc hd
  exact ⟨h1, h2, names_eq h4.rel, reads_rel h4.rel⟩

/-- The outcomes of the data calls. -/
def dataResults {C : Type} (ops : List (BothOp C V)) (os : List (Res Unit)) : List (Res Unit) :=
  (ops.zip os).filterMap fun x => match x.1 with | .data _ => some x.2 | _ => none

/-- The full statement: when a program opens a file to append to it and makes attribute calls and registrations without an
error, the data calls succeed and fail as they do without the attribute calls. -/
def C95_statement : Prop :=
  ∀ (pre : List (AttOp Int)) (colls : List (List IoColl)) (d : FullDisk Int Int) (mem : Memory Int)
    (ops : List (BothOp (Memory Int) Int)) (date time : List Int) (p : BothRun Int Int),
    (∀ op ∈ pre, AttCall op) → useBoth .append pre colls d mem ops date time = .ok p → (∀ o ∈ p.before, o = .ok ()) →
    dataResults ops p.results = (useFile .append colls d.disk mem (dataOps ops)).results

section
variable {dom : List Int} {rs : List FileRank} {mode : OpenMode}

theorem nbColls_ne (hne : rs ≠ []) (hc : ∀ r ∈ rs, r.colls ≠ []) : nbColls (rs.map FileRank.colls) ≠ 0 := by
  cases rs with
  | nil => exact absurd rfl hne
  | cons r rest =>
    intro h
    exact hc r List.mem_cons_self (List.length_eq_zero_iff.1 h)

/-- The table of a program that has created a file, made the attribute calls `pre` and registered its collections. -/
def newBoth (v : AutoVals V) (pre : List (AttOp V)) (cur : String → Values α) : BothTable (Values α) V :=
  ⟨⟨true, 0, cur, fun _ _ => none⟩, afterPre ⟨true, true, false, false, false, v.atts⟩ pre⟩

theorem createBoth_has (h : ProgramOk dom rs) (hn : Numbered rs) (hc : ∀ r ∈ rs, r.colls ≠ [])
    (hm : mode = .write ∨ mode = .overwrite) (v : AutoVals V) {pre : List (AttOp V)} (hpre : ∀ op ∈ pre, Typed op)
    (hpc : (AttTable.mk true true false false false v.atts).NoClash pre)
    (garbage : String → List Int → α) (garbageInt : String → List Int → Int) {mem : Memory α} {cur : String → Values α}
    (hmem : ProgramHolds rs mem cur) {ops : List (BothOp (Memory α) V)} {sops : List (BothOp (String → Values α) V)}
    (hops : List.Forall₂ (SameBoth (ProgramHolds rs)) ops sops) (hty : ∀ op ∈ ops, BothTyped op)
    (hnames : ∀ op ∈ dataOps ops, NoLocalNames rs op)
    (hgap : Table.NoGaps (storedNames rs) ⟨true, 0, cur, fun _ _ => none⟩ (dataOps sops))
    (hnc : (newBoth v pre cur).NoClash (storedNames rs) sops) (date time : List V) :
    let p := createBoth mode v pre (rs.map FileRank.colls) garbage garbageInt mem ops date time
    let t := (newBoth v pre cur).run (storedNames rs) sops
    (∀ os ∈ p.registered, ∀ o ∈ os, o = .ok ()) ∧
      List.Forall₂ AsExpected p.before (((AttTable.mk true true false false false v.atts).run pre).1 ++
        List.replicate (nbColls (rs.map FileRank.colls)) true) ∧
      List.Forall₂ AsExpected p.results t.1 ∧ ProgramHolds rs p.mem t.2.data.cur ∧ p.nbFrames = t.2.data.nb ∧
      p.atts.names = t.2.atts.names ∧ (∀ n, t.2.atts.Reads n (p.atts.readAtt n)) ∧
      Meets p.closed (t.2.atts.closed date time).1 ∧
      ((t.2.atts.closed date time).1 = true →
        p.full.atts = (t.2.atts.closed date time).2 ∧ AttsOk (t.2.atts.closed date time).2) ∧
      ∃ D, FileHas dom rs mode D p.full.disk t.2.data.cell := by
  obtain ⟨h1, h2, h3, h4, D, h5⟩ := create_has h hn hm garbage garbageInt hmem (dataOps_same hops) hnames hgap
  have hcr : creating mode = true := by rcases hm with rfl | rfl <;> rfl
  have hk := nbColls_ne h.nonempty hc
  obtain ⟨r1, r2, -⟩ := run_rel (seen := false)
    (pre ++ List.replicate (nbColls (rs.map FileRank.colls)) .register) (create_rel mode hcr v)
    (fun op hop => by
      rcases List.mem_append.1 hop with hop | hop
      · exact hpre _ hop
      · rw [(List.mem_replicate.1 hop).2]; trivial)
    (noClash_append _ hpc (noClash_register _ _)) fun h => by cases h
  rw [table_run_append, (table_run_register _ _).1] at r1
  rw [table_run_append] at r2
  dsimp only at r2
  rw [(table_run_register _ _).2 hk] at r2
  have r3 : BothRel (newBoth v pre cur).atts
      ((AttFile.create mode v).run (pre ++ List.replicate (nbColls (rs.map FileRank.colls)) .register)).2 := ⟨r2, rfl⟩
  obtain ⟨b1, b2, b3, b4⟩ := both_run hops (t := newBoth v pre cur)
    (w := ⟨_, ((AttFile.create mode v).run (pre ++ List.replicate (nbColls (rs.map FileRank.colls)) .register)).2⟩)
    r3 hty hnc h2
  obtain ⟨c1, c2⟩ := close_rel b4.rel date time
  intro p t
  have e3 : t.2.data = _ := b3
  have em : p.mem = (createFile mode (rs.map FileRank.colls) garbage garbageInt mem (dataOps ops)).mem :=
    congrArg World.mem b2
  have en : p.nbFrames = (createFile mode (rs.map FileRank.colls) garbage garbageInt mem (dataOps ops)).nbFrames :=
    congrArg (fun w => w.sess.nbFrames) b2
  have ed : p.full.disk = (createFile mode (rs.map FileRank.colls) garbage garbageInt mem (dataOps ops)).disk :=
    congrArg (fun w : World α => (⟨_, _, w.file⟩ : Disk α)) b2
  refine ⟨h1, meets_all r1, b1, ?_, ?_, names_eq b4.rel, reads_rel b4.rel, c1, c2, D, ?_⟩
  · rw [em, e3]; exact h3
  · rw [en, e3]; exact h4
  · rw [ed, e3]; exact h5

/-- **C95** A program creates a file, writes attributes, registers its collections, and then makes any calls for data and
attributes in any order: all registrations succeed, every call succeeds or fails as expected of a table of values and a list
of attributes that do not disturb each other, and closing leaves the attributes of the list in the file. -/
theorem C95_new (h : ProgramOk dom rs) (hn : Numbered rs) (hc : ∀ r ∈ rs, r.colls ≠ [])
    (hm : mode = .write ∨ mode = .overwrite) (v : AutoVals V) {pre : List (AttOp V)} (hpre : ∀ op ∈ pre, Typed op)
    (hpc : (AttTable.mk true true false false false v.atts).NoClash pre)
    (garbage : String → List Int → α) (garbageInt : String → List Int → Int) {mem : Memory α} {cur : String → Values α}
    (hmem : ProgramHolds rs mem cur) {ops : List (BothOp (Memory α) V)} {sops : List (BothOp (String → Values α) V)}
    (hops : List.Forall₂ (SameBoth (ProgramHolds rs)) ops sops) (hty : ∀ op ∈ ops, BothTyped op)
    (hnames : ∀ op ∈ dataOps ops, NoLocalNames rs op)
    (hgap : Table.NoGaps (storedNames rs) ⟨true, 0, cur, fun _ _ => none⟩ (dataOps sops))
    (hnc : (newBoth v pre cur).NoClash (storedNames rs) sops) (date time : List V) :
    let p := createBoth mode v pre (rs.map FileRank.colls) garbage garbageInt mem ops date time
    let t := (newBoth v pre cur).run (storedNames rs) sops
    (∀ os ∈ p.registered, ∀ o ∈ os, o = .ok ()) ∧
      List.Forall₂ AsExpected p.before (((AttTable.mk true true false false false v.atts).run pre).1 ++
        List.replicate (nbColls (rs.map FileRank.colls)) true) ∧
      List.Forall₂ AsExpected p.results t.1 ∧ ProgramHolds rs p.mem t.2.data.cur ∧ p.nbFrames = t.2.data.nb ∧
      p.atts.names = t.2.atts.names ∧ (∀ n, t.2.atts.Reads n (p.atts.readAtt n)) ∧
      Meets p.closed (t.2.atts.closed date time).1 ∧
      ((t.2.atts.closed date time).1 = true → p.full.atts = (t.2.atts.closed date time).2) := by
  obtain ⟨h1, h2, h3, h4, h5, h6, h7, h8, h9, -⟩ :=
    createBoth_has h hn hc hm v hpre hpc garbage garbageInt hmem hops hty hnames hgap hnc date time
  exact ⟨h1, h2, h3, h4, h5, h6, h7, h8, fun hh => (h9 hh).1⟩

theorem both_length {W : Type} (known : List String) : ∀ (sops : List (BothOp (String → W) V)) (t : BothTable W V),
    t.atts.isNew = false → (t.run known sops).2.atts.isNew = false ∧
      (t.run known sops).2.atts.entries.length = t.atts.entries.length
  | [], _, h => ⟨h, rfl⟩
  | op :: sops, t, h => by
    have key : (t.step known op).2.atts.isNew = false ∧ (t.step known op).2.atts.entries.length = t.atts.entries.length := by
      cases op with
      | data op =>
        simp only [BothTable.step]
        split <;> exact ⟨h, rfl⟩
      | writeAtt n ty v => exact ⟨(isNew_step _ _).trans h, table_length_step _ _ h⟩
      | updateAtt old new ty v => exact ⟨(isNew_step _ _).trans h, table_length_step _ _ h⟩
    obtain ⟨h1, h2⟩ := both_length known sops _ key.1
    exact ⟨h1, h2.trans key.2⟩

theorem closed_length {t : AttTable V} (h : t.isNew = false) (date time : List V) :
    (t.closed date time).2.length = t.entries.length := by
  rw [AttTable.closed]
  split
  · dsimp only
    rw [table_length_step _ _ (by rw [isNew_step]; exact h), table_length_step _ _ (by exact h)]
  · rfl

variable [Zero V] [DecidableEq V]

theorem useBoth_has (h : ProgramOk dom rs) (hm : mode = .write ∨ mode = .overwrite) {D : FileDesc} {d : FullDisk α V}
    {cell : Int → String → Option (Values α)} (hd : FileHas dom rs mode D d.disk cell) (hao : AttsOk d.atts)
    (hal : d.atts.length ≤ 30) {u : BothUse α V} (hu : u.Ok dom rs)
    (happ : u.mode = .append → ∀ r ∈ rs, ∀ e ∈ r.entries, ∀ l total, e.1 = some (l, total) →
        ∃ e' ∈ r.entries, e'.1 = some (l, total) ∧ HasCell cell e'.2.1)
    (hgap : (u.table cell d.disk.data.numrecs d.atts).data.NoGaps (storedNames rs) u.data.sops)
    (hnc : (u.table cell d.disk.data.numrecs d.atts).NoClash (storedNames rs) u.sops) :
    ∃ p, useBoth u.mode u.pre (u.ranks.map FileRank.colls) d u.mem u.ops u.date u.time = .ok p ∧
      let t := (u.table cell d.disk.data.numrecs d.atts).run (storedNames rs) u.sops
      (∀ os ∈ p.registered, ∀ o ∈ os, o = .ok ()) ∧
        List.Forall₂ AsExpected p.before (((u.attTable d.atts).run u.pre).1 ++
          List.replicate (nbColls (u.ranks.map FileRank.colls)) true) ∧
        List.Forall₂ AsExpected p.results t.1 ∧ ProgramHolds u.ranks p.mem t.2.data.cur ∧ p.nbFrames = t.2.data.nb ∧
        p.atts.names = t.2.atts.names ∧ (∀ n, t.2.atts.Reads n (p.atts.readAtt n)) ∧
        Meets p.closed (t.2.atts.closed u.date u.time).1 ∧
        ((t.2.atts.closed u.date u.time).1 = true →
          p.full.atts = (t.2.atts.closed u.date u.time).2 ∧ AttsOk (t.2.atts.closed u.date u.time).2 ∧
          (t.2.atts.closed u.date u.time).2.length ≤ 30) ∧
        FileHas dom rs mode D p.full.disk t.2.data.cell := by
  obtain ⟨h1, h2, h3, h4, h5⟩ := use_has h hm hd hu.data happ hgap
  obtain ⟨s, o1, o2, o3, o4⟩ := open_rel hu.data.mode hao hal
  have hk : nbColls (u.ranks.map FileRank.colls) ≠ 0 := nbColls_ne hu.data.ok.nonempty hu.colls
  have o4' : AttRel (u.attTable d.atts) s := o4
  obtain ⟨r1, r2, -⟩ := run_rel (seen := false)
    (u.pre ++ List.replicate (nbColls (u.ranks.map FileRank.colls)) .register) o4'
    (fun op hop => by
      rcases List.mem_append.1 hop with hop | hop
      · obtain ⟨n, ty, v, rfl, h⟩ := hu.pre _ hop
        exact h
      · rw [(List.mem_replicate.1 hop).2]; trivial)
    (noClash_append _ (noClash_writes _ hu.pre) (noClash_register _ _))
    fun _ => ⟨orderly_writes _ _ hu.pre, fun h => by rw [o3] at h; cases h⟩
  rw [table_run_append, (table_run_register _ _).1] at r1
  rw [table_run_append] at r2
  dsimp only at r2
  rw [(table_run_register _ _).2 hk] at r2
  have r3 : BothRel (u.table cell d.disk.data.numrecs d.atts).atts
      (s.run (u.pre ++ List.replicate (nbColls (u.ranks.map FileRank.colls)) .register)).2 := ⟨r2, rfl⟩
  obtain ⟨b1, b2, b3, b4⟩ := both_run hu.same (t := u.table cell d.disk.data.numrecs d.atts)
    (w := ⟨_, (s.run (u.pre ++ List.replicate (nbColls (u.ranks.map FileRank.colls)) .register)).2⟩)
    r3 hu.typed hnc h2
  obtain ⟨c1, c2⟩ := close_rel b4.rel u.date u.time
  have hnew : (u.table cell d.disk.data.numrecs d.atts).atts.isNew = false :=
    (table_length_run u.pre (u.attTable d.atts) rfl).1
  have hlen : (u.table cell d.disk.data.numrecs d.atts).atts.entries.length = d.atts.length :=
    (table_length_run u.pre (u.attTable d.atts) rfl).2
  obtain ⟨l1, l2⟩ := both_length (storedNames rs) u.sops _ hnew
  have o1' : AttFile.openFile u.mode d.atts = .ok s := o1
  refine ⟨_, by rw [useBoth, o1'], ?_⟩
  intro t
  have e3 : t.2.data = _ := b3
  refine ⟨h1, meets_all r1, b1, ?_, ?_, names_eq b4.rel, reads_rel b4.rel, c1, ?_, ?_⟩
  · rw [e3]
    exact Eq.subst (motive := fun m => ProgramHolds u.ranks m _) (congrArg World.mem b2).symm h3
  · rw [e3]
    exact (congrArg (fun w : World α => w.sess.nbFrames) b2).trans h4
  · intro hh
    exact ⟨(c2 hh).1, (c2 hh).2, by rw [closed_length l1, l2, hlen]; exact hal⟩
  · rw [e3]
    exact Eq.subst (motive := fun f => FileHas dom rs mode D ⟨_, _, f⟩ _) (congrArg World.file b2).symm h5

theorem both_uses_behave (h : ProgramOk dom rs) (hm : mode = .write ∨ mode = .overwrite) {D : FileDesc}
    (us : List (BothUse α V)) {d : FullDisk α V} {cell : Int → String → Option (Values α)}
    (hd : FileHas dom rs mode D d.disk cell) (hao : AttsOk d.atts) (hal : d.atts.length ≤ 30)
    (hus : BothUsesOk dom rs cell d.atts us) : BothBehave (storedNames rs) cell d.atts us (runBothUses d us) := by
  induction us generalizing d cell with
  | nil => rfl
  | cons u us ih =>
    obtain ⟨h1, h2, h3⟩ := hus
    obtain ⟨h4, h5, h6, h7⟩ := h3 _ hd.nbFrames
    obtain ⟨p, k1, k2, k3, k4, k5, k6, k7, k8, k9, k10, k11⟩ := useBoth_has h hm hd hao hal h1 h2 h4 h5
    obtain ⟨m1, m2, m3⟩ := k10 h6
    rw [runBothUses, k1]
    refine ⟨_, p, hd.nbFrames, rfl, k2, ⟨_, k3⟩, k4, k5, k6, k7, k8, ?_, m1, ?_⟩
    · rw [h6] at k9; exact k9
    · have := ih (d := p.full) k11 (by rw [m1]; exact m2) (by rw [m1]; exact m3) (by rw [m1]; exact h7)
      rw [m1] at this
      exact this

/-- **C95** A program creates a file with data and attributes; then any number of programs open it one after the other, for
reading or for appending, and make calls for data and attributes in any order.  Each finds the values and the attributes that
the programs before have left, and every call succeeds or fails as if the other kind of calls had not been made.  (Programs
that open an existing file do not update attributes before they have registered their collections, names in use are not
given to other attributes, and there are at most 30 attributes.) -/
theorem C95_programs_partial (h : ProgramOk dom rs) (hn : Numbered rs) (hc : ∀ r ∈ rs, r.colls ≠ [])
    (hm : mode = .write ∨ mode = .overwrite) (v : AutoVals V) {pre : List (AttOp V)} (hpre : ∀ op ∈ pre, Typed op)
    (hpc : (AttTable.mk true true false false false v.atts).NoClash pre)
    (garbage : String → List Int → α) (garbageInt : String → List Int → Int) {mem : Memory α} {cur : String → Values α}
    (hmem : ProgramHolds rs mem cur) {ops : List (BothOp (Memory α) V)} {sops : List (BothOp (String → Values α) V)}
    (hops : List.Forall₂ (SameBoth (ProgramHolds rs)) ops sops) (hty : ∀ op ∈ ops, BothTyped op)
    (hnames : ∀ op ∈ dataOps ops, NoLocalNames rs op)
    (hgap : Table.NoGaps (storedNames rs) ⟨true, 0, cur, fun _ _ => none⟩ (dataOps sops))
    (hnc : (newBoth v pre cur).NoClash (storedNames rs) sops) (date time : List V) {us : List (BothUse α V)} :
    let t := ((newBoth v pre cur).run (storedNames rs) sops).2
    (t.atts.closed date time).1 = true → (t.atts.closed date time).2.length ≤ 30 →
      BothUsesOk dom rs t.data.cell (t.atts.closed date time).2 us →
      BothBehave (storedNames rs) t.data.cell (t.atts.closed date time).2 us
        (runBothUses (createBoth mode v pre (rs.map FileRank.colls) garbage garbageInt mem ops date time).full us) := by
  intro t h30 hl hus
  obtain ⟨-, -, -, -, -, -, -, -, h9, D, h10⟩ :=
    createBoth_has h hn hc hm v hpre hpc garbage garbageInt hmem hops hty hnames hgap hnc date time
  obtain ⟨m1, m2⟩ := h9 h30
  have := both_uses_behave h hm us h10 (by rw [m1]; exact m2) (by rw [m1]; exact hl) (by rw [m1]; exact hus)
  rw [m1] at this
  exact this

end

end Verif.Props
