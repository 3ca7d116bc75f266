import Verif.Lemmas.FileSessionOpen
import Verif.Lemmas.FileTable
/-
C62, C63: open files.
-/
namespace Verif.Props
open Verif Verif.Ccoord Verif.Layout Verif.Layout.FieldLayout Verif.RawMemory Verif.FileIO Verif.NetCDF
open Verif.Collection Verif.Collection.Coll

variable {α : Type}

section
variable {D : FileDesc} {P P' : Program} {vars vars' : List SessVar} {hidden hidden' : String → Option (List Var)}

/-! ## C62 -/

theorem Contains.agrees {file : NcFile α} {cell : Int → String → Option (Values α)} (h : Contains D P vars file cell) :
    Agrees (relations D P) vars file cell := ⟨h.each, h.recs, h.last⟩

theorem created_find {x : SessVar} (hnd : (vars.map SessVar.name).Nodup) (hx : x ∈ vars) :
    vars.find? (fun y => y.name = x.name) = some x := by
  obtain ⟨y, hy, hn, hf⟩ := find_known (List.mem_map_of_mem (f := SessVar.name) hx)
  rw [hf, List.inj_on_of_nodup_map hnd hy hx hn]

theorem created_contains (hreg : Registered D P vars hidden) (g : String → List Int → α) (gi : String → List Int → Int) :
    Contains D P vars (NcFile.created vars hidden g gi) fun _ _ => none := by
  refine ⟨?_, by simp, Or.inl rfl, ?_⟩
  · intro x hx
    refine ⟨newVar (g x.name) x.parts, ?_, ?_, by simp⟩
    · simp only [NcFile.created, created_find hreg.nodup hx, Option.map_some]
    · unfold varForm; cases x.parts <;> rfl
  · intro x hx l hl
    refine ⟨newVar (gi l) ((P.hid l).map HiddenPart.v), ?_, ?_, ?_⟩
    · simp only [NcFile.created, hreg.hidden_eq x hx l hl, Option.map_some]
    · cases hp : P.hid l <;> simp [newVar, hiddenForm, hp, FileVar.form, Var.form]
    · rintro ⟨fr, v, hc⟩
      cases hc

/-- **C62** A new file: whatever is appended, written, read and computed, in any order, every operation
succeeds or fails as expected of a table, and afterwards the file contains the table.  (Nothing is read that
has not been written.) -/
theorem C62_new (hreg : Registered D P vars hidden) {mode : OpenMode} (hmode : mode = .write ∨ mode = .overwrite)
    {marks : String → List (List Int)}
    (hmarks : ∀ x ∈ vars, ∀ l, x.localName = some l →
      marks l = (P.hid l).map fun p : HiddenPart => p.entries (D.entry l))
    (g : String → List Int → α) (gi : String → List Int → Int) {mem : Memory α} {cur : String → Values α}
    (hmem : ∀ x ∈ vars, VarHolds P x (mem x.name) (cur x.name))
    {ops : List (FileOp (Memory α))} {sops : List (FileOp (String → Values α))}
    (hops : List.Forall₂ (SameOp fun mem c => ∀ x ∈ vars, VarHolds P x (mem x.name) (c x.name)) ops sops)
    (hhid : ∀ op ∈ ops, NoHidden vars hidden op)
    (hgap : Table.NoGaps (vars.map SessVar.name) ⟨true, 0, cur, fun _ _ => none⟩ sops) :
    let w := World.run ⟨Sess.created mode vars hidden marks, NcFile.created vars hidden g gi, mem⟩ ops
    let t := Table.run (vars.map SessVar.name) ⟨true, 0, cur, fun _ _ => none⟩ sops
    List.Forall₂ AsExpected w.1 t.1 ∧ Contains D P vars w.2.file t.2.cell ∧ w.2.sess.nbFrames = t.2.nb ∧
      ∀ x ∈ vars, VarHolds P x (w.2.mem x.name) (t.2.cur x.name) := by
  intro w t
  have hc := created_contains hreg g gi
  obtain ⟨h1, h2, h3⟩ := run_agrees (R := relations D P) hreg.nodup hreg.writes hreg.reads (hreg.writeLaw hmode) hops hhid
    (fun h => by rcases hmode with rfl | rfl <;> cases h)
    (w := ⟨Sess.created mode vars hidden marks, NcFile.created vars hidden g gi, mem⟩) hgap
    ⟨rfl, rfl, rfl, by rcases hmode with rfl | rfl <;> simp, rfl, le_refl _, le_refl _, by
      intro x hx l hl
      obtain ⟨fv, e1, e2, -⟩ := hc.entries x hx l hl
      refine ⟨hmarks x hx l hl, fv, e1, e2, by simp [Sess.created], ?_⟩
      rintro ⟨fr, v, hcv⟩
      exact absurd hcv (by simp), hc.agrees⟩ hmem
  refine ⟨h1, ⟨h2.agrees.each, h2.agrees.recs, h2.agrees.last, ?_⟩, h2.frames, h3⟩
  intro x hx l hl
  obtain ⟨-, fv, e1, e2, e3, e4⟩ := h2.entries x hx l hl
  exact ⟨fv, e1, e2, fun hh => e3 (e4 hh)⟩

/-- A file opened with `Append`, when the file has the entries of the local collections. -/
theorem append_entries (hreg : Registered D P vars hidden) {marks : String → List (List Int)} {file : NcFile α}
    {cell : Int → String → Option (Values α)} (hc : Contains D P vars file cell)
    (hmarks : ∀ x ∈ vars, ∀ l, x.localName = some l → (marks l).map List.length = (P.hid l).map HiddenPart.size)
    (hall : ∀ x ∈ vars, ∀ l, x.localName = some l → ∃ fv, file.hidden l = some fv ∧ EntriesStored D.dom (D.entry l) fv)
    {mem : Memory α} {cur : String → Values α}
    (hmem : ∀ x ∈ vars, VarHolds P x (mem x.name) (cur x.name))
    {ops : List (FileOp (Memory α))} {sops : List (FileOp (String → Values α))}
    (hops : List.Forall₂ (SameOp fun mem c => ∀ x ∈ vars, VarHolds P x (mem x.name) (c x.name)) ops sops)
    (hhid : ∀ op ∈ ops, NoHidden vars hidden op)
    (hgap : Table.NoGaps (vars.map SessVar.name) ⟨true, file.numrecs, cur, cell⟩ sops) :
    let w := World.run ⟨Sess.opened .append vars hidden marks file, file, mem⟩ ops
    let t := Table.run (vars.map SessVar.name) ⟨true, file.numrecs, cur, cell⟩ sops
    List.Forall₂ AsExpected w.1 t.1 ∧ Contains D P vars w.2.file t.2.cell ∧ w.2.sess.nbFrames = t.2.nb ∧
      ∀ x ∈ vars, VarHolds P x (w.2.mem x.name) (t.2.cur x.name) := by
  intro w t
  have hnn : 0 ≤ file.numrecs := by
    rcases hc.last with h | ⟨n, val, h⟩
    · omega
    · have := hc.recs _ _ _ h; omega
  obtain ⟨h1, h2, h3⟩ := run_agrees (R := relations D P) hreg.nodup hreg.writes hreg.reads
    (hreg.openLaw (mode := .append) (all := true) (by simp)) hops hhid (fun h => by cases h)
    (w := ⟨Sess.opened .append vars hidden marks file, file, mem⟩) hgap
    ⟨rfl, rfl, rfl, by simp, rfl, hnn, le_refl _, by
      intro x hx l hl
      obtain ⟨fv, e1, e2, -⟩ := hc.entries x hx l hl
      refine ⟨hmarks x hx l hl, by simp [Sess.opened], fv, e1, e2, fun _ => ?_⟩
      obtain ⟨fv', e1', e3'⟩ := hall x hx l hl
      rw [e1] at e1'
      cases e1'
      exact e3', hc.agrees⟩ hmem
  refine ⟨h1, ⟨h2.agrees.each, h2.agrees.recs, h2.agrees.last, ?_⟩, h2.frames, h3⟩
  intro x hx l hl
  obtain ⟨-, -, fv, e1, e2, e3⟩ := h2.entries x hx l hl
  exact ⟨fv, e1, e2, fun hh => e3 (Or.inr hh)⟩

/-- **C62** A file opened again with `Append` by any program that registers the same variables: as for a new
file, starting from what the file contains; the number of frames is the number of records.  Every local
collection must have been written before (see `C63_append_entries`). -/
theorem C62_append (hreg : Registered D P vars hidden) {marks : String → List (List Int)} {file : NcFile α}
    {cell : Int → String → Option (Values α)} (hc : Contains D P vars file cell)
    (hmarks : ∀ x ∈ vars, ∀ l, x.localName = some l → (marks l).map List.length = (P.hid l).map HiddenPart.size)
    (hall : ∀ x ∈ vars, ∀ l, x.localName = some l → ∃ y ∈ vars, y.localName = some l ∧ HasCell cell y.name)
    {mem : Memory α} {cur : String → Values α}
    (hmem : ∀ x ∈ vars, VarHolds P x (mem x.name) (cur x.name))
    {ops : List (FileOp (Memory α))} {sops : List (FileOp (String → Values α))}
    (hops : List.Forall₂ (SameOp fun mem c => ∀ x ∈ vars, VarHolds P x (mem x.name) (c x.name)) ops sops)
    (hhid : ∀ op ∈ ops, NoHidden vars hidden op)
    (hgap : Table.NoGaps (vars.map SessVar.name) ⟨true, file.numrecs, cur, cell⟩ sops) :
    let w := World.run ⟨Sess.opened .append vars hidden marks file, file, mem⟩ ops
    let t := Table.run (vars.map SessVar.name) ⟨true, file.numrecs, cur, cell⟩ sops
    List.Forall₂ AsExpected w.1 t.1 ∧ Contains D P vars w.2.file t.2.cell ∧ w.2.sess.nbFrames = t.2.nb ∧
      ∀ x ∈ vars, VarHolds P x (w.2.mem x.name) (t.2.cur x.name) :=
  append_entries hreg hc hmarks (fun x hx l hl => by
    obtain ⟨y, hy, hyl, hcell⟩ := hall x hx l hl
    obtain ⟨fv, e1, -, e3⟩ := hc.entries y hy l hyl
    exact ⟨fv, e1, e3 hcell⟩) hmem hops hhid hgap

/-- **C62** A file opened with `Read` by any program that registers the same variables: what is read is what
the table has, writing fails (as long as the first field that is to be written is not a local one, see `C66_silent`), and the
file stays as it is. -/
theorem C62_read (hreg : Registered D P vars hidden) {marks : String → List (List Int)} {file : NcFile α}
    {cell : Int → String → Option (Values α)} (hc : Contains D P vars file cell)
    (hmarks : ∀ x ∈ vars, ∀ l, x.localName = some l → (marks l).map List.length = (P.hid l).map HiddenPart.size)
    {mem : Memory α} {cur : String → Values α}
    (hmem : ∀ x ∈ vars, VarHolds P x (mem x.name) (cur x.name))
    {ops : List (FileOp (Memory α))} {sops : List (FileOp (String → Values α))}
    (hops : List.Forall₂ (SameOp fun mem c => ∀ x ∈ vars, VarHolds P x (mem x.name) (c x.name)) ops sops)
    (hhid : ∀ op ∈ ops, NoHidden vars hidden op)
    (hro : ∀ op ∈ ops, Refused vars op)
    (hgap : Table.NoGaps (vars.map SessVar.name) ⟨false, file.numrecs, cur, cell⟩ sops) :
    let w := World.run ⟨Sess.opened .read vars hidden marks file, file, mem⟩ ops
    let t := Table.run (vars.map SessVar.name) ⟨false, file.numrecs, cur, cell⟩ sops
    List.Forall₂ AsExpected w.1 t.1 ∧ Contains D P vars w.2.file t.2.cell ∧ w.2.sess.nbFrames = t.2.nb ∧
      ∀ x ∈ vars, VarHolds P x (w.2.mem x.name) (t.2.cur x.name) := by
  intro w t
  have hnn : 0 ≤ file.numrecs := by
    rcases hc.last with h | ⟨n, val, h⟩
    · omega
    · have := hc.recs _ _ _ h; omega
  obtain ⟨h1, h2, h3⟩ := run_agrees (R := relations D P) hreg.nodup hreg.writes hreg.reads
    (hreg.openLaw (mode := .read) (all := false) (by simp)) hops hhid (fun _ => hro)
    (w := ⟨Sess.opened .read vars hidden marks file, file, mem⟩) hgap
    ⟨rfl, rfl, rfl, by simp, rfl, hnn, le_refl _, by
      intro x hx l hl
      obtain ⟨fv, e1, e2, e3⟩ := hc.entries x hx l hl
      exact ⟨hmarks x hx l hl, by simp [Sess.opened], fv, e1, e2, fun hh => e3 (by simpa using hh)⟩, hc.agrees⟩ hmem
  refine ⟨h1, ⟨h2.agrees.each, h2.agrees.recs, h2.agrees.last, ?_⟩, h2.frames, h3⟩
  intro x hx l hl
  obtain ⟨-, -, fv, e1, e2, e3⟩ := h2.entries x hx l hl
  exact ⟨fv, e1, e2, fun hh => e3 (Or.inr hh)⟩

/-- What a file contains, for a program with some of the variables. -/
theorem Contains.part (hreg : Registered D P vars hidden) (hreg' : Registered D P' vars' hidden')
    (hfind : ∀ x' ∈ vars', ∃ x ∈ vars, signature x = signature x') {file : NcFile α}
    {cell : Int → String → Option (Values α)} (hc : Contains D P vars file cell) : Contains D P' vars' file cell := by
  have hfind : ∀ x' ∈ vars', ∃ x ∈ vars, x.name = x'.name ∧ x.hist = x'.hist ∧ x.localName = x'.localName := by
    intro x' hx'
    obtain ⟨x, hx, he⟩ := hfind x' hx'
    simp only [signature, Prod.mk.injEq] at he
    exact ⟨x, hx, he.1, he.2.1, he.2.2⟩
  refine ⟨?_, hc.recs, hc.last, ?_⟩
  · intro x' hx'
    obtain ⟨x, hx, e1, e2, e3⟩ := hfind x' hx'
    obtain ⟨fv, h1, h2, h3⟩ := hc.each x hx
    refine ⟨fv, e1 ▸ h1, h2.trans ?_, ?_⟩
    · cases hl : x.localName with
      | none =>
        have h' := hreg'.global x' hx' (e3 ▸ hl)
        rw [← e1] at h'
        exact (hreg.global x hx hl).shape_unique h' e2
      | some l =>
        have h' := hreg'.isLocal x' hx' l (e3 ▸ hl)
        rw [← e1] at h'
        exact (hreg.isLocal x hx l hl).shape_unique h' e2
    · intro fr val hcell
      have := h3 fr val (by rw [e1]; exact hcell)
      unfold VarStored at this ⊢
      rw [← e1, ← e2, ← e3]
      exact this
  · intro x' hx' l hl
    obtain ⟨x, hx, e1, e2, e3⟩ := hfind x' hx'
    obtain ⟨fv, h1, h2, h3⟩ := hc.entries x hx l (e3.trans hl)
    refine ⟨fv, h1, h2.trans ?_, by rw [← e1]; exact h3⟩
    exact (hreg.hid x hx l (e3.trans hl)).shape_unique (hreg'.hid x' hx' l hl)

/-- What a file contains does not depend on the program: number of processes, decomposition of the domain and
storage orders of the fields may differ between the program that writes and the one that opens the file. -/
theorem C62_any_program (hreg : Registered D P vars hidden) (hreg' : Registered D P' vars' hidden')
    (hsig : vars.map signature = vars'.map signature) {file : NcFile α} {cell : Int → String → Option (Values α)}
    (hc : Contains D P vars file cell) : Contains D P' vars' file cell := by
  refine hc.part hreg hreg' fun x' hx' => ?_
  have : signature x' ∈ vars.map signature := by rw [hsig]; exact List.mem_map_of_mem hx'
  exact List.mem_map.1 this

theorem asExpected_one {l : List (Res Unit)} (h : List.Forall₂ AsExpected l [true]) : l = [.ok ()] := by
  match l, h with
  | [.ok u], _ => rfl
  | [.throw e], .cons ha _ => exact absurd ha.2 (by simp)
  | [.ub], .cons ha _ => exact ha.elim

/-- **C62** What one program writes into a new file, another program with any number of processes, any
decomposition and any storage orders reads: after any operations, a frame in which all variables have been
written has the values that were last written there. -/
theorem C62_round_trip (hreg : Registered D P vars hidden) {mode : OpenMode} (hmode : mode = .write ∨ mode = .overwrite)
    {marks : String → List (List Int)}
    (hmarks : ∀ x ∈ vars, ∀ l, x.localName = some l →
      marks l = (P.hid l).map fun p : HiddenPart => p.entries (D.entry l))
    (g : String → List Int → α) (gi : String → List Int → Int) {mem : Memory α} {cur : String → Values α}
    (hmem : ∀ x ∈ vars, VarHolds P x (mem x.name) (cur x.name))
    {ops : List (FileOp (Memory α))} {sops : List (FileOp (String → Values α))}
    (hops : List.Forall₂ (SameOp fun mem c => ∀ x ∈ vars, VarHolds P x (mem x.name) (c x.name)) ops sops)
    (hhid : ∀ op ∈ ops, NoHidden vars hidden op)
    (hgap : Table.NoGaps (vars.map SessVar.name) ⟨true, 0, cur, fun _ _ => none⟩ sops)
    (hreg' : Registered D P' vars' hidden') (hsig : vars.map signature = vars'.map signature) (hne : vars ≠ [])
    {marks' : String → List (List Int)}
    (hmarks' : ∀ x ∈ vars', ∀ l, x.localName = some l → (marks' l).map List.length = (P'.hid l).map HiddenPart.size)
    {mem' : Memory α} {cur' : String → Values α} (hmem' : ∀ x ∈ vars', VarHolds P' x (mem' x.name) (cur' x.name))
    {fr : Int} {val : String → Values α}
    (hval : ∀ x ∈ vars, (Table.run (vars.map SessVar.name) ⟨true, 0, cur, fun _ _ => none⟩ sops).2.cell fr x.name =
      some (val x.name)) :
    let w := World.run ⟨Sess.created mode vars hidden marks, NcFile.created vars hidden g gi, mem⟩ ops
    let r := World.run ⟨Sess.opened .read vars' hidden' marks' w.2.file, w.2.file, mem'⟩ [.readAll fr]
    r.1 = [.ok ()] ∧ ∀ x ∈ vars', VarHolds P' x (r.2.mem x.name) (val x.name) := by
  intro w
  obtain ⟨-, hc, -, -⟩ := C62_new hreg hmode hmarks g gi hmem hops hhid hgap
  have hc' := C62_any_program hreg hreg' hsig hc
  have hnames : vars.map SessVar.name = vars'.map SessVar.name := by
    have := congrArg (List.map Prod.fst) hsig
    simpa [List.map_map, Function.comp_def, signature] using this
  generalize hcell : (Table.run (vars.map SessVar.name) ⟨true, 0, cur, fun _ _ => none⟩ sops).2.cell = cell at *
  obtain ⟨x0, hx0⟩ := List.exists_mem_of_ne_nil _ hne
  obtain ⟨hb0, hb1⟩ := hc'.recs _ _ _ (hval x0 hx0)
  have hmf : meantFrame w.2.file.numrecs fr = some fr := by rw [meantFrame, if_pos ⟨hb0, hb1⟩]
  have hval' : ∀ n ∈ vars'.map SessVar.name, cell fr n = some (val n) := by
    intro n hn
    rw [← hnames] at hn
    obtain ⟨x, hx, rfl⟩ := List.mem_map.1 hn
    exact hval x hx
  obtain ⟨cur2, q1, q2, -⟩ := Table.read_filled (V := Values α) (frame := fr) (vars'.map SessVar.name)
    ⟨false, w.2.file.numrecs, cur', cell⟩ (fun _ h => h) hmf hval'
  obtain ⟨h1, h2, h3, h4⟩ := C62_read hreg' hc' hmarks' hmem' (ops := [.readAll fr]) (sops := [.readAll fr])
    (by constructor; exact .readAll fr; constructor) (by simp [NoHidden]) (by simp [Refused, FirstNot]) (by
      refine ⟨?_, trivial⟩
      intro n hn _
      change match meantFrame w.2.file.numrecs fr with
        | some fr => cell fr n ≠ none
        | none => HasCell cell n
      rw [hmf]
      exact by simp [hval' n hn])
  change List.Forall₂ AsExpected _ [(Table.read _ fr _ _).1] at h1
  change ∀ x ∈ vars', VarHolds P' x _ ((Table.read _ fr _ _).2.cur x.name) at h4
  rw [q1] at h1 h4
  exact ⟨asExpected_one h1, fun x hx => by rw [← q2 _ (List.mem_map_of_mem hx)]; exact h4 x hx⟩

/-- **C62** The number of frames of a file that is opened again, after any operations on a new file: that of
the frames that were appended if the last one was written, and fewer otherwise. -/
theorem C62_frames {file : NcFile α} {cur : String → Values α} {sops : List (FileOp (String → Values α))}
    {t : Table (Values α)} (ht : t = (Table.run (vars.map SessVar.name) ⟨true, 0, cur, fun _ _ => none⟩ sops).2)
    (hc : Contains D P vars file t.cell) (mode : OpenMode) (marks : String → List (List Int)) :
    (Sess.opened mode vars hidden marks file).nbFrames ≤ t.nb ∧
      ((Sess.opened mode vars hidden marks file).nbFrames = t.nb ↔
        t.nb = 0 ∨ ∃ n v, t.cell (t.nb - 1) n = some v) := by
  obtain ⟨hnn, hle⟩ : t.Below := ht ▸ Table.run_below sops _ ⟨le_refl _, by simp⟩
  have h : (Sess.opened mode vars hidden marks file).nbFrames = file.numrecs := rfl
  rw [h]
  have h1 : file.numrecs ≤ t.nb := by
    rcases hc.last with h0 | ⟨n, v, hv⟩
    · omega
    · have := hle _ _ _ hv; omega
  refine ⟨h1, fun he => ?_, ?_⟩
  · rcases hc.last with h0 | ⟨n, v, hv⟩
    · exact Or.inl (he ▸ h0)
    · exact Or.inr ⟨n, v, he ▸ hv⟩
  · rintro (h0 | ⟨n, v, hv⟩)
    · have : 0 ≤ file.numrecs := by
        rcases hc.last with h | ⟨n, val, h⟩
        · omega
        · have := hc.recs _ _ _ h; omega
      omega
    · have := hc.recs _ _ _ hv; omega

end

end Verif.Props
