import Verif.Spec.FileProgram
import Verif.Props.FileIO
/-
Helper lemmas on open files: a sequence of operations keeps the file in agreement with the table, if this
holds for writing each single variable.
-/
namespace Verif.Props
open Verif Verif.Ccoord Verif.Layout Verif.Layout.FieldLayout Verif.RawMemory Verif.FileIO Verif.NetCDF
open Verif.Collection Verif.Collection.Coll

variable {α : Type}

theorem meantFrame_eq {nb : Int} (hnb : 0 ≤ nb) (frame : Int) :
    varFrame nb frame = match meantFrame nb frame with | some fr => .ok fr | none => .throw .fileIOError := by
  unfold meantFrame varFrame handleFrame
  by_cases h : frame < 0
  · by_cases h' : nb + frame < 0
    · simp [h, show ¬ (0 ≤ frame ∧ frame < nb) by omega, show ¬ (0 ≤ nb + frame) by omega]
      rw [if_neg (by omega), Res.ok_bind, if_pos (by omega)]
    · simp [h, show ¬ (0 ≤ frame ∧ frame < nb) by omega, show (0 ≤ nb + frame) by omega]
      rw [if_neg (by omega), Res.ok_bind, if_neg (by omega)]
  · by_cases h' : frame < nb
    · simp [h, h', show 0 ≤ frame by omega]
      rw [if_neg (by omega), Res.ok_bind, if_neg (by omega)]
    · simp [h, h']
      rw [if_pos (by omega), Res.throw_bind]

theorem meantFrame_some {nb frame fr : Int} (hnb : 0 ≤ nb) (h : meantFrame nb frame = some fr) :
    varFrame nb frame = .ok fr ∧ 0 ≤ fr ∧ fr < nb := by
  refine ⟨by rw [meantFrame_eq hnb, h], ?_⟩
  unfold meantFrame at h
  split at h
  · cases h; omega
  · split at h
    · cases h; omega
    · cases h

theorem meantFrame_none {nb frame : Int} (hnb : 0 ≤ nb) (h : meantFrame nb frame = none) :
    varFrame nb frame = .throw .fileIOError := by
  rw [meantFrame_eq hnb, h]

theorem setAt_self {β : Type} (f : String → β) (n : String) (x : β) : setAt f n x n = x := if_pos rfl

theorem setAt_other {β : Type} (f : String → β) {n m : String} (h : m ≠ n) (x : β) : setAt f n x m = f m :=
  if_neg h

/-- What writing a variable does, in terms of a relation between memory and values and a relation between
values and the file at a frame. -/
structure Writes (x : SessVar) (marks : List (List Int)) (form : Form)
    (Hold : List (ProcMem α) → Values α → Prop) (Stored : Int → Values α → (List Int → α) → Prop) : Prop where
  put : ∀ {nb frame fr : Int} {ms : List (ProcMem α)} {val : Values α} {fv : FileVar α}, Hold ms val →
    varFrame nb frame = .ok fr → fv.form = form →
    ∃ fv', x.put nb frame (procData x.parts marks ms) fv = .ok fv' ∧ fv'.form = form ∧
      Stored fr val fv'.data ∧ ∀ y, y.head? ≠ some fr → fv'.data y = fv.data y
  keep : ∀ {fr : Int} {val : Values α} {d d' : List Int → α},
    (∀ y, y.head? = some fr → d' y = d y) → Stored fr val d → Stored fr val d'

/-- What reading a variable does. -/
structure Reads (x : SessVar) (marks : List (List Int)) (form : Form)
    (Alloc : List (ProcMem α) → Prop)
    (Hold : List (ProcMem α) → Values α → Prop) (Stored : Int → Values α → (List Int → α) → Prop) : Prop where
  get : ∀ {nb frame fr numrecs : Int} {ms : List (ProcMem α)} {val : Values α} {fv : FileVar α}, Alloc ms →
    varFrame nb frame = .ok fr → fr < numrecs → fv.form = form → Stored fr val fv.data →
    ∃ ms', x.get nb frame numrecs (procData x.parts marks ms) fv = .ok ms' ∧ Hold ms' val
  alloc : ∀ {ms : List (ProcMem α)} {val : Values α}, Hold ms val → Alloc ms
  bad : ∀ {nb frame numrecs : Int} {ms : List (ProcMem α)} {fv : FileVar α}, Alloc ms →
    varFrame nb frame = .throw .fileIOError →
    x.get nb frame numrecs (procData x.parts marks ms) fv = .throw .fileIOError

/-- The variables of a session with their relations. -/
structure Vars (α : Type) where
  Hold : SessVar → List (ProcMem α) → Values α → Prop
  Stored : SessVar → Int → Values α → (List Int → α) → Prop
  form : SessVar → Form

/-- The file agrees with the table. -/
structure Agrees (R : Vars α) (vars : List SessVar) (file : NcFile α) (cell : Int → String → Option (Values α)) :
    Prop where
  each : ∀ x ∈ vars, ∃ fv, file.vars x.name = some fv ∧ fv.form = R.form x ∧
    ∀ fr val, cell fr x.name = some val → R.Stored x fr val fv.data
  recs : ∀ fr n val, cell fr n = some val → 0 ≤ fr ∧ fr < file.numrecs
  last : file.numrecs = 0 ∨ ∃ n val, cell (file.numrecs - 1) n = some val

theorem Agrees.put {R : Vars α} {vars : List SessVar} {file : NcFile α} {t : Table (Values α)}
    (h : Agrees R vars file t.cell) (hnd : (vars.map SessVar.name).Nodup) {x : SessVar} (hx : x ∈ vars)
    {s : Sess} (hmode : s.mode ≠ .read) (hnb : s.nbFrames = t.nb) (hpos : 0 ≤ t.nb)
    (hw : Writes x (s.marksOf x) (R.form x) (R.Hold x) (R.Stored x)) {mem : Memory α}
    (hm : R.Hold x (mem x.name) (t.cur x.name)) {frame fr : Int} (hfr : meantFrame t.nb frame = some fr) :
    ∃ file', s.putVar mem x frame file = .ok file' ∧ file'.hidden = file.hidden ∧
      Agrees R vars file' (t.put fr x.name).cell ∧ file'.numrecs = max file.numrecs (fr + 1) := by
  obtain ⟨fv, h1, h2, h3⟩ := h.each x hx
  obtain ⟨e1, e2, e3⟩ := meantFrame_some hpos hfr
  rw [← hnb] at e1
  obtain ⟨fv', p1, p2, p3, p4⟩ := hw.put hm e1 h2
  refine ⟨{ file with vars := setAt file.vars x.name (some fv'), numrecs := max file.numrecs (fr + 1) }, ?_, rfl, ?_, rfl⟩
  · simp only [Sess.putVar, h1, if_neg hmode, e1, Res.ok_bind, p1]
    rfl
  · refine ⟨?_, ?_, ?_⟩
    · intro x' hx'
      by_cases hn : x'.name = x.name
      · obtain rfl : x' = x := List.inj_on_of_nodup_map hnd hx' hx hn
        refine ⟨fv', setAt_self .., p2, ?_⟩
        intro fr' val hc
        simp only [Table.put] at hc
        by_cases hf : fr' = fr
        · subst hf
          simp only [and_self, if_true, Option.some.injEq] at hc
          rw [← hc]
          exact p3
        · rw [if_neg (fun hh => hf hh.1)] at hc
          refine hw.keep ?_ (h3 fr' val hc)
          intro y hy
          exact p4 y (by rw [hy]; simpa using hf)
      · obtain ⟨fv0, k1, k2, k3⟩ := h.each x' hx'
        refine ⟨fv0, (setAt_other _ hn _).trans k1, k2, ?_⟩
        intro fr' val hc
        simp only [Table.put] at hc
        rw [if_neg (fun hh => hn hh.2)] at hc
        exact k3 fr' val hc
    · intro fr' n val hc
      simp only [Table.put] at hc
      dsimp only
      by_cases hf : fr' = fr ∧ n = x.name
      · omega
      · rw [if_neg hf] at hc
        have := h.recs fr' n val hc
        omega
    · dsimp only
      right
      by_cases hlt : file.numrecs ≤ fr + 1
      · refine ⟨x.name, t.cur x.name, ?_⟩
        rw [max_eq_right hlt]
        simp [Table.put]
      · rw [max_eq_left (by omega)]
        rcases h.last with h0 | ⟨n, val, hc⟩
        · omega
        · by_cases hf : file.numrecs - 1 = fr ∧ n = x.name
          · exact ⟨n, t.cur x.name, by simp [Table.put, hf]⟩
          · exact ⟨n, val, by simp only [Table.put]; rw [if_neg hf, hc]⟩

/-- What the treatment of the entries of local pixels has to do: `I` is an invariant of it, for the
variables that have been written; `mk` are the entries used for writing and reading. -/
structure EntryLaw (vars : List SessVar) (hidden : String → Option (List Var)) (mode : OpenMode)
    (mk : SessVar → List (List Int)) (I : Sess → NcFile α → (String → Prop) → Prop) : Prop where
  step : mode ≠ .read → ∀ {s : Sess} {file : NcFile α} {has : String → Prop} {x : SessVar} (frame : Int), x ∈ vars →
    s.vars = vars → s.hidden = hidden → s.mode = mode → 0 ≤ s.nbFrames → I s file has →
    (∃ s' file', s.entriesForWrite x frame file = .ok (s', file') ∧ I s' file' (fun n => n = x.name ∨ has n) ∧
      s'.vars = vars ∧ s'.hidden = hidden ∧ s'.mode = mode ∧ s'.nbFrames = s.nbFrames ∧ file'.vars = file.vars ∧
      file'.numrecs = file.numrecs ∧ s'.marksOf x = mk x) ∨
    (meantFrame s.nbFrames frame = none ∧ s.entriesForWrite x frame file = .throw .fileIOError)
  look : ∀ {s : Sess} {file : NcFile α} {has : String → Prop} {x : SessVar}, x ∈ vars →
    s.vars = vars → s.hidden = hidden → s.mode = mode → 0 ≤ s.nbFrames → I s file has →
    (has x.name → 0 < s.nbFrames → ∃ s', s.entriesForRead x file = .ok s' ∧ I s' file has ∧
      s'.vars = vars ∧ s'.hidden = hidden ∧ s'.mode = mode ∧ s'.nbFrames = s.nbFrames ∧ s'.marksOf x = mk x)
  keep : ∀ {s : Sess} {file file' : NcFile α} {has : String → Prop}, I s file has → file'.hidden = file.hidden →
    I s file' has
  anti : ∀ {s : Sess} {file : NcFile α} {has has' : String → Prop}, I s file has → (∀ n, has' n → has n) →
    I s file has'
  append : ∀ {s : Sess} {file : NcFile α} {has : String → Prop}, I s file has →
    I { s with nbFrames := s.nbFrames + 1 } file has

/-- The state of a session agrees with the table. -/
structure SessInv (R : Vars α) (vars : List SessVar) (hidden : String → Option (List Var)) (mode : OpenMode)
    (I : Sess → NcFile α → (String → Prop) → Prop) (s : Sess) (file : NcFile α) (t : Table (Values α)) : Prop where
  vars_eq : s.vars = vars
  hidden_eq : s.hidden = hidden
  mode_eq : s.mode = mode
  writable : t.writable = true ↔ mode ≠ .read
  frames : s.nbFrames = t.nb
  nonneg : 0 ≤ t.nb
  enough : file.numrecs ≤ t.nb
  entries : I s file (HasCell t.cell)
  agrees : Agrees R vars file t.cell

theorem find_known {vars : List SessVar} {n : String} (h : n ∈ vars.map SessVar.name) :
    ∃ x ∈ vars, x.name = n ∧ vars.find? (fun x => x.name = n) = some x := by
  obtain ⟨x, hx, rfl⟩ := List.mem_map.1 h
  cases hf : vars.find? (fun y => y.name = x.name) with
  | none => exact absurd (List.find?_eq_none.1 hf x hx) (by simp)
  | some y => exact ⟨y, List.mem_of_find?_eq_some hf, by simpa using List.find?_some hf, rfl⟩

theorem find_unknown {vars : List SessVar} {n : String} (h : n ∉ vars.map SessVar.name) :
    vars.find? (fun x => x.name = n) = none := by
  rw [List.find?_eq_none]
  intro x hx
  simp only [decide_eq_true_eq]
  rintro rfl
  exact h (List.mem_map_of_mem hx)

theorem putVar_throw {s : Sess} {mem : Memory α} {x : SessVar} {frame : Int} {file : NcFile α}
    (h : varFrame s.nbFrames frame = .throw .fileIOError) : s.putVar mem x frame file = .throw .fileIOError := by
  unfold Sess.putVar
  split
  · rfl
  · split
    · split
      · rw [h, Res.throw_bind]
      · rfl
    · rw [h, Res.throw_bind]

theorem hasCell_put {V : Type} {t : Table V} {fr : Int} {x n : String} (h : HasCell (t.put fr x).cell n) :
    n = x ∨ HasCell t.cell n := by
  obtain ⟨fr', v, hc⟩ := h
  simp only [Table.put] at hc
  by_cases hf : fr' = fr ∧ n = x
  · exact Or.inl hf.2
  · rw [if_neg hf] at hc
    exact Or.inr ⟨fr', v, hc⟩

theorem writeNames_agrees {R : Vars α} {vars : List SessVar} {hidden : String → Option (List Var)}
    {mode : OpenMode} {mk : SessVar → List (List Int)} {I : Sess → NcFile α → (String → Prop) → Prop}
    (hnd : (vars.map SessVar.name).Nodup)
    (hw : ∀ x ∈ vars, Writes x (mk x) (R.form x) (R.Hold x) (R.Stored x)) (hE : EntryLaw vars hidden mode mk I)
    {mem : Memory α} (frame : Int) (names : List String) (hhid : ∀ n ∈ names, n ∈ vars.map SessVar.name ∨ hidden n = none)
    (hro : mode = .read → ∀ n, names.head? = some n → ¬ ∃ x ∈ vars, x.name = n ∧ x.localName ≠ none)
    {s : Sess} {file : NcFile α} {t : Table (Values α)} (h : SessInv R vars hidden mode I s file t)
    (hm : ∀ x ∈ vars, R.Hold x (mem x.name) (t.cur x.name)) :
    AsExpected (writeNames mem frame names (s, file)).1 (t.write (vars.map SessVar.name) frame names).1 ∧
      SessInv R vars hidden mode I (writeNames mem frame names (s, file)).2.1 (writeNames mem frame names (s, file)).2.2
        (t.write (vars.map SessVar.name) frame names).2 ∧
      (t.write (vars.map SessVar.name) frame names).2.cur = t.cur := by
  induction names generalizing s file t with
  | nil => exact ⟨rfl, h, rfl⟩
  | cons n ns ih =>
    by_cases hn : n ∈ vars.map SessVar.name
    · obtain ⟨x, hx, rfl, hf⟩ := find_known hn
      have hf' : s.find x.name = some x := by rw [Sess.find, h.vars_eq]; exact hf
      by_cases hmode : mode = .read
      · have hwr : ¬ (t.writable = true ∧ x.name ∈ vars.map SessVar.name) := fun hh => h.writable.1 hh.1 hmode
        have hs : s.mode = .read := h.mode_eq.trans hmode
        have he : s.entriesForWrite x frame file = .ok (s, file) := by
          unfold Sess.entriesForWrite
          rw [hs]
          cases x.localName <;> rfl
        have hp : s.putVar mem x frame file = .throw .fileIOError := by
          unfold Sess.putVar
          have hl : x.localName = none := by
            by_contra hl
            exact hro hmode _ rfl ⟨x, hx, rfl, hl⟩
          have ha : s.asksNothing x = false := by rw [Sess.asksNothing, hl]; rfl
          rw [hs, ha]
          split <;> simp
        rw [writeNames, Table.write, if_neg hwr]
        dsimp only
        rw [hf']
        dsimp only
        rw [he]
        dsimp only
        rw [hp]
        exact ⟨⟨rfl, rfl⟩, h, rfl⟩
      rw [writeNames, Table.write, if_pos ⟨h.writable.2 hmode, hn⟩]
      dsimp only
      rw [hf']
      dsimp only
      rcases hE.step hmode frame hx h.vars_eq h.hidden_eq h.mode_eq (by rw [h.frames]; exact h.nonneg) h.entries with
        ⟨s1, file1, e1, e2, e3, e4, e5, e6, e7, e8, e9⟩ | ⟨e1, e2⟩
      · rw [e1]
        dsimp only
        have hag1 : Agrees R vars file1 t.cell := by
          refine ⟨?_, ?_, ?_⟩
          · intro x' hx'; rw [e7]; exact h.agrees.each x' hx'
          · intro fr n val hc; rw [e8]; exact h.agrees.recs fr n val hc
          · rw [e8]; exact h.agrees.last
        cases hfr : meantFrame t.nb frame with
        | none =>
          have hv : varFrame s1.nbFrames frame = .throw .fileIOError := by
            rw [e6, h.frames]; exact meantFrame_none h.nonneg hfr
          rw [putVar_throw hv]
          exact ⟨⟨rfl, rfl⟩, ⟨e3, e4, e5, h.writable, e6.trans h.frames, h.nonneg, (by rw [e8]; exact h.enough),
            hE.anti e2 fun _ hh => Or.inr hh, hag1⟩, rfl⟩
        | some fr =>
          obtain ⟨file2, p1, p2, p3, p4⟩ := hag1.put hnd hx (s := s1) (by rw [e5]; exact hmode) (e6.trans h.frames)
            h.nonneg (by rw [e9]; exact hw x hx) (hm x hx) hfr
          rw [p1]
          dsimp only
          exact ih (fun n hn => hhid n (by simp [hn])) (fun hr => absurd hr hmode) (s := s1) (file := file2) (t := t.put fr x.name)
            ⟨e3, e4, e5, h.writable, e6.trans h.frames, h.nonneg, (by
                have := h.enough
                have := meantFrame_some h.nonneg hfr
                rw [p4, e8]
                show max _ _ ≤ t.nb
                omega),
              hE.keep (hE.anti e2 fun _ hh => hasCell_put hh) p2, p3⟩ hm
      · rw [e2]
        rw [h.frames] at e1
        rw [e1]
        exact ⟨⟨rfl, rfl⟩, h, rfl⟩
    · have hf' : s.find n = none := by rw [Sess.find, h.vars_eq]; exact find_unknown hn
      have hh : hidden n = none := (hhid n (by simp)).resolve_left hn
      rw [writeNames, Table.write, if_neg fun hh => hn hh.2]
      dsimp only
      rw [hf']
      dsimp only
      have : s.putEntries n frame file = .throw .fileIOError := by
        unfold Sess.putEntries
        rw [h.hidden_eq, hh]
      rw [this]
      exact ⟨⟨rfl, rfl⟩, h, rfl⟩

/-- Reading a frame that does not exist throws, also for local fields. -/
theorem getVar_throw {x : SessVar} {marks : List (List Int)} {form : Form}
    {Alloc : List (ProcMem α) → Prop}
    {Hold : List (ProcMem α) → Values α → Prop} {Stored : Int → Values α → (List Int → α) → Prop}
    (hr : Reads x marks form Alloc Hold Stored) {s : Sess} {file : NcFile α} {mem : Memory α} {frame : Int}
    {val : Values α} (hmk : s.marksOf x = marks) (hm : Hold (mem x.name) val) (h : varFrame s.nbFrames frame = .throw .fileIOError) :
    s.getVar file x frame mem = .throw .fileIOError := by
  unfold Sess.getVar
  split
  · rfl
  · rw [hmk, hr.bad (hr.alloc hm) h, Res.throw_bind]

theorem readNames_agrees {R : Vars α} {vars : List SessVar} {hidden : String → Option (List Var)}
    {mode : OpenMode} {mk : SessVar → List (List Int)} {I : Sess → NcFile α → (String → Prop) → Prop}
    (hnd : (vars.map SessVar.name).Nodup) {Alloc : SessVar → List (ProcMem α) → Prop}
    (hr : ∀ x ∈ vars, Reads x (mk x) (R.form x) (Alloc x) (R.Hold x) (R.Stored x))
    (hE : EntryLaw vars hidden mode mk I)
    {mem : Memory α} (frame : Int) (names : List String) (hhid : ∀ n ∈ names, n ∈ vars.map SessVar.name ∨ hidden n = none)
    {s : Sess} {file : NcFile α} {t : Table (Values α)} (h : SessInv R vars hidden mode I s file t)
    (hm : ∀ x ∈ vars, R.Hold x (mem x.name) (t.cur x.name))
    (hfill : t.Filled (vars.map SessVar.name) frame names) :
    AsExpected (readNames file frame names (s, mem)).1 (t.read (vars.map SessVar.name) frame names).1 ∧
      SessInv R vars hidden mode I (readNames file frame names (s, mem)).2.1 file
        (t.read (vars.map SessVar.name) frame names).2 ∧
      ∀ x ∈ vars, R.Hold x ((readNames file frame names (s, mem)).2.2 x.name)
        ((t.read (vars.map SessVar.name) frame names).2.cur x.name) := by
  induction names generalizing s mem t with
  | nil => exact ⟨rfl, h, hm⟩
  | cons n ns ih =>
    by_cases hn : n ∈ vars.map SessVar.name
    · obtain ⟨x, hx, rfl, hf⟩ := find_known hn
      have hf' : s.find x.name = some x := by rw [Sess.find, h.vars_eq]; exact hf
      have hfx := hfill x.name (by simp) hn
      have hhas : HasCell t.cell x.name := by
        cases hfr : meantFrame t.nb frame with
        | none => rw [hfr] at hfx; exact hfx
        | some fr =>
          rw [hfr] at hfx
          obtain ⟨v, hv⟩ := Option.ne_none_iff_exists'.1 hfx
          exact ⟨fr, v, hv⟩
      have hpos : 0 < s.nbFrames := by
        obtain ⟨fr, v, hv⟩ := hhas
        have := h.agrees.recs _ _ _ hv
        have := h.enough
        have := h.frames
        omega
      obtain ⟨s1, e1, e2, e3, e4, e5, e6, e7⟩ := hE.look hx h.vars_eq h.hidden_eq h.mode_eq
        (by rw [h.frames]; exact h.nonneg) h.entries hhas hpos
      have h1 : SessInv R vars hidden mode I s1 file t :=
        ⟨e3, e4, e5, h.writable, e6.trans h.frames, h.nonneg, h.enough, e2, h.agrees⟩
      rw [readNames, Table.read, if_pos hn]
      dsimp only
      rw [hf']
      dsimp only
      rw [e1]
      dsimp only
      cases hfr : meantFrame t.nb frame with
      | none =>
        have hv : varFrame s1.nbFrames frame = .throw .fileIOError := by
          rw [e6, h.frames]; exact meantFrame_none h.nonneg hfr
        rw [getVar_throw (hr x hx) e7 (hm x hx) hv]
        exact ⟨⟨rfl, rfl⟩, h1, hm⟩
      | some fr =>
        rw [hfr] at hfx
        obtain ⟨v, hv⟩ := Option.ne_none_iff_exists'.1 hfx
        have hv' : t.cell fr x.name = some v := hv
        obtain ⟨fv, a1, a2, a3⟩ := h.agrees.each x hx
        obtain ⟨m1, m2⟩ := h.agrees.recs _ _ _ hv'
        obtain ⟨ms', g1, g2⟩ := (hr x hx).get (numrecs := file.numrecs) ((hr x hx).alloc (hm x hx))
          (meantFrame_some h.nonneg hfr).1 m2 a2 (a3 fr v hv')
        have hg : s1.getVar file x frame mem = .ok (setAt mem x.name ms') := by
          unfold Sess.getVar
          rw [a1]
          dsimp only
          rw [e7, e6, h.frames, g1]
          rfl
        rw [hg]
        dsimp only
        rw [hv']
        dsimp only
        refine ih (fun n hn => hhid n (by simp [hn])) (s := s1) (t := t.set x.name v)
          ⟨e3, e4, e5, h.writable, e6.trans h.frames, h.nonneg, h.enough, e2, h.agrees⟩ ?_ ?_
        · intro x' hx'
          by_cases hxx : x'.name = x.name
          · obtain rfl : x' = x := List.inj_on_of_nodup_map hnd hx' hx hxx
            rw [setAt_self]
            simp only [Table.set, if_true]
            exact g2
          · rw [setAt_other _ hxx]
            simp only [Table.set, if_neg hxx]
            exact hm x' hx'
        · exact fun n hn hk => hfill n (by simp [hn]) hk
    · have hf' : s.find n = none := by rw [Sess.find, h.vars_eq]; exact find_unknown hn
      have hh : hidden n = none := (hhid n (by simp)).resolve_left hn
      rw [readNames, Table.read, if_neg hn]
      dsimp only
      rw [hf']
      dsimp only
      have : s.getEntries n frame file = .throw .fileIOError := by
        unfold Sess.getEntries
        rw [h.hidden_eq, hh]
      rw [this]
      exact ⟨⟨rfl, rfl⟩, h, hm⟩

theorem run_agrees {R : Vars α} {vars : List SessVar} {hidden : String → Option (List Var)}
    {mode : OpenMode} {mk : SessVar → List (List Int)} {I : Sess → NcFile α → (String → Prop) → Prop}
    (hnd : (vars.map SessVar.name).Nodup) {Alloc : SessVar → List (ProcMem α) → Prop}
    (hw : ∀ x ∈ vars, Writes x (mk x) (R.form x) (R.Hold x) (R.Stored x))
    (hr : ∀ x ∈ vars, Reads x (mk x) (R.form x) (Alloc x) (R.Hold x) (R.Stored x))
    (hE : EntryLaw vars hidden mode mk I)
    {ops : List (FileOp (Memory α))} {sops : List (FileOp (String → Values α))}
    (hops : List.Forall₂ (SameOp fun mem c => ∀ x ∈ vars, R.Hold x (mem x.name) (c x.name)) ops sops)
    (hhid : ∀ op ∈ ops, NoHidden vars hidden op) (hro : mode = .read → ∀ op ∈ ops, Refused vars op)
    {w : World α} {t : Table (Values α)} (hgap : t.NoGaps (vars.map SessVar.name) sops)
    (h : SessInv R vars hidden mode I w.sess w.file t)
    (hm : ∀ x ∈ vars, R.Hold x (w.mem x.name) (t.cur x.name)) :
    List.Forall₂ AsExpected (w.run ops).1 (t.run (vars.map SessVar.name) sops).1 ∧
      SessInv R vars hidden mode I (w.run ops).2.sess (w.run ops).2.file (t.run (vars.map SessVar.name) sops).2 ∧
      ∀ x ∈ vars, R.Hold x ((w.run ops).2.mem x.name) ((t.run (vars.map SessVar.name) sops).2.cur x.name) := by
  induction hops generalizing w t with
  | nil => exact ⟨.nil, h, hm⟩
  | @cons op sop ops sops hop _ ih =>
    have key : AsExpected (w.step op).1 (t.step (vars.map SessVar.name) sop).1 ∧
        SessInv R vars hidden mode I (w.step op).2.sess (w.step op).2.file (t.step (vars.map SessVar.name) sop).2 ∧
        ∀ x ∈ vars, R.Hold x ((w.step op).2.mem x.name) ((t.step (vars.map SessVar.name) sop).2.cur x.name) := by
      have hnm : w.sess.names = vars.map SessVar.name := by rw [Sess.names, h.vars_eq]
      cases hop with
      | appendFrame =>
        refine ⟨rfl, ⟨h.vars_eq, h.hidden_eq, h.mode_eq, h.writable, ?_, ?_, ?_, hE.append h.entries, h.agrees⟩, hm⟩
        · simp only [World.step, Table.step, h.frames]
        · simp only [Table.step]; have := h.nonneg; omega
        · simp only [Table.step]; have := h.enough; simp only [World.step]; omega
      | write frame names =>
        have hno : NoHidden vars hidden (FileOp.write frame names : FileOp (Memory α)) := hhid _ (by simp)
        obtain ⟨h1, h2, h3⟩ := writeNames_agrees hnd hw hE (mem := w.mem) frame names hno
          (fun hr n hn => hro hr _ (List.mem_cons_self ..) n hn) h hm
        exact ⟨h1, h2, fun x hx => by simp only [Table.step]; rw [h3]; exact hm x hx⟩
      | writeAll frame =>
        obtain ⟨h1, h2, h3⟩ := writeNames_agrees hnd hw hE (mem := w.mem) frame (vars.map SessVar.name)
          (fun n hn => Or.inl hn) (fun hr n hn => hro hr _ (List.mem_cons_self ..) n hn) h hm
        simp only [World.step, Table.step, hnm]
        exact ⟨h1, h2, fun x hx => by rw [h3]; exact hm x hx⟩
      | read frame names =>
        have hno : NoHidden vars hidden (FileOp.read frame names : FileOp (Memory α)) := hhid _ (by simp)
        exact readNames_agrees hnd hr hE (mem := w.mem) frame names hno h hm hgap.1
      | readAll frame =>
        simp only [World.step, Table.step, hnm]
        exact readNames_agrees hnd hr hE (mem := w.mem) frame (vars.map SessVar.name) (fun n hn => Or.inl hn) h hm hgap.1
      | compute hc =>
        exact ⟨rfl, ⟨h.vars_eq, h.hidden_eq, h.mode_eq, h.writable, h.frames, h.nonneg, h.enough, h.entries,
          h.agrees⟩, hc⟩
    obtain ⟨k1, k2, k3⟩ := key
    obtain ⟨r1, r2, r3⟩ := ih (fun op hop => hhid op (by simp [hop])) (fun hr op hop => hro hr op (by simp [hop])) (w := (w.step op).2)
      (t := (t.step (vars.map SessVar.name) sop).2) hgap.2 k2 k3
    exact ⟨.cons k1 r1, r2, r3⟩

end Verif.Props
