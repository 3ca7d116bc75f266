import Verif.Lemmas.FileSessionHidden
/-
Sessions with global and local fields: helper lemmas.
-/
namespace Verif.Props
open Verif Verif.Ccoord Verif.Layout Verif.Layout.FieldLayout Verif.RawMemory Verif.FileIO Verif.NetCDF
open Verif.Collection Verif.Collection.Coll

variable {α : Type}

/-- Memory and file hold the values of a variable. -/
def relations (D : FileDesc) (P : Program) : Vars α where
  Hold := VarHolds P
  Stored := VarStored D
  form := varForm

/-- The entries used for writing and reading. -/
def marksFor (D : FileDesc) (P : Program) (x : SessVar) : List (List Int) :=
  match x.localName with
  | none => x.parts.map fun _ => []
  | some l => (P.hid l).map fun p : HiddenPart => p.entries (D.entry l)

/-- The memory is allocated. -/
def allocFor (P : Program) (x : SessVar) : List (ProcMem α) → Prop :=
  match x.localName with
  | none => Allocated x
  | some _ => LocalAllocated x (P.parts x.name)

section
variable {D : FileDesc} {P : Program} {vars : List SessVar} {hidden : String → Option (List Var)}

theorem Registered.entries_eq (h : Registered D P vars hidden) {x : SessVar} (hx : x ∈ vars) {l : String}
    (hl : x.localName = some l) :
    ((P.parts x.name).map fun p : LocalPart => p.entries (D.entry l)) =
      (P.hid l).map fun p : HiddenPart => p.entries (D.entry l) := by
  have := congrArg (List.map fun q : Nat × (Int → List Int) => (List.range q.1).map fun i : Nat => D.entry l (q.2 i))
    (h.pixels x hx l hl)
  rw [List.map_map, List.map_map] at this
  exact this

theorem Registered.writes (h : Registered D P vars hidden) : ∀ x ∈ vars,
    Writes (α := α) x (marksFor D P x) ((relations D P : Vars α).form x) ((relations D P).Hold x)
      ((relations D P).Stored x) := by
  intro x hx
  suffices Writes (α := α) x (marksFor D P x) (varForm x) (VarHolds P x) (VarStored D x) from this
  unfold VarHolds VarStored
  simp only [marksFor]
  cases hl : x.localName with
  | none => exact (h.global x hx hl).writes
  | some l =>
    dsimp only
    rw [← h.entries_eq hx hl]
    exact (h.isLocal x hx l hl).writes

theorem Registered.reads (h : Registered D P vars hidden) : ∀ x ∈ vars,
    Reads (α := α) x (marksFor D P x) ((relations D P : Vars α).form x) (allocFor P x) ((relations D P).Hold x)
      ((relations D P).Stored x) := by
  intro x hx
  suffices Reads (α := α) x (marksFor D P x) (varForm x) (allocFor P x) (VarHolds P x) (VarStored D x) from this
  unfold VarHolds VarStored allocFor
  simp only [marksFor]
  cases hl : x.localName with
  | none => exact (h.global x hx hl).reads
  | some l =>
    dsimp only
    rw [← h.entries_eq hx hl]
    exact (h.isLocal x hx l hl).reads

/-- The state of the entries in a file that is being written. -/
def WriteInv (D : FileDesc) (P : Program) (vars : List SessVar) (s : Sess) (file : NcFile α) (has : String → Prop) : Prop :=
  ∀ x ∈ vars, ∀ l, x.localName = some l →
    s.marks l = ((P.hid l).map fun p : HiddenPart => p.entries (D.entry l)) ∧
    ∃ fv, file.hidden l = some fv ∧ fv.form = hiddenForm (P.hid l) ∧
      (l ∈ s.written → EntriesStored D.dom (D.entry l) fv) ∧ (has x.name → l ∈ s.written)

/-- The state of the entries in a file that has been opened again; `all` if every local collection has been
written. -/
def OpenInv (D : FileDesc) (P : Program) (vars : List SessVar) (all : Bool) (s : Sess) (file : NcFile α)
    (has : String → Prop) : Prop :=
  ∀ x ∈ vars, ∀ l, x.localName = some l →
    (s.marks l).map List.length = (P.hid l).map HiddenPart.size ∧
    (l ∈ s.readIn → s.marks l = (P.hid l).map fun p : HiddenPart => p.entries (D.entry l)) ∧
    ∃ fv, file.hidden l = some fv ∧ fv.form = hiddenForm (P.hid l) ∧
      (all = true ∨ has x.name → EntriesStored D.dom (D.entry l) fv)

theorem marksOf_global {s : Sess} {x : SessVar} (hl : x.localName = none) : s.marksOf x = marksFor D P x := by
  simp only [Sess.marksOf, marksFor, hl]

theorem marksOf_local {s : Sess} {x : SessVar} {l : String} (hl : x.localName = some l)
    (hm : s.marks l = (P.hid l).map fun p : HiddenPart => p.entries (D.entry l)) : s.marksOf x = marksFor D P x := by
  simp only [Sess.marksOf, marksFor, hl, hm]

theorem entries_lengths (ps : List HiddenPart) (M : List Int → Int) :
    (ps.map fun p : HiddenPart => p.entries M).map List.length = ps.map HiddenPart.size := by
  simp [HiddenPart.entries, Function.comp_def]

theorem varFrame_zero {nb : Int} (h : 0 < nb) : varFrame nb 0 = .ok 0 := by
  simp [varFrame, handleFrame, show ¬ nb ≤ 0 by omega]

/-- The entries have been read. -/
def loaded (s : Sess) (l : String) (m : List (List Int)) : Sess :=
  { s with marks := setAt s.marks l m, readIn := s.readIn ++ [l] }

theorem Registered.writeLaw (h : Registered D P vars hidden) {mode : OpenMode}
    (hmode : mode = .write ∨ mode = .overwrite) :
    EntryLaw (α := α) vars hidden mode (marksFor D P) (WriteInv D P vars) := by
  refine ⟨?_, ?_, ?_, ?_, ?_⟩
  · rintro - s file has x frame hx hv hh hm hnb hI
    cases hl : x.localName with
    | none =>
      refine Or.inl ⟨s, file, by simp [Sess.entriesForWrite, hl], ?_, hv, hh, hm, rfl, rfl, rfl, marksOf_global hl⟩
      intro y hy l hyl
      obtain ⟨h1, fv, h2, h3, h4, h5⟩ := hI y hy l hyl
      refine ⟨h1, fv, h2, h3, h4, ?_⟩
      rintro (he | he)
      · rw [List.inj_on_of_nodup_map h.nodup hy hx he, hl] at hyl
        cases hyl
      · exact h5 he
    | some l =>
      obtain ⟨h1, fv, h2, h3, h4, h5⟩ := hI x hx l hl
      by_cases hw : l ∈ s.written
      · refine Or.inl ⟨s, file, ?_, ?_, hv, hh, hm, rfl, rfl, rfl, marksOf_local hl h1⟩
        · unfold Sess.entriesForWrite
          rw [hl, hm]
          rcases hmode with rfl | rfl <;> simp [hw]
        · intro y hy l' hyl
          obtain ⟨g1, fv', g2, g3, g4, g5⟩ := hI y hy l' hyl
          refine ⟨g1, fv', g2, g3, g4, ?_⟩
          rintro (he | he)
          · rw [List.inj_on_of_nodup_map h.nodup hy hx he, hl] at hyl
            cases hyl
            exact hw
          · exact g5 he
      · have hent : ∀ r, s.putEntries l 0 file = r → s.entriesForWrite x frame file =
            (do let file' ← r; pure ({ s with written := s.written ++ [l] }, file')) := by
          rintro r rfl
          unfold Sess.entriesForWrite
          rw [hl, hm]
          rcases hmode with rfl | rfl <;> simp [hw]
        have hhid := h.hid x hx l hl
        have hreg : s.hidden l = some ((P.hid l).map HiddenPart.v) := by rw [hh]; exact h.hidden_eq x hx l hl
        by_cases hz : 0 < s.nbFrames
        · obtain ⟨fv', p1, p2, p3⟩ := hhid.putEntries (α := α) (by rw [hm]; rcases hmode with rfl | rfl <;> simp) hreg h2 h3 h1
            (varFrame_zero hz)
          refine Or.inl ⟨{ s with written := s.written ++ [l] }, { file with hidden := setAt file.hidden l (some fv') },
            by rw [hent _ p1]; rfl, ?_, hv, hh, hm, rfl, rfl, rfl, marksOf_local (s := { s with written := _ }) hl h1⟩
          intro y hy l' hyl
          obtain ⟨g1, fv'', g2, g3, g4, g5⟩ := hI y hy l' hyl
          by_cases he : l' = l
          · subst he
            refine ⟨g1, fv', setAt_self .., p2, fun _ => p3, fun _ => by simp⟩
          · refine ⟨g1, fv'', (setAt_other _ he _).trans g2, g3, ?_, ?_⟩
            · intro hw'
              simp only [List.mem_append, List.mem_cons, List.not_mem_nil, or_false] at hw'
              exact g4 (hw'.resolve_right he)
            · rintro (hn | hn)
              · rw [List.inj_on_of_nodup_map h.nodup hy hx hn, hl] at hyl
                cases hyl
                exact absurd rfl he
              · simp [g5 hn]
        · refine Or.inr ⟨?_, ?_⟩
          · unfold meantFrame
            rw [if_neg (by omega), if_neg (by omega)]
          · have ht : varFrame s.nbFrames 0 = .throw .fileIOError := by
              simp [varFrame, handleFrame, show s.nbFrames ≤ 0 by omega]
            rw [hent _ (putEntries_throw (by simpa using hhid.nonempty) hreg (by rw [h1]; simp) ht)]
            rfl
  · intro s file has x hx hv hh hm hnb hI hhas hpos
    cases hl : x.localName with
    | none => exact ⟨s, by simp [Sess.entriesForRead, hl], hI, hv, hh, hm, rfl, marksOf_global hl⟩
    | some l =>
      obtain ⟨h1, fv, h2, h3, h4, h5⟩ := hI x hx l hl
      by_cases hr : l ∈ s.readIn
      · exact ⟨s, by simp [Sess.entriesForRead, hl, hr], hI, hv, hh, hm, rfl, marksOf_local hl h1⟩
      · have hreg : s.hidden l = some ((P.hid l).map HiddenPart.v) := by rw [hh]; exact h.hidden_eq x hx l hl
        have hg := (h.hid x hx l hl).getEntries (α := α) hreg h2 h3 (h4 (h5 hhas))
          (by rw [h1]; exact entries_lengths _ _) (varFrame_zero hpos)
        refine ⟨loaded s l ((P.hid l).map fun p : HiddenPart => p.entries (D.entry l)), ?_, ?_, hv, hh, hm, rfl, marksOf_local hl (setAt_self ..)⟩
        · simp only [Sess.entriesForRead, hl, if_neg hr, hg]
          rfl
        · intro y hy l' hyl
          obtain ⟨g1, g2⟩ := hI y hy l' hyl
          refine ⟨?_, g2⟩
          by_cases he : l' = l
          · subst he; exact setAt_self ..
          · exact (setAt_other _ he _).trans g1
  · intro s file file' has hI hf x hx l hl
    rw [hf]
    exact hI x hx l hl
  · intro s file has has' hI hsub x hx l hl
    obtain ⟨h1, fv, h2, h3, h4, h5⟩ := hI x hx l hl
    exact ⟨h1, fv, h2, h3, h4, fun hh => h5 (hsub _ hh)⟩
  · intro s file has hI x hx l hl
    exact hI x hx l hl

theorem Registered.openLaw (h : Registered D P vars hidden) {mode : OpenMode} {all : Bool}
    (hmode : mode = .read ∨ (mode = .append ∧ all = true)) :
    EntryLaw (α := α) vars hidden mode (marksFor D P) (OpenInv D P vars all) := by
  have upd : ∀ {s : Sess} {file : NcFile α} {has : String → Prop} {l : String}, OpenInv D P vars all s file has →
      OpenInv D P vars all (loaded s l ((P.hid l).map fun p : HiddenPart => p.entries (D.entry l))) file has := by
    intro s file has l hI y hy l' hyl
    obtain ⟨g1, g2, g3⟩ := hI y hy l' hyl
    by_cases he : l' = l
    · subst he
      refine ⟨?_, fun _ => setAt_self .., g3⟩
      simp only [loaded, setAt_self]
      exact entries_lengths _ _
    · refine ⟨?_, fun hw => (setAt_other _ he _).trans (g2 ?_), g3⟩
      rotate_left
      · simp only [loaded, List.mem_append, List.mem_cons, List.not_mem_nil, or_false] at hw
        exact hw.resolve_right he
      simp only [loaded]
      rw [setAt_other _ he]
      exact g1
  refine ⟨?_, ?_, ?_, ?_, ?_⟩
  · intro hnr s file has x frame hx hv hh hm hnb hI
    obtain ⟨rfl, hall⟩ := hmode.resolve_left hnr
    have hI' : OpenInv D P vars all s file (fun n => n = x.name ∨ has n) := by
      intro y hy l hyl
      obtain ⟨g1, g2, fv, g3, g4, g5⟩ := hI y hy l hyl
      exact ⟨g1, g2, fv, g3, g4, fun _ => g5 (Or.inl hall)⟩
    cases hl : x.localName with
    | none =>
      exact Or.inl ⟨s, file, by simp [Sess.entriesForWrite, hl], hI', hv, hh, hm, rfl, rfl, rfl, marksOf_global hl⟩
    | some l =>
      obtain ⟨h1, h2, fv, h3, h4, h5⟩ := hI x hx l hl
      by_cases hr : l ∈ s.readIn
      · refine Or.inl ⟨s, file, by simp [Sess.entriesForWrite, hl, hm, hr], hI', hv, hh, hm, rfl, rfl, rfl,
          marksOf_local hl (h2 hr)⟩
      · have hreg : s.hidden l = some ((P.hid l).map HiddenPart.v) := by rw [hh]; exact h.hidden_eq x hx l hl
        cases hfr : meantFrame s.nbFrames frame with
        | some fr =>
          have hg := (h.hid x hx l hl).getEntries (α := α) hreg h3 h4 (h5 (Or.inl hall)) h1 (meantFrame_some hnb hfr).1
          refine Or.inl ⟨loaded s l ((P.hid l).map fun p : HiddenPart => p.entries (D.entry l)), file, ?_, upd hI', hv, hh, hm, rfl, rfl, rfl,
            marksOf_local hl (setAt_self ..)⟩
          unfold Sess.entriesForWrite
          rw [hl]
          dsimp only
          rw [hm]
          dsimp only
          rw [if_neg hr, hg]
          rfl
        | none =>
          refine Or.inr ⟨rfl, ?_⟩
          have := getEntries_throw (file := file) (by simpa using (h.hid x hx l hl).nonempty) hreg
            (by have := congrArg List.length h1; simpa using this) (meantFrame_none hnb hfr)
          simp only [Sess.entriesForWrite, hl, hm, if_neg hr, this]
          rfl
  · intro s file has x hx hv hh hm hnb hI hhas hpos
    cases hl : x.localName with
    | none => exact ⟨s, by simp [Sess.entriesForRead, hl], hI, hv, hh, hm, rfl, marksOf_global hl⟩
    | some l =>
      obtain ⟨h1, h2, fv, h3, h4, h5⟩ := hI x hx l hl
      by_cases hr : l ∈ s.readIn
      · exact ⟨s, by simp [Sess.entriesForRead, hl, hr], hI, hv, hh, hm, rfl, marksOf_local hl (h2 hr)⟩
      · have hreg : s.hidden l = some ((P.hid l).map HiddenPart.v) := by rw [hh]; exact h.hidden_eq x hx l hl
        have hg := (h.hid x hx l hl).getEntries (α := α) hreg h3 h4 (h5 (Or.inr hhas)) h1 (varFrame_zero hpos)
        refine ⟨loaded s l ((P.hid l).map fun p : HiddenPart => p.entries (D.entry l)), ?_, upd hI, hv, hh, hm, rfl, marksOf_local hl (setAt_self ..)⟩
        simp only [Sess.entriesForRead, hl, if_neg hr, hg]
        rfl
  · intro s file file' has hI hf x hx l hl
    rw [hf]
    exact hI x hx l hl
  · intro s file has has' hI hsub x hx l hl
    obtain ⟨h1, h2, fv, h3, h4, h5⟩ := hI x hx l hl
    exact ⟨h1, h2, fv, h3, h4, fun hh => h5 (hh.imp id fun hh => hsub _ hh)⟩
  · intro s file has hI x hx l hl
    exact hI x hx l hl

end

end Verif.Props
