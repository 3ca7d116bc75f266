import Verif.Model.FileSystem
/-
Helper lemmas for C100: a file that is opened for reading stays as it is, whatever the program does.
-/
namespace Verif.Props
open Verif Verif.NetCDF
open Verif.PyFile (lift)

variable {α : Type}

/-! ### Registration -/

/-- The mode and the header of the file are the same. -/
def SameHeader (s s' : Reg) : Prop := s'.mode = s.mode ∧ s'.fileDims = s.fileDims ∧ s'.fileVars = s.fileVars

theorem SameHeader.rfl' (s : Reg) : SameHeader s s := ⟨rfl, rfl, rfl⟩

theorem SameHeader.trans {s s' s'' : Reg} (h : SameHeader s s') (h' : SameHeader s' s'') : SameHeader s s'' :=
  ⟨h'.1.trans h.1, h'.2.1.trans h.2.1, h'.2.2.trans h.2.2⟩

theorem andThen_header {s : Reg} {r : Res Unit × Reg} {f : Reg → Res Unit × Reg} (h : SameHeader s r.2)
    (hf : ∀ s', SameHeader s s' → SameHeader s (f s').2) : SameHeader s (andThen r f).2 := by
  obtain ⟨o, s'⟩ := r
  cases o with
  | ok u => exact hf s' h
  | throw e => exact h
  | ub => exact h

theorem forEach_header {β : Type} {f : Reg → β → Res Unit × Reg} (hf : ∀ s x, SameHeader s (f s x).2) (l : List β) (s : Reg) :
    SameHeader s (forEach f l s).2 := by
  induction l generalizing s with
  | nil => exact .rfl' s
  | cons x xs ih =>
    rw [forEach]
    exact andThen_header (hf s x) fun s' h => h.trans (ih s')

theorem addGlobal_header (s : Reg) (n : String) (f : IoField) (b : Bool) (h : Option Nat) (subs : List String) :
    SameHeader s (s.addGlobal n f b h subs).2 := by
  unfold Reg.addGlobal
  dsimp only
  split
  · split <;> exact ⟨rfl, rfl, rfl⟩
  · exact ⟨rfl, rfl, rfl⟩
  · exact ⟨rfl, rfl, rfl⟩

theorem addLocal_header (s : Reg) (n : String) (f : IoField) (h : Option Nat) (t : Int) (l : String) (m : List Int)
    (subs : List String) : SameHeader s (s.addLocal n f h t l m subs).2 := by
  unfold Reg.addLocal
  dsimp only
  split <;> exact ⟨rfl, rfl, rfl⟩

theorem stateRound_header {c : IoColl} {add : Reg → StateGroup → Res Unit × Reg} (h : ∀ s g, SameHeader s (add s g).2)
    (s : Reg) (p : String) : SameHeader s (Reg.stateRound c add s p).2 := by
  unfold Reg.stateRound
  split
  · exact .rfl' s
  · split
    · exact h ..
    · exact .rfl' s
    · exact .rfl' s

theorem fieldRound_header {c : IoColl} {add : Reg → IoField → Res Unit × Reg} (h : ∀ s g, SameHeader s (add s g).2)
    (s : Reg) (p : String) : SameHeader s (Reg.fieldRound c add s p).2 := by
  unfold Reg.fieldRound
  split
  · exact .rfl' s
  · split
    · exact .rfl' s
    · split
      · exact h ..
      · exact .rfl' s
      · exact .rfl' s

theorem registerGlobal_header (s : Reg) (c : IoColl) (dom : List Int × List Int × List Int) (fs ps : List String) :
    SameHeader s (s.registerGlobal c dom fs ps).2 := by
  unfold Reg.registerGlobal
  dsimp only
  refine andThen_header (forEach_header (stateRound_header fun s g => addGlobal_header ..) ps s) fun s1 h1 => ?_
  refine andThen_header (h1.trans (forEach_header (fieldRound_header fun s g => addGlobal_header ..) fs s1)) fun s2 h2 => ?_
  dsimp only
  split
  · exact h2
  · exact h2

theorem registerLocal_header (s : Reg) (c : IoColl) (ids : List Int) (total off : Int) (fs ps : List String) :
    SameHeader s (s.registerLocal c ids total off fs ps).2 := by
  unfold Reg.registerLocal
  split
  · exact .rfl' s
  · split
    · exact .rfl' s
    · dsimp only
      split
      · exact ⟨rfl, rfl, rfl⟩
      · exact ⟨rfl, rfl, rfl⟩
      · rename_i m _
        refine andThen_header (SameHeader.trans (s' := { s with gfc := s.gfc ++ [(c.name, m)] }) ⟨rfl, rfl, rfl⟩
          (registerGlobal_header ..)) fun s2 h2 => ?_
        refine andThen_header (h2.trans (forEach_header (stateRound_header fun s g => addLocal_header ..) ps s2)) fun s3 h3 => ?_
        exact h3.trans (forEach_header (fieldRound_header fun s g => addLocal_header ..) fs s3)

theorem inquire_header (s : Reg) : SameHeader s s.inquire.2 := by
  unfold Reg.inquire
  split
  · exact .rfl' s
  · dsimp only
    refine andThen_header ⟨rfl, rfl, rfl⟩ fun s1 h1 => ?_
    split
    · exact h1
    · exact h1

theorem register_header {s : Reg} (hm : s.mode = .read ∨ s.mode = .append) (c : IoColl) (fs ps : List String) :
    SameHeader s (s.register c fs ps).2 := by
  unfold Reg.register
  split
  · exact .rfl' s
  · dsimp only
    refine andThen_header ?_ fun s1 h1 => ?_
    · split
      · exact registerGlobal_header ..
      · exact registerLocal_header ..
    · rw [if_neg]
      · exact h1.trans (inquire_header s1)
      · rw [h1.1]
        rcases hm with e | e <;> rw [e] <;> simp

theorem regRun_header {s : Reg} (hm : s.mode = .read ∨ s.mode = .append) (ops : List RegOp) : SameHeader s (s.run ops).2 := by
  induction ops generalizing s with
  | nil => exact .rfl' s
  | cons op ops ih =>
    have h1 : SameHeader s (s.step op).2 := by
      cases op with
      | register c fs ps => exact register_header hm c fs ps
      | appendFrame => exact ⟨rfl, rfl, rfl⟩
    exact h1.trans (ih (by rw [h1.1]; exact hm))

/-! ### Calls on the file -/

theorem putVar_readOnly {s : Sess} (hm : s.mode = .read) {mem : Memory α} {x : SessVar} {frame : Int} {file file' : NcFile α}
    (h : s.putVar mem x frame file = .ok file') : file' = file := by
  unfold Sess.putVar at h
  split at h
  · cases h
  · rw [if_pos hm] at h
    split at h
    · obtain ⟨_, -, h⟩ := Res.bind_eq_ok.1 h
      obtain ⟨_, -, h⟩ := Res.bind_eq_ok.1 h
      rw [Res.pure_eq] at h
      cases h
      rfl
    · cases h

theorem writeNames_readOnly {mem : Memory α} {frame : Int} (names : List String) {st : Sess × NcFile α}
    (hm : st.1.mode = .read) : (writeNames mem frame names st).2 = st := by
  induction names generalizing st with
  | nil => rfl
  | cons n ns ih =>
    rw [writeNames]
    cases hf : st.1.find n with
    | some x =>
      have he : st.1.entriesForWrite x frame st.2 = .ok st := by
        unfold Sess.entriesForWrite
        split
        · rfl
        · rw [hm]
      dsimp only
      rw [he]
      dsimp only
      cases hp : st.1.putVar mem x frame st.2 with
      | ok file =>
        dsimp only
        rw [putVar_readOnly hm hp]
        exact ih hm
      | throw e => rfl
      | ub => rfl
    | none =>
      dsimp only
      have he : st.1.putEntries n frame st.2 = .throw .fileIOError := by
        unfold Sess.putEntries
        split
        · rw [if_pos hm]
        · rfl
      rw [he]

theorem getEntries_mode {s s' : Sess} {l : String} {frame : Int} {file : NcFile α}
    (h : s.getEntries l frame file = .ok s') : s'.mode = s.mode := by
  unfold Sess.getEntries at h
  split at h
  · obtain ⟨ms, -, e⟩ := Res.bind_eq_ok.1 h
    rw [Res.pure_eq] at e
    cases e
    rfl
  · cases h

theorem readNames_mode {file : NcFile α} {frame : Int} (names : List String) (st : Sess × Memory α) :
    (readNames file frame names st).2.1.mode = st.1.mode := by
  induction names generalizing st with
  | nil => rfl
  | cons n ns ih =>
    rw [readNames]
    cases hf : st.1.find n with
    | some x =>
      dsimp only
      cases he : st.1.entriesForRead x file with
      | ok s1 =>
        have hv : s1.mode = st.1.mode := by
          unfold Sess.entriesForRead at he
          split at he
          · cases he; rfl
          · split at he
            · cases he; rfl
            · obtain ⟨s2, hp, he⟩ := Res.bind_eq_ok.1 he
              rw [Res.pure_eq] at he
              cases he
              have e : s2.mode = st.1.mode := getEntries_mode hp
              exact e
        dsimp only
        cases hp : s1.getVar file x frame st.2 with
        | ok m2 => exact (ih _).trans hv
        | throw e => exact hv
        | ub => exact hv
      | throw e => rfl
      | ub => rfl
    | none =>
      dsimp only
      cases hp : st.1.getEntries n frame file with
      | ok s1 => exact (ih _).trans (getEntries_mode hp)
      | throw e => rfl
      | ub => rfl

theorem step_readOnly {w : World α} (hm : w.sess.mode = .read) (op : FileOp (Memory α)) :
    (w.step op).2.sess.mode = .read ∧ (w.step op).2.file = w.file := by
  cases op with
  | appendFrame => exact ⟨hm, rfl⟩
  | write fr ns =>
    have := writeNames_readOnly (mem := w.mem) (frame := fr) ns (st := (w.sess, w.file)) hm
    simp only [World.step, this]
    exact ⟨hm, trivial⟩
  | writeAll fr =>
    have := writeNames_readOnly (mem := w.mem) (frame := fr) w.sess.names (st := (w.sess, w.file)) hm
    simp only [World.step, this]
    exact ⟨hm, trivial⟩
  | read fr ns => exact ⟨(readNames_mode ns (w.sess, w.mem)).trans hm, rfl⟩
  | readAll fr => exact ⟨(readNames_mode _ (w.sess, w.mem)).trans hm, rfl⟩
  | compute m => exact ⟨hm, rfl⟩

theorem reopen_readOnly {a : OpenArgs α} (ha : a.colls ≠ []) (d : Disk α) :
    (FileObj.reopen .read a d).2.sess.mode = .read ∧ (FileObj.reopen .read a d).2.disk = d := by
  refine ⟨rfl, ?_⟩
  cases hc : a.colls with
  | nil => exact absurd hc ha
  | cons c cs =>
    have h := regRun_header (s := Reg.opened .read d.dims d.vars d.data.numrecs) (Or.inl rfl)
      (c.map fun c => .register c ["REGISTER_ALL_FIELDS"] ["REGISTER_ALL_STATE_FIELDS"])
    unfold FileObj.reopen FileObj.make FileObj.disk registerRanks
    rw [hc]
    simp only [List.map_cons, headerOf]
    rw [h.2.1, h.2.2]
    rfl

end Verif.Props
