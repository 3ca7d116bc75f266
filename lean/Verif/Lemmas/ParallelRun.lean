import Verif.Lemmas.ParallelWorld
import Verif.Spec.FileSession
/-
Programs on a file object: the parallel build and the serial build.
-/
namespace Verif.NetCDF
open Verif Verif.RawMemory Verif.FileIO

section
variable {α : Type} {conv : Conv α} {convI : Conv Int}

/-- The variables of the file object and their types in the file stay. -/
structure ParKeeps (w w' : World α) : Prop where
  vars : w'.sess.vars = w.sess.vars
  hidden : w'.sess.hidden = w.sess.hidden
  mode : w'.sess.mode = w.sess.mode
  typed : ∀ n fv', w'.file.vars n = some fv' → ∃ fv, w.file.vars n = some fv ∧ fv'.ty = fv.ty
  hiddenTyped : ∀ n fv', w'.file.hidden n = some fv' → ∃ fv, w.file.hidden n = some fv ∧ fv'.ty = fv.ty

theorem ParKeeps.refl (w : World α) : ParKeeps w w :=
  ⟨rfl, rfl, rfl, fun _ fv h => ⟨fv, h, rfl⟩, fun _ fv h => ⟨fv, h, rfl⟩⟩

theorem ParKeeps.trans {w w' w'' : World α} (h : ParKeeps w w') (h' : ParKeeps w' w'') : ParKeeps w w'' where
  vars := h'.vars.trans h.vars
  hidden := h'.hidden.trans h.hidden
  mode := h'.mode.trans h.mode
  typed := fun n fv hf => by
    obtain ⟨f1, a, b⟩ := h'.typed n fv hf
    obtain ⟨f2, c, d⟩ := h.typed n f1 a
    exact ⟨f2, c, b.trans d⟩
  hiddenTyped := fun n fv hf => by
    obtain ⟨f1, a, b⟩ := h'.hiddenTyped n fv hf
    obtain ⟨f2, c, d⟩ := h.hiddenTyped n f1 a
    exact ⟨f2, c, b.trans d⟩

theorem ParKeeps.ready {w w' : World α} (h : ParKeeps w w') (hr : ParWorld.Ready ⟨w, false⟩) : ParWorld.Ready ⟨w', false⟩ where
  collective := rfl
  vars := fun x hx => hr.vars x (by rw [← h.vars]; exact hx)
  typed := fun x hx fv hf v hv => by
    obtain ⟨f, a, b⟩ := h.typed _ _ hf
    rw [b]
    exact hr.typed x (by rw [← h.vars]; exact hx) f a v hv
  hidden := fun x hx l hxl vs hl => hr.hidden x (by rw [← h.vars]; exact hx) l hxl vs (by rw [← h.hidden]; exact hl)
  locals := fun x hx => hr.locals x (by rw [← h.vars]; exact hx)
  hiddenTyped := fun x hx l hxl vs hl fv hf v hv => by
    obtain ⟨f, a, b⟩ := h.hiddenTyped _ _ hf
    rw [b]
    exact hr.hiddenTyped x (by rw [← h.vars]; exact hx) l hxl vs (by rw [← h.hidden]; exact hl) f a v hv

theorem writeAll_ty {β : Type} {nb frame : Int} {k : Nat} {ws : List (Var × Mem β)} {fv r : FileVar β}
    (h : Var.writeAll nb frame k ws fv = .ok r) : r.ty = fv.ty := by
  induction ws generalizing fv with
  | nil => cases h; rfl
  | cons w ws ih =>
    rw [Var.writeAll] at h
    obtain ⟨fv', h1, h⟩ := Res.bind_eq_ok.1 h
    rw [ih h, writeGlobal_ty h1]

variable {w w' : World α}

theorem putEntries_keeps {l : String} {frame : Int} {f : NcFile α} (h : w.sess.putEntries l frame w.file = .ok f) :
    ParKeeps w { w with file := f } := by
  unfold Sess.putEntries at h
  split at h
  · rename_i vs fv hv hf
    split at h
    · cases h
    · obtain ⟨fv', h1, h⟩ := Res.bind_eq_ok.1 h
      cases h
      refine ⟨rfl, rfl, rfl, fun _ fv h => ⟨fv, h, rfl⟩, fun n g hg => ?_⟩
      simp only [setAt] at hg
      split at hg
      · rename_i e
        cases hg; cases e
        exact ⟨fv, hf, writeAll_ty h1⟩
      · exact ⟨g, hg, rfl⟩
  · cases h

theorem getEntries_keeps {l : String} {frame : Int} {s : Sess} (h : w.sess.getEntries l frame w.file = .ok s) :
    ParKeeps w { w with sess := s } := by
  unfold Sess.getEntries at h
  split at h
  · obtain ⟨ms, -, h⟩ := Res.bind_eq_ok.1 h
    cases h
    exact ⟨rfl, rfl, rfl, fun _ fv h => ⟨fv, h, rfl⟩, fun _ fv h => ⟨fv, h, rfl⟩⟩
  · cases h

theorem putVar_keeps {x : SessVar} {frame : Int} {f : NcFile α} (h : w.sess.putVar w.mem x frame w.file = .ok f) :
    ParKeeps w { w with file := f } := by
  unfold Sess.putVar at h
  split at h
  · cases h
  · rename_i fv hf
    split at h
    · split at h
      · obtain ⟨fr, -, h⟩ := Res.bind_eq_ok.1 h
        obtain ⟨fv', h1, h⟩ := Res.bind_eq_ok.1 h
        cases h
        exact ParKeeps.refl w
      · cases h
    · obtain ⟨fr, -, h⟩ := Res.bind_eq_ok.1 h
      obtain ⟨fv', h1, h⟩ := Res.bind_eq_ok.1 h
      cases h
      refine ⟨rfl, rfl, rfl, fun n g hg => ?_, fun _ fv h => ⟨fv, h, rfl⟩⟩
      simp only [setAt] at hg
      split at hg
      · rename_i e
        cases hg; cases e
        exact ⟨fv, hf, put_ty h1⟩
      · exact ⟨g, hg, rfl⟩

theorem keeps_mem (w : World α) (m : Memory α) : ParKeeps w { w with mem := m } :=
  ⟨rfl, rfl, rfl, fun _ fv h => ⟨fv, h, rfl⟩, fun _ fv h => ⟨fv, h, rfl⟩⟩

/-! ### The loops of the serial build, on worlds -/

/-- The hidden variable before a write, on worlds. -/
def World.entriesW (x : SessVar) (frame : Int) (w : World α) : Res (World α) :=
  (w.sess.entriesForWrite x frame w.file).bind fun st => .ok { w with sess := st.1, file := st.2 }

/-- The hidden variable before a read, on worlds. -/
def World.entriesR (x : SessVar) (w : World α) : Res (World α) :=
  (w.sess.entriesForRead x w.file).bind fun s => .ok { w with sess := s }

/-- One name of `write`, on worlds. -/
def World.write1 (frame : Int) (n : String) (w : World α) : Res (World α) :=
  match w.sess.find n with
  | some x => (w.entriesW x frame).bind fun w1 =>
      (w1.sess.putVar w1.mem x frame w1.file).bind fun f => .ok { w1 with file := f }
  | none => (w.sess.putEntries n frame w.file).bind fun f => .ok { w with file := f }

/-- One name of `read`, on worlds. -/
def World.read1 (frame : Int) (n : String) (w : World α) : Res (World α) :=
  match w.sess.find n with
  | some x => (w.entriesR x).bind fun w1 =>
      (w1.sess.getVar w1.file x frame w1.mem).bind fun m => .ok { w1 with mem := m }
  | none => (w.sess.getEntries n frame w.file).bind fun s => .ok { w with sess := s }

/-- All names one after the other. -/
def World.each (f : String → World α → Res (World α)) : List String → World α → Res (World α)
  | [], w => .ok w
  | n :: ns, w => (f n w).bind (World.each f ns)

theorem writeNames_each {frame : Int} {ns : List String} :
    (∀ w', World.each (World.write1 frame) ns w = .ok w' →
        writeNames w.mem frame ns (w.sess, w.file) = (.ok (), (w'.sess, w'.file)) ∧ w'.mem = w.mem) ∧
      ((writeNames w.mem frame ns (w.sess, w.file)).1 = .ok () → ∃ w', World.each (World.write1 frame) ns w = .ok w') := by
  induction ns generalizing w with
  | nil => exact ⟨fun w' h => (by cases h; exact ⟨rfl, rfl⟩), fun _ => ⟨w, rfl⟩⟩
  | cons n ns ih =>
    rw [World.each, writeNames, World.write1]
    dsimp only
    cases w.sess.find n with
    | none =>
      dsimp only
      cases w.sess.putEntries n frame w.file with
      | throw e => exact ⟨fun w' h => (by cases h), fun h => (by cases h)⟩
      | ub => exact ⟨fun w' h => (by cases h), fun h => (by cases h)⟩
      | ok f => exact ih (w := { w with file := f })
    | some x =>
      dsimp only
      unfold World.entriesW
      cases w.sess.entriesForWrite x frame w.file with
      | throw e => exact ⟨fun w' h => (by cases h), fun h => (by cases h)⟩
      | ub => exact ⟨fun w' h => (by cases h), fun h => (by cases h)⟩
      | ok st =>
        dsimp only [Res.ok_bind, Res.bind]
        cases st.1.putVar w.mem x frame st.2 with
        | throw e => exact ⟨fun w' h => (by cases h), fun h => (by cases h)⟩
        | ub => exact ⟨fun w' h => (by cases h), fun h => (by cases h)⟩
        | ok f => exact ih (w := { w with sess := st.1, file := f })

theorem readNames_each {frame : Int} {ns : List String} :
    (∀ w', World.each (World.read1 frame) ns w = .ok w' →
        readNames w.file frame ns (w.sess, w.mem) = (.ok (), (w'.sess, w'.mem)) ∧ w'.file = w.file) ∧
      ((readNames w.file frame ns (w.sess, w.mem)).1 = .ok () → ∃ w', World.each (World.read1 frame) ns w = .ok w') := by
  induction ns generalizing w with
  | nil => exact ⟨fun w' h => (by cases h; exact ⟨rfl, rfl⟩), fun _ => ⟨w, rfl⟩⟩
  | cons n ns ih =>
    rw [World.each, readNames, World.read1]
    dsimp only
    cases w.sess.find n with
    | none =>
      dsimp only
      cases w.sess.getEntries n frame w.file with
      | throw e => exact ⟨fun w' h => (by cases h), fun h => (by cases h)⟩
      | ub => exact ⟨fun w' h => (by cases h), fun h => (by cases h)⟩
      | ok s => exact ih (w := { w with sess := s })
    | some x =>
      dsimp only
      unfold World.entriesR
      cases w.sess.entriesForRead x w.file with
      | throw e => exact ⟨fun w' h => (by cases h), fun h => (by cases h)⟩
      | ub => exact ⟨fun w' h => (by cases h), fun h => (by cases h)⟩
      | ok s =>
        dsimp only [Res.ok_bind, Res.bind]
        cases s.getVar w.file x frame w.mem with
        | throw e => exact ⟨fun w' h => (by cases h), fun h => (by cases h)⟩
        | ub => exact ⟨fun w' h => (by cases h), fun h => (by cases h)⟩
        | ok m => exact ih (w := { w with sess := s, mem := m })

/-! ### Agreement -/

theorem entriesW_keeps {x : SessVar} {frame : Int} (h : w.entriesW x frame = .ok w') : ParKeeps w w' := by
  unfold World.entriesW at h
  obtain ⟨⟨s1, f1⟩, h0, e⟩ := Res.bind_eq_ok.1 h
  cases e
  clear h
  rename' h0 => h
  unfold Sess.entriesForWrite at h
  split at h
  · cases h; exact ParKeeps.refl w
  · split at h
    · split at h
      · cases h; exact ParKeeps.refl w
      · obtain ⟨f, h1, h⟩ := Res.bind_eq_ok.1 h
        cases h
        have := putEntries_keeps h1
        exact ⟨this.vars, this.hidden, this.mode, this.typed, this.hiddenTyped⟩
    · split at h
      · cases h; exact ParKeeps.refl w
      · obtain ⟨f, h1, h⟩ := Res.bind_eq_ok.1 h
        cases h
        have := putEntries_keeps h1
        exact ⟨this.vars, this.hidden, this.mode, this.typed, this.hiddenTyped⟩
    · split at h
      · cases h; exact ParKeeps.refl w
      · obtain ⟨f, h1, h⟩ := Res.bind_eq_ok.1 h
        cases h
        have := getEntries_keeps h1
        exact ⟨this.vars, this.hidden, this.mode, this.typed, this.hiddenTyped⟩
    · cases h; exact ParKeeps.refl w

theorem entriesR_keeps {x : SessVar} (h : w.entriesR x = .ok w') : ParKeeps w w' := by
  unfold World.entriesR at h
  obtain ⟨s1, h0, e⟩ := Res.bind_eq_ok.1 h
  cases e
  clear h
  rename' h0 => h
  unfold Sess.entriesForRead at h
  split at h
  · cases h; exact ParKeeps.refl w
  · split at h
    · cases h; exact ParKeeps.refl w
    · obtain ⟨f, h1, h⟩ := Res.bind_eq_ok.1 h
      cases h
      have := getEntries_keeps h1
      exact ⟨this.vars, this.hidden, this.mode, this.typed, this.hiddenTyped⟩

theorem entriesW_agrees (hcI : convI.Faithful) (hr : ParWorld.Ready ⟨w, false⟩) (hm : w.sess.mode ≠ .read) {x : SessVar}
    (hx : x ∈ w.sess.vars) (frame : Int) : ParAgrees (ParWorld.entriesForWrite convI x frame ⟨w, false⟩) (w.entriesW x frame) := by
  unfold ParWorld.entriesForWrite World.entriesW Sess.entriesForWrite
  cases hxl : x.localName with
  | none => exact agrees_ok w
  | some l =>
    have hu : Used w.sess l := .inl ⟨x, hx, hxl⟩
    dsimp only
    have put : ParAgrees (Joint.next (ParWorld.putEntries convI l 0 ⟨w, false⟩) fun q =>
        (.ok (), { q with sess := { q.sess with written := q.sess.written ++ [l] } }))
        ((do let file' ← w.sess.putEntries l 0 w.file
             pure ({ w.sess with written := w.sess.written ++ [l] }, file')).bind fun st =>
          .ok { w with sess := st.1, file := st.2 }) := by
      have := (putEntries_agrees hcI hr hm hu 0).next (f := fun q =>
        (.ok (), { q with sess := { q.sess with written := q.sess.written ++ [l] } }))
        (g := fun w1 => .ok { w1 with sess := { w1.sess with written := w1.sess.written ++ [l] } })
        fun w1 _ => agrees_ok _
      cases h : w.sess.putEntries l 0 w.file with
      | throw e => rw [h] at this; exact this
      | ub => rw [h] at this; exact this
      | ok f => rw [h] at this; exact this
    have get : ParAgrees (Joint.next (ParWorld.getEntries convI l frame ⟨w, false⟩) fun q =>
        (.ok (), { q with sess := { q.sess with readIn := q.sess.readIn ++ [l] } }))
        ((do let s' ← w.sess.getEntries l frame w.file
             pure ({ s' with readIn := s'.readIn ++ [l] }, w.file)).bind fun st =>
          .ok { w with sess := st.1, file := st.2 }) := by
      have := (getEntries_agrees hcI hr hu frame).next (f := fun q =>
        (.ok (), { q with sess := { q.sess with readIn := q.sess.readIn ++ [l] } }))
        (g := fun w1 => .ok { w1 with sess := { w1.sess with readIn := w1.sess.readIn ++ [l] } })
        fun w1 _ => agrees_ok _
      cases h : w.sess.getEntries l frame w.file with
      | throw e => rw [h] at this; exact this
      | ub => rw [h] at this; exact this
      | ok f => rw [h] at this; exact this
    cases hmo : w.sess.mode with
    | read => exact absurd hmo hm
    | write =>
      dsimp only
      by_cases hl : l ∈ w.sess.written
      · rw [if_pos hl, if_pos hl]; exact agrees_ok w
      · rw [if_neg hl, if_neg hl]; dsimp only at put; rw [hmo] at put; exact put
    | overwrite =>
      dsimp only
      by_cases hl : l ∈ w.sess.written
      · rw [if_pos hl, if_pos hl]; exact agrees_ok w
      · rw [if_neg hl, if_neg hl]; dsimp only at put; rw [hmo] at put; exact put
    | append =>
      dsimp only
      by_cases hl : l ∈ w.sess.readIn
      · rw [if_pos hl, if_pos hl]; exact agrees_ok w
      · rw [if_neg hl, if_neg hl]; exact get

theorem entriesR_agrees (hcI : convI.Faithful) (hr : ParWorld.Ready ⟨w, false⟩) {x : SessVar}
    (hx : x ∈ w.sess.vars) : ParAgrees (ParWorld.entriesForRead convI x ⟨w, false⟩) (w.entriesR x) := by
  unfold ParWorld.entriesForRead World.entriesR Sess.entriesForRead
  cases hxl : x.localName with
  | none => exact agrees_ok w
  | some l =>
    have hu : Used w.sess l := .inl ⟨x, hx, hxl⟩
    dsimp only
    by_cases hl : l ∈ w.sess.readIn
    · rw [if_pos hl, if_pos hl]; exact agrees_ok w
    · rw [if_neg hl, if_neg hl]
      have := (getEntries_agrees hcI hr hu 0).next (f := fun q =>
        (.ok (), { q with sess := { q.sess with readIn := q.sess.readIn ++ [l] } }))
        (g := fun w1 => .ok { w1 with sess := { w1.sess with readIn := w1.sess.readIn ++ [l] } })
        fun w1 _ => agrees_ok _
      cases h : w.sess.getEntries l 0 w.file with
      | throw e => rw [h] at this; exact this
      | ub => rw [h] at this; exact this
      | ok f => rw [h] at this; exact this

theorem write1_keeps {frame : Int} {n : String} (h : w.write1 frame n = .ok w') : ParKeeps w w' := by
  unfold World.write1 at h
  split at h
  · obtain ⟨w1, h1, h⟩ := Res.bind_eq_ok.1 h
    obtain ⟨f, h2, h⟩ := Res.bind_eq_ok.1 h
    cases h
    exact (entriesW_keeps h1).trans (putVar_keeps h2)
  · obtain ⟨f, h2, h⟩ := Res.bind_eq_ok.1 h
    cases h
    exact putEntries_keeps h2

theorem read1_keeps {frame : Int} {n : String} (h : w.read1 frame n = .ok w') : ParKeeps w w' := by
  unfold World.read1 at h
  split at h
  · obtain ⟨w1, h1, h⟩ := Res.bind_eq_ok.1 h
    obtain ⟨f, h2, h⟩ := Res.bind_eq_ok.1 h
    cases h
    exact (entriesR_keeps h1).trans (keeps_mem _ _)
  · obtain ⟨f, h2, h⟩ := Res.bind_eq_ok.1 h
    cases h
    exact getEntries_keeps h2

theorem each_keeps {f : String → World α → Res (World α)} (hf : ∀ n w w', f n w = .ok w' → ParKeeps w w')
    {ns : List String} (h : World.each f ns w = .ok w') : ParKeeps w w' := by
  induction ns generalizing w with
  | nil => cases h; exact ParKeeps.refl _
  | cons n ns ih =>
    rw [World.each] at h
    obtain ⟨w1, h1, h⟩ := Res.bind_eq_ok.1 h
    exact (hf n w w1 h1).trans (ih h)

theorem parFind_mem {n : String} {x : SessVar} (h : w.sess.find n = some x) : x ∈ w.sess.vars := List.mem_of_find?_eq_some h

/-- The names are not those of hidden variables. -/
def Names (s : Sess) (ns : List String) : Prop := ∀ n ∈ ns, n ∈ s.vars.map SessVar.name ∨ s.hidden n = none

theorem Names.none {n : String} {ns : List String} (h : Names w.sess (n :: ns)) (hf : w.sess.find n = none) :
    w.sess.hidden n = none := by
  rcases h n (List.mem_cons_self ..) with h | h
  · obtain ⟨x, hx, rfl⟩ := List.mem_map.1 h
    have := List.find?_eq_none.1 hf x hx
    simp at this
  · exact h

theorem Names.tail {s : Sess} {n : String} {ns : List String} (h : Names s (n :: ns)) : Names s ns :=
  fun m hm => h m (List.mem_cons_of_mem _ hm)

theorem Names.keeps {ns : List String} (h : Names w.sess ns) (k : ParKeeps w w') : Names w'.sess ns := by
  intro n hn
  rw [k.vars, k.hidden]
  exact h n hn

theorem writeNames_agrees (hc : conv.Faithful) (hcI : convI.Faithful) (hr : ParWorld.Ready ⟨w, false⟩)
    (hm : w.sess.mode ≠ .read) (frame : Int) {ns : List String}
    (hn : Names w.sess ns) : ParAgrees (ParWorld.writeNames conv convI frame ns ⟨w, false⟩) (World.each (World.write1 frame) ns w) := by
  induction ns generalizing w with
  | nil => exact agrees_ok w
  | cons n ns ih =>
    rw [ParWorld.writeNames, World.each]
    refine ParAgrees.next ?_ fun w1 h1 => ?_
    · unfold World.write1
      dsimp only
      cases hx : w.sess.find n with
      | none => exact putEntries_agrees hcI hr hm (.inr (hn.none hx)) frame
      | some x =>
        refine (entriesW_agrees hcI hr hm (parFind_mem hx) frame).next fun w1 h1 => ?_
        have k := entriesW_keeps h1
        exact putVar_agrees hc (k.ready hr) (by rw [k.mode]; exact hm) (by rw [k.vars]; exact parFind_mem hx) frame
    · have k := write1_keeps h1
      exact ih (k.ready hr) (by rw [k.mode]; exact hm) (hn.tail.keeps k)

theorem readNames_agrees (hc : conv.Faithful) (hcI : convI.Faithful) (hr : ParWorld.Ready ⟨w, false⟩)
    (frame : Int) {ns : List String}
    (hn : Names w.sess ns) : ParAgrees (ParWorld.readNames conv convI frame ns ⟨w, false⟩) (World.each (World.read1 frame) ns w) := by
  induction ns generalizing w with
  | nil => exact agrees_ok w
  | cons n ns ih =>
    rw [ParWorld.readNames, World.each]
    refine ParAgrees.next ?_ fun w1 h1 => ?_
    · unfold World.read1
      dsimp only
      cases hx : w.sess.find n with
      | none => exact getEntries_agrees hcI hr (.inr (hn.none hx)) frame
      | some x =>
        refine (entriesR_agrees hcI hr (parFind_mem hx)).next fun w1 h1 => ?_
        have k := entriesR_keeps h1
        exact getVar_agrees hc (k.ready hr) (by rw [k.vars]; exact parFind_mem hx) frame
    · have k := read1_keeps h1
      exact ih (k.ready hr) (hn.tail.keeps k)

/-- Writing to a file opened for reading succeeds if it makes no request, and does so in both builds. -/
theorem writeNames_read (hc : conv.Faithful) (hr : ParWorld.Ready ⟨w, false⟩) (hm : w.sess.mode = .read) {frame : Int}
    {ns : List String} (h : World.each (World.write1 frame) ns w = .ok w') :
    ParWorld.writeNames conv convI frame ns ⟨w, false⟩ = (.ok (), ⟨w', false⟩) := by
  induction ns generalizing w with
  | nil => cases h; rfl
  | cons n ns ih =>
    rw [World.each] at h
    obtain ⟨w1, h1, h⟩ := Res.bind_eq_ok.1 h
    have k := write1_keeps h1
    have h2 := ih (k.ready hr) (by rw [k.mode]; exact hm) h
    unfold World.write1 at h1
    rw [ParWorld.writeNames]
    dsimp only
    cases hx : w.sess.find n with
    | none =>
      rw [hx] at h1
      obtain ⟨f, h3, -⟩ := Res.bind_eq_ok.1 h1
      unfold Sess.putEntries at h3
      split at h3
      · rw [if_pos hm] at h3; cases h3
      · cases h3
    | some x =>
      rw [hx] at h1
      obtain ⟨w2, h3, h5⟩ := Res.bind_eq_ok.1 h1
      obtain ⟨f, h4, h6⟩ := Res.bind_eq_ok.1 h5
      have e2 : w2 = w ∧ ParWorld.entriesForWrite convI x frame ⟨w, false⟩ = (.ok (), ⟨w, false⟩) := by
        unfold World.entriesW Sess.entriesForWrite at h3
        unfold ParWorld.entriesForWrite
        dsimp only
        rw [hm] at h3 ⊢
        cases hl : x.localName with
        | none => rw [hl] at h3; cases h3; exact ⟨rfl, rfl⟩
        | some l => rw [hl] at h3; cases h3; exact ⟨rfl, rfl⟩
      obtain ⟨rfl, e3⟩ := e2
      dsimp only
      rw [e3]
      dsimp only [Joint.next]
      rw [putVar_read hc hr hm (parFind_mem hx) h4]
      cases h6
      exact h2

theorem par_write (hc : conv.Faithful) (hcI : convI.Faithful) (hr : ParWorld.Ready ⟨w, false⟩) (frame : Int)
    {ns : List String} (hn : Names w.sess ns) :
    ((writeNames w.mem frame ns (w.sess, w.file)).1 = .ok () →
        ParWorld.writeNames conv convI frame ns ⟨w, false⟩ =
          (.ok (), ⟨{ w with sess := (writeNames w.mem frame ns (w.sess, w.file)).2.1,
                             file := (writeNames w.mem frame ns (w.sess, w.file)).2.2 }, false⟩) ∧
        ParKeeps w { w with sess := (writeNames w.mem frame ns (w.sess, w.file)).2.1,
                            file := (writeNames w.mem frame ns (w.sess, w.file)).2.2 }) ∧
      (w.sess.mode ≠ .read → (ParWorld.writeNames conv convI frame ns ⟨w, false⟩).1 = .ok () →
        (writeNames w.mem frame ns (w.sess, w.file)).1 = .ok ()) := by
  obtain ⟨a, b⟩ := writeNames_each (w := w) (frame := frame) (ns := ns)
  constructor
  · intro h
    obtain ⟨w', h'⟩ := b h
    obtain ⟨h1, h2⟩ := a w' h'
    have e : ({ w with sess := (writeNames w.mem frame ns (w.sess, w.file)).2.1,
                       file := (writeNames w.mem frame ns (w.sess, w.file)).2.2 } : World α) = w' := by
      rw [h1, ← h2]
    rw [e]
    refine ⟨?_, each_keeps (fun n w w' => write1_keeps) h'⟩
    by_cases hm : w.sess.mode = .read
    · exact writeNames_read hc hr hm h'
    · exact (writeNames_agrees hc hcI hr hm frame hn).1 w' h'
  · intro hm h
    obtain ⟨w', h'⟩ := (writeNames_agrees hc hcI hr hm frame hn).2 h
    rw [(a w' h').1]

theorem par_read (hc : conv.Faithful) (hcI : convI.Faithful) (hr : ParWorld.Ready ⟨w, false⟩) (frame : Int)
    {ns : List String} (hn : Names w.sess ns) :
    ((readNames w.file frame ns (w.sess, w.mem)).1 = .ok () →
        ParWorld.readNames conv convI frame ns ⟨w, false⟩ =
          (.ok (), ⟨{ w with sess := (readNames w.file frame ns (w.sess, w.mem)).2.1,
                             mem := (readNames w.file frame ns (w.sess, w.mem)).2.2 }, false⟩) ∧
        ParKeeps w { w with sess := (readNames w.file frame ns (w.sess, w.mem)).2.1,
                            mem := (readNames w.file frame ns (w.sess, w.mem)).2.2 }) ∧
      ((ParWorld.readNames conv convI frame ns ⟨w, false⟩).1 = .ok () →
        (readNames w.file frame ns (w.sess, w.mem)).1 = .ok ()) := by
  obtain ⟨a, b⟩ := readNames_each (w := w) (frame := frame) (ns := ns)
  constructor
  · intro h
    obtain ⟨w', h'⟩ := b h
    obtain ⟨h1, h2⟩ := a w' h'
    have e : ({ w with sess := (readNames w.file frame ns (w.sess, w.mem)).2.1,
                       mem := (readNames w.file frame ns (w.sess, w.mem)).2.2 } : World α) = w' := by
      rw [h1, ← h2]
    rw [e]
    exact ⟨(readNames_agrees hc hcI hr frame hn).1 w' h', each_keeps (fun n w w' => read1_keeps) h'⟩
  · intro h
    obtain ⟨w', h'⟩ := (readNames_agrees hc hcI hr frame hn).2 h
    rw [(a w' h').1]

theorem own_names (s : Sess) : Names s s.names := fun _ hn => .inl hn

theorem par_step (hc : conv.Faithful) (hcI : convI.Faithful) (hr : ParWorld.Ready ⟨w, false⟩) {op : FileOp (Memory α)}
    (ho : NoHidden w.sess.vars w.sess.hidden op) :
    ((w.step op).1 = .ok () → ParWorld.step conv convI ⟨w, false⟩ op = (.ok (), ⟨(w.step op).2, false⟩) ∧
        ParKeeps w (w.step op).2) ∧
      (op.Allowed w.sess.mode → (ParWorld.step conv convI ⟨w, false⟩ op).1 = .ok () → (w.step op).1 = .ok ()) := by
  cases op with
  | appendFrame =>
    exact ⟨fun _ => ⟨rfl, rfl, rfl, rfl, fun _ fv h => ⟨fv, h, rfl⟩, fun _ fv h => ⟨fv, h, rfl⟩⟩, fun _ _ => rfl⟩
  | compute m => exact ⟨fun _ => ⟨rfl, keeps_mem _ _⟩, fun _ _ => rfl⟩
  | write frame ns => exact par_write hc hcI hr frame (ns := ns) ho
  | writeAll frame => exact par_write hc hcI hr frame (own_names w.sess)
  | read frame ns => exact ⟨(par_read hc hcI hr frame (ns := ns) ho).1, fun _ => (par_read hc hcI hr frame (ns := ns) ho).2⟩
  | readAll frame =>
    exact ⟨(par_read hc hcI hr frame (own_names w.sess)).1, fun _ => (par_read hc hcI hr frame (own_names w.sess)).2⟩

theorem par_run (hc : conv.Faithful) (hcI : convI.Faithful) {ops : List (FileOp (Memory α))}
    (hr : ParWorld.Ready ⟨w, false⟩) (ho : ∀ op ∈ ops, NoHidden w.sess.vars w.sess.hidden op)
    (h : ∀ o ∈ (w.run ops).1, o = .ok ()) :
    ParWorld.run conv convI ⟨w, false⟩ ops = (ops.map fun _ => .ok (), ⟨(w.run ops).2, false⟩) ∧ ParKeeps w (w.run ops).2 := by
  induction ops generalizing w with
  | nil => exact ⟨rfl, ParKeeps.refl w⟩
  | cons op ops ih =>
    rw [World.run] at h ⊢
    dsimp only at h ⊢
    obtain ⟨h1, k⟩ := (par_step hc hcI hr (ho op (List.mem_cons_self ..))).1 (h _ (List.mem_cons_self ..))
    obtain ⟨h2, k'⟩ := ih (k.ready hr) (fun op hop => by
      rw [k.vars, k.hidden]; exact ho op (List.mem_cons_of_mem _ hop)) fun o ho => h o (List.mem_cons_of_mem _ ho)
    refine ⟨?_, k.trans k'⟩
    rw [ParWorld.run, h1]
    dsimp only
    rw [h2]
    rfl

end
end Verif.NetCDF
