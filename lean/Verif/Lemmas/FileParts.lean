import Verif.Spec.FileParts
import Verif.Lemmas.FileRanks
/-
Lemmas for programs that use only some of the fields of a file.
-/
namespace Verif
open Verif.NetCDF Verif.Ccoord Verif.Props

/-! ### What a session leaves alone -/

section
variable {α : Type}

theorem getEntries_keeps {s s' : Sess} {l : String} {frame : Int} {file : NcFile α}
    (h : s.getEntries l frame file = .ok s') : s'.mode = s.mode ∧ s'.vars = s.vars ∧ s'.hidden = s.hidden := by
  unfold Sess.getEntries at h
  split at h
  · rw [Res.bind_eq_ok] at h
    obtain ⟨ms, -, h⟩ := h
    cases h
    exact ⟨rfl, rfl, rfl⟩
  · cases h

/-- Nothing changes in the file but the variables of the session. -/
structure Beside (s s' : Sess) (file file' : NcFile α) : Prop where
  mode : s'.mode = s.mode
  vars : s'.vars = s.vars
  hidden : s'.hidden = s.hidden
  others : ∀ n, n ∉ s.vars.map SessVar.name → file'.vars n = file.vars n
  entries : s.mode = .read ∨ s.mode = .append → file'.hidden = file.hidden
  grows : file.numrecs ≤ file'.numrecs
  reading : s.mode = .read → file' = file

theorem Beside.rfl' (s : Sess) (file : NcFile α) : Beside s s file file :=
  ⟨rfl, rfl, rfl, fun _ _ => rfl, fun _ => rfl, le_refl _, fun _ => rfl⟩

theorem Beside.trans {s s' s'' : Sess} {f f' f'' : NcFile α} (h : Beside s s' f f') (h' : Beside s' s'' f' f'') :
    Beside s s'' f f'' :=
  ⟨h'.mode.trans h.mode, h'.vars.trans h.vars, h'.hidden.trans h.hidden,
    fun n hn => (h'.others n (by rw [h.vars]; exact hn)).trans (h.others n hn),
    fun hm => (h'.entries (by rw [h.mode]; exact hm)).trans (h.entries hm), le_trans h.grows h'.grows,
    fun hm => (h'.reading (by rw [h.mode]; exact hm)).trans (h.reading hm)⟩

theorem putVar_beside {s : Sess} {mem : Memory α} {x : SessVar} {frame : Int} {file file' : NcFile α} (hx : x ∈ s.vars)
    (h : s.putVar mem x frame file = .ok file') : Beside s s file file' := by
  unfold Sess.putVar at h
  split at h
  · cases h
  · split at h
    · split at h
      · rw [Res.bind_eq_ok] at h
        obtain ⟨fr, -, h⟩ := h
        rw [Res.bind_eq_ok] at h
        obtain ⟨fv', -, h⟩ := h
        cases h
        exact .rfl' ..
      · cases h
    · next hm =>
      rw [Res.bind_eq_ok] at h
      obtain ⟨fr, -, h⟩ := h
      rw [Res.bind_eq_ok] at h
      obtain ⟨fv', -, h⟩ := h
      cases h
      refine ⟨rfl, rfl, rfl, fun n hn => setAt_other _ ?_ _, fun _ => rfl, ?_, fun e => absurd e hm⟩
      · rintro rfl
        exact hn (List.mem_map_of_mem hx)
      · exact le_max_left _ _

theorem entriesForWrite_beside {s s' : Sess} {x : SessVar} {frame : Int} {file file' : NcFile α}
    (h : s.entriesForWrite x frame file = .ok (s', file')) : Beside s s' file file' := by
  unfold Sess.entriesForWrite at h
  split at h
  · cases h; exact .rfl' ..
  · next l _ =>
    have put : ∀ {f' : NcFile α}, s.mode ≠ .read → s.mode ≠ .append → s.putEntries l 0 file = .ok f' →
        Beside s { s with written := s.written ++ [l] } file f' := by
      intro f' h1 h2 hp
      unfold Sess.putEntries at hp
      split at hp
      · rw [if_neg h1, Res.bind_eq_ok] at hp
        obtain ⟨fv', -, hp⟩ := hp
        cases hp
        exact ⟨rfl, rfl, rfl, fun _ _ => rfl, fun e => (e.elim h1 h2).elim, le_refl _, fun e => absurd e h1⟩
      · cases hp
    split at h
    · next hm =>
      split at h
      · cases h; exact .rfl' ..
      · rw [Res.bind_eq_ok] at h
        obtain ⟨f', hp, h⟩ := h
        cases h
        exact put (by rw [hm]; simp) (by rw [hm]; simp) hp
    · next hm =>
      split at h
      · cases h; exact .rfl' ..
      · rw [Res.bind_eq_ok] at h
        obtain ⟨f', hp, h⟩ := h
        cases h
        exact put (by rw [hm]; simp) (by rw [hm]; simp) hp
    · split at h
      · cases h; exact .rfl' ..
      · rw [Res.bind_eq_ok] at h
        obtain ⟨s1, hp, h⟩ := h
        cases h
        obtain ⟨e1, e2, e3⟩ := getEntries_keeps hp
        exact ⟨e1, e2, e3, fun _ _ => rfl, fun _ => rfl, le_refl _, fun _ => rfl⟩
    · cases h; exact .rfl' ..

theorem find_mem {s : Sess} {n : String} {x : SessVar} (h : s.find n = some x) : x ∈ s.vars :=
  List.mem_of_find?_eq_some h

theorem writeNames_beside {mem : Memory α} (frame : Int) (names : List String) {s : Sess} {file : NcFile α}
    (hn : ∀ n ∈ names, n ∈ s.vars.map SessVar.name ∨ s.hidden n = none) :
    Beside s (writeNames mem frame names (s, file)).2.1 file (writeNames mem frame names (s, file)).2.2 := by
  induction names generalizing s file with
  | nil => exact .rfl' ..
  | cons n ns ih =>
    rw [writeNames]
    cases hf : s.find n with
    | some x =>
      dsimp only
      cases he : s.entriesForWrite x frame file with
      | ok st1 =>
        obtain ⟨s1, f1⟩ := st1
        have b1 := entriesForWrite_beside he
        dsimp only
        cases hp : s1.putVar mem x frame f1 with
        | ok f2 =>
          have b2 := putVar_beside (by rw [b1.vars]; exact find_mem hf) hp
          exact (b1.trans b2).trans (ih fun m hm => by rw [b1.vars, b1.hidden]; exact hn m (by simp [hm]))
        | throw e => exact b1
        | ub => exact b1
      | throw e => exact .rfl' ..
      | ub => exact .rfl' ..
    | none =>
      dsimp only
      have hh : s.hidden n = none := by
        refine (hn n (by simp)).resolve_left fun hm => ?_
        obtain ⟨x, hx, -, hf'⟩ := find_known hm
        rw [Sess.find, hf'] at hf
        cases hf
      have : s.putEntries n frame file = .throw .fileIOError := by
        unfold Sess.putEntries
        rw [hh]
      rw [this]
      exact .rfl' ..

theorem readNames_keeps {file : NcFile α} (frame : Int) (names : List String) {s : Sess} {mem : Memory α} :
    Beside s (readNames file frame names (s, mem)).2.1 file file := by
  induction names generalizing s mem with
  | nil => exact .rfl' ..
  | cons n ns ih =>
    have one : ∀ {s1 : Sess}, s1.mode = s.mode ∧ s1.vars = s.vars ∧ s1.hidden = s.hidden → Beside s s1 file file :=
      fun e => ⟨e.1, e.2.1, e.2.2, fun _ _ => rfl, fun _ => rfl, le_refl _, fun _ => rfl⟩
    rw [readNames]
    cases hf : s.find n with
    | some x =>
      dsimp only
      cases he : s.entriesForRead x file with
      | ok s1 =>
        have b1 : Beside s s1 file file := by
          unfold Sess.entriesForRead at he
          split at he
          · cases he; exact .rfl' ..
          · split at he
            · cases he; exact .rfl' ..
            · rw [Res.bind_eq_ok] at he
              obtain ⟨s2, hp, he⟩ := he
              cases he
              obtain ⟨a, b, c⟩ := getEntries_keeps hp
              exact one ⟨a, b, c⟩
        dsimp only
        cases hp : s1.getVar file x frame mem with
        | ok m2 => exact b1.trans ih
        | throw e => exact b1
        | ub => exact b1
      | throw e => exact .rfl' ..
      | ub => exact .rfl' ..
    | none =>
      dsimp only
      cases hp : s.getEntries n frame file with
      | ok s1 => exact (one (getEntries_keeps hp)).trans ih
      | throw e => exact .rfl' ..
      | ub => exact .rfl' ..

theorem run_beside (ops : List (FileOp (Memory α))) {w : World α} (hn : ∀ op ∈ ops, NoHidden w.sess.vars w.sess.hidden op) :
    Beside w.sess (w.run ops).2.sess w.file (w.run ops).2.file := by
  induction ops generalizing w with
  | nil => exact .rfl' ..
  | cons op ops ih =>
    have key : Beside w.sess (w.step op).2.sess w.file (w.step op).2.file := by
      cases op with
      | appendFrame => exact ⟨rfl, rfl, rfl, fun _ _ => rfl, fun _ => rfl, le_refl _, fun _ => rfl⟩
      | write fr ns => exact writeNames_beside fr ns (hn (.write fr ns) (by simp))
      | writeAll fr => exact writeNames_beside fr _ fun n hn => Or.inl hn
      | read fr ns => exact readNames_keeps fr ns
      | readAll fr => exact readNames_keeps fr _
      | compute m => exact .rfl' ..
    refine key.trans (ih fun op' hop => ?_)
    rw [key.vars, key.hidden]
    exact hn op' (by simp [hop])

/-- The table of a session: columns of other variables stay as they are. -/
theorem Table.write_beside {V : Type} {known : List String} {frame : Int} : ∀ (names : List String) (t : Table V),
    ∀ fr n, n ∉ known → (t.write known frame names).2.cell fr n = t.cell fr n
  | [], _, _, _, _ => rfl
  | m :: ns, t, fr, n, hn => by
    rw [Table.write]
    split
    · next hk =>
      cases hm : meantFrame t.nb frame with
      | none => rfl
      | some f =>
        dsimp only
        rw [Table.write_beside ns _ fr n hn]
        simp only [Table.put]
        rw [if_neg]
        rintro ⟨-, rfl⟩
        exact hn hk.2
    · rfl

theorem Table.read_cell {V : Type} {known : List String} {frame : Int} : ∀ (names : List String) (t : Table V),
    (t.read known frame names).2.cell = t.cell
  | [], _ => rfl
  | m :: ns, t => by
    rw [Table.read]
    split
    · cases hm : meantFrame t.nb frame with
      | none => rfl
      | some f =>
        dsimp only
        cases hc : t.cell f m with
        | none => rfl
        | some v => exact Table.read_cell ns _
    · rfl

theorem Table.run_beside {V : Type} {known : List String} : ∀ (ops : List (FileOp (String → V))) (t : Table V),
    ∀ fr n, n ∉ known → (t.run known ops).2.cell fr n = t.cell fr n
  | [], _, _, _, _ => rfl
  | op :: ops, t, fr, n, hn => by
    rw [Table.run]
    dsimp only
    rw [Table.run_beside ops _ fr n hn]
    cases op with
    | appendFrame => rfl
    | write frame names => exact Table.write_beside names t fr n hn
    | writeAll frame => exact Table.write_beside known t fr n hn
    | read frame names => exact congrFun (congrFun (Table.read_cell names t) fr) n
    | readAll frame => exact congrFun (congrFun (Table.read_cell known t) fr) n
    | compute c => rfl

end

/-! ### Some of the fields -/

section
variable {dom : List Int} {rs rs' : List FileRank} {mode : OpenMode} {F : FileRank → Reg}

theorem part_entry {r r' : FileRank} (h : ∀ c' ∈ r'.colls, ∃ c ∈ r.colls, c'.PartOf c) {e'} (he' : e' ∈ r'.entries) :
    ∃ e ∈ r.entries, e.1 = e'.1 ∧ e.2.1 = e'.2.1 ∧ e.2.2.2 = e'.2.2.2 ∧
      e.2.2.1.layout.comps = e'.2.2.1.layout.comps ∧ e.2.2.1.layout.nbSub = e'.2.2.1.layout.nbSub ∧
      e.2.2.1.ty = e'.2.2.1.ty ∧ e.2.2.1.tag = e'.2.2.1.tag := by
  obtain ⟨c', hc', he'⟩ := List.mem_flatMap.1 he'
  obtain ⟨x', hx', rfl⟩ := List.mem_map.1 he'
  obtain ⟨c, hc, hk, hs⟩ := h c' hc'
  obtain ⟨x, hx, e⟩ := List.mem_map.1 (hs _ (List.mem_map.2 ⟨x', hx', rfl⟩))
  simp only [Prod.mk.injEq] at e
  obtain ⟨e1, e2, e3, e4, e5, e6⟩ := e
  exact ⟨(c.kind, x), List.mem_flatMap.2 ⟨c, hc, List.mem_map.2 ⟨x, hx, rfl⟩⟩, hk.symm, e1, e2, e4, e5, e6, e3⟩

theorem part_local {d : List Int × List Int × List Int} {r r' : FileRank}
    (h : ∀ c' ∈ r'.colls, ∃ c ∈ r.colls, c'.PartOf c) (hc : CollsOk d r.colls)
    {l : String} {ids' : List Int} {total off' : Int} (hl : r'.localColl l = some (ids', total, off')) :
    ∃ ids off, r.localColl l = some (ids, total, off) := by
  obtain ⟨c', hc', rfl, hd'⟩ := FileRank.localColl_mem hl
  obtain ⟨c, hcm, hk, -⟩ := h c' hc'
  have hk : c.kind = some (c'.name, total) := by
    rw [← hk, IoColl.kind, hd']
  obtain ⟨e, ids, off, hd⟩ := kind_some hk
  exact ⟨ids, off, e ▸ hc.localColl hcm hd⟩

theorem _root_.Verif.NetCDF.IoColl.PartOf.stored {c c' : IoColl} (h : c'.PartOf c) : SameStored c c' := by
  obtain ⟨hk, hs⟩ := h
  refine ⟨?_, fun x' hx' => ?_⟩
  · rw [IoColl.kind, IoColl.kind] at hk
    cases hd : c.domain <;> cases hd' : c'.domain <;> rw [hd, hd'] at hk <;> simp at hk ⊢
    exact ⟨hk.2.symm, hk.1.symm⟩
  · obtain ⟨x, hx, e⟩ := List.mem_map.1 (hs _ (List.mem_map.2 ⟨x', hx', rfl⟩))
    simp only [Prod.mk.injEq] at e
    obtain ⟨e1, e2, e3, e4, e5, e6⟩ := e
    exact ⟨x, hx, e1, e2, e3, e4, e5⟩

theorem fits_of_part {D : FileDesc} (h : ProgramOk dom rs) (hD : Fits D dom rs) (h' : ProgramOk dom rs')
    (hs : PartData rs rs') : Fits D dom rs' := by
  obtain ⟨r0, h0⟩ := List.exists_mem_of_ne_nil rs h.nonempty
  have hloc : ∀ r' ∈ rs', ∀ l ids t off, r'.localColl l = some (ids, t, off) →
      ∀ r ∈ rs, ∃ ids off, r.localColl l = some (ids, t, off) := fun r' hr' l ids t off hl r hr =>
    part_local (hs.each r hr r' hr') (h.colls r hr) hl
  have hbox : ∀ r' ∈ rs', ∀ g, r'.Here g → InBox dom g := by
    intro r hr g hg
    have := (h'.colls r hr).inside
    rw [h'.domain r hr] at this
    exact inBox_of_within this hg
  refine ⟨hD.dom_eq, ?_, hD.fld_dom, ?_, ?_, ?_, ?_⟩
  · intro r' hr' e he
    obtain ⟨e', he', e1, e2, e3, e4, e5, e6, -⟩ := part_entry (hs.each r0 h0 r' hr') he
    obtain ⟨f1, f2, f3⟩ := hD.fld r0 h0 e' he'
    rw [e2] at f1 f2 f3
    exact ⟨e4.symm.trans f1, e5.symm.trans f2, e6.symm.trans f3⟩
  · intro r' hr' l ids t off hl
    obtain ⟨ids0, off0, hl0⟩ := hloc r' hr' l _ _ _ hl r0 h0
    exact hD.total r0 h0 l _ _ _ hl0
  · intro r' hr' l x hl q hq
    obtain ⟨ids, t, off⟩ := x
    have hname : l ∈ localNames rs' := by
      rw [h'.localNames_iff hr', hl]; simp
    have hpl := FileRank.places (h'.colls r' hr').inside
    constructor
    · intro hm
      obtain ⟨r, hr, id, hid, hc⟩ := (hs.pixels l hname _).2 ⟨r', hr', q, hm, rfl⟩
      obtain ⟨ids0, off0, hl0⟩ := hloc r' hr' l _ _ _ hl r hr
      have hb := (h.ids_ok hr l).2 id hid
      have := (hD.marked r hr l _ hl0 id.toNat (by omega)).1 (by rw [Int.toNat_of_nonneg hb.1]; exact hid)
      rw [Int.toNat_of_nonneg hb.1, hc] at this
      exact this
    · intro hne
      have hh := (hpl.1 q hq).1
      obtain ⟨r, hr, hhr⟩ := h.cover _ (hbox r' hr' _ hh)
      obtain ⟨q1, hq1, hc1⟩ := (FileRank.places (h.colls r hr).inside).2 _ hhr
      obtain ⟨ids0, off0, hl0⟩ := hloc r' hr' l _ _ _ hl r hr
      rw [← hc1] at hne
      have hm1 := (hD.marked r hr l _ hl0 q1 hq1).2 hne
      obtain ⟨r2, hr2, id2, hid2, hc2⟩ := (hs.pixels l hname _).1 ⟨r, hr, q1, hm1, hc1⟩
      have hb := (h'.ids_ok hr2 l).2 id2 hid2
      have e2 : ((id2.toNat : Nat) : Int) = id2 := Int.toNat_of_nonneg hb.1
      have hpl2 := FileRank.places (h'.colls r2 hr2).inside
      have hh2 := (hpl2.1 id2.toNat (by omega)).1
      rw [e2, hc2] at hh2
      have er := h'.hereOf hr' hr2 hh hh2
      subst er
      have := FileRank.coord_inj (h'.colls r' hr').inside hq (show id2.toNat < r'.size by omega) (by rw [e2, hc2])
      rw [this, e2]
      exact hid2
  · intro r' hr' l x hl g hg
    obtain ⟨ids, t, off⟩ := x
    obtain ⟨ids0, off0, hl0⟩ := hloc r' hr' l _ _ _ hl r0 h0
    exact hD.range r0 h0 l _ hl0 g hg
  · intro r' hr' l x hl g g' hg hg'
    obtain ⟨ids, t, off⟩ := x
    obtain ⟨ids0, off0, hl0⟩ := hloc r' hr' l _ _ _ hl r0 h0
    exact hD.inj r0 h0 l _ hl0 g g' hg hg'

theorem signature_part {mode' : OpenMode} {F' : FileRank → Reg} (h : ProgramOk dom rs) (hF : ∀ r ∈ rs, RegOf mode r (F r))
    (h' : ProgramOk dom rs') (hF' : ∀ r ∈ rs', RegOf mode' r (F' r)) (hs : PartData rs rs') :
    ∀ x' ∈ joinVars (rs'.map F'), ∃ x ∈ joinVars (rs.map F), signature x = signature x' := by
  obtain ⟨r0, rest, hrs⟩ : ∃ r0 rest, rs = r0 :: rest := by
    cases hrs : rs with
    | nil => exact absurd hrs h.nonempty
    | cons a l => exact ⟨a, l, rfl⟩
  obtain ⟨r0', rest', hrs'⟩ : ∃ r0 rest, rs' = r0 :: rest := by
    cases hrs' : rs' with
    | nil => exact absurd hrs' h'.nonempty
    | cons a l => exact ⟨a, l, rfl⟩
  rw [joinVars_eq h hF hrs, joinVars_eq h' hF' hrs']
  intro x' hx'
  obtain ⟨e', he', rfl⟩ := List.mem_map.1 hx'
  obtain ⟨e, he, e1, e2, e3, -⟩ := part_entry (hs.each r0 (by rw [hrs]; simp) r0' (by rw [hrs']; simp)) he'
  refine ⟨varOf rs e, List.mem_map_of_mem he, ?_⟩
  simp only [signature, varOf, e1, e2, e3]

theorem regOf_part (h : ProgramOk dom rs) (hm : mode = .write ∨ mode = .overwrite) {r : FileRank} (hr : r ∈ rs)
    (h' : ProgramOk dom rs') (hs : PartData rs rs') {mode' : OpenMode} (hm' : mode' = .read ∨ mode' = .append)
    (numrecs : Int) {r' : FileRank} (hr' : r' ∈ rs') :
    let w := regOf mode [] [] 0 r
    let s := regOf mode' w.fileDims w.fileVars numrecs r'
    (∀ o ∈ ((Reg.opened mode' w.fileDims w.fileVars numrecs).run (registerAll r'.colls)).1, o = .ok ()) ∧
      RegOf mode' r' s ∧ s.fileDims = w.fileDims ∧ s.fileVars = w.fileVars ∧ s.nbFrames = numrecs := by
  intro w s
  obtain ⟨h1, K, h2⟩ := run_again (h.colls r hr) hm (h'.colls r' hr') ((h'.domain r' hr').trans (h.domain r hr).symm)
    (fun c' hc' => by
      obtain ⟨c, hc, e⟩ := hs.each r hr r' hr' c' hc'
      exact ⟨c, hc, e.stored⟩) hm' numrecs
  have hnot : ∀ {m : OpenMode}, (m = .read ∨ m = .append) → ¬ (m = .write ∨ m = .overwrite) := by
    rintro m (rfl | rfl) <;> simp
  refine ⟨h1, ⟨h2.vars, ?_⟩, h2.fileDims_eq, h2.fileVars_eq, h2.nbFrames⟩
  exact h2.gfc.trans (by rw [collMarks_congr (m' := mode') ⟨fun e => absurd e (hnot h2.mode), fun e => absurd e (hnot hm')⟩])

end

end Verif
