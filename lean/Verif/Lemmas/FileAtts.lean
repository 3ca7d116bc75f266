import Verif.Spec.FileAtts
import Mathlib.Data.List.Nodup
/-
Helper lemmas for the global attributes of files.
-/
namespace Verif.NetCDFAtt
open Verif Verif.NetCDF

variable {V : Type}

/-- What relates the state of the file object to the table. -/
structure AttRel (t : AttTable V) (s : AttFile V) : Prop where
  entries : s.atts.map GAtt.inFile = t.entries
  ok : AttsOk t.entries
  isNew : t.isNew = creating s.mode
  writable : t.writable = decide (s.mode ≠ .read)
  touched : t.touched = s.changed
  registered : t.registered = s.registered
  flag : s.flag ≠ .undefined
  written : ∀ g ∈ s.atts, g.written = t.stored
  file : s.file = if t.stored then t.entries else []
  new : t.isNew = true → t.stored = s.defined ∧ (s.libDefine = true ↔ s.flag = .define) ∧
    (s.registered = true → s.flag = .data)
  old : t.isNew = false → t.stored = true ∧ s.libDefine = false

theorem creating_ne_read {m : OpenMode} (h : creating m = true) : m ≠ .read := by
  cases m <;> simp_all [creating]

theorem names_eq {t : AttTable V} {s : AttFile V} (h : AttRel t s) : s.names = t.names := by
  rw [AttTable.names, ← h.entries, List.map_map]; rfl

/-! ### Putting attributes into a file -/

theorem find_none {file : List (FileAtt V)} {n : String} (h : n ∉ file.map FileAtt.name) :
    file.find? (fun f => f.name = n) = none := by
  rw [List.find?_eq_none]
  intro f hf hn
  exact h (by simpa using ⟨f, hf, by simpa using hn⟩)

theorem putAll_new : ∀ (gs : List (GAtt V)) (file : List (FileAtt V)), (∀ g ∈ gs, g.written = false) →
    (file.map FileAtt.name ++ gs.map fun g => g.att.name).Nodup →
    AttFile.putAll true file gs = (.ok (), file ++ gs.map GAtt.inFile, gs.map fun g => { g with written := true })
  | [], file, _, _ => by simp [AttFile.putAll]
  | g :: gs, file, hw, hn => by
    have h0 : g.inFile.name ∉ file.map FileAtt.name := by
      intro h
      have := (List.nodup_append.1 hn).2.2 _ h g.att.name (by simp)
      exact this rfl
    have ih := putAll_new gs (file ++ [g.inFile]) (fun g' h' => hw g' (List.mem_cons_of_mem _ h')) (by
      simpa [GAtt.inFile] using hn)
    simp [AttFile.putAll, hw g List.mem_cons_self, AttFile.libPut, find_none h0, ih]

theorem saveCall_rel {t : AttTable V} {s : AttFile V} (h : AttRel t s) :
    ∃ s', s.saveCall = (.ok (), s') ∧ s'.mode = s.mode ∧ s'.flag = s.flag ∧ s'.libDefine = s.libDefine ∧
      AttRel { t with stored := true } s' := by
  by_cases hc : creating s.mode = true ∧ s.defined = false
  · have hn : t.isNew = true := by rw [h.isNew, hc.1]
    obtain ⟨h1, h2, h3⟩ := h.new hn
    have hst : t.stored = false := by rw [h1, hc.2]
    have hfile : s.file = [] := by rw [h.file, hst]; rfl
    have hput := putAll_new s.atts [] (fun g hg => by rw [h.written g hg, hst]) (by
      have := h.ok.nodup
      rw [← h.entries, List.map_map] at this
      simpa [Function.comp_def, GAtt.inFile] using this)
    have hdef : ∀ s0 : AttFile V, s0.mode = s.mode → s0.atts = s.atts → s0.defined = false → s0.flag = .define →
        s0.libDefine = true → s0.file = [] → s0.defineGlobal = (.ok (), { s0 with
          file := t.entries, atts := s.atts.map fun g => { g with written := true }, defined := true }) := by
      intro s0 a1 a2 a3 a4 a5 a6
      simp [AttFile.defineGlobal, a1, a2, a3, a4, a5, a6, hc.1, hput, h.entries]
    have hrel : ∀ s' : AttFile V, s'.mode = s.mode → s'.atts = (s.atts.map fun g => { g with written := true }) →
        s'.defined = true → s'.flag = s.flag → s'.libDefine = s.libDefine → s'.file = t.entries → s'.changed = s.changed →
        s'.registered = s.registered → AttRel { t with stored := true } s' := by
      intro s' a1 a2 a3 a4 a5 a6 a7 a8
      refine ⟨?_, h.ok, by rw [a1]; exact h.isNew, by rw [a1]; exact h.writable, by rw [a7]; exact h.touched,
        by rw [a8]; exact h.registered, by rw [a4]; exact h.flag, ?_, by simpa using a6,
        fun _ => ⟨a3.symm, by rw [a4, a5]; exact h2, by rw [a8, a4]; exact h3⟩, ?_⟩
      · rw [a2, List.map_map, ← h.entries]; rfl
      · rw [a2]
        intro g hg
        obtain ⟨g', -, rfl⟩ := List.mem_map.1 hg
        rfl
      · intro h'
        rw [show t.isNew = false from h'] at hn
        cases hn
    cases hf : s.flag with
    | undefined => exact absurd hf h.flag
    | define =>
      have hl : s.libDefine = true := h2.2 hf
      refine ⟨_, ?_, ?_, ?_, ?_, hrel { s with
          file := t.entries, atts := s.atts.map fun g => { g with written := true }, defined := true }
          rfl rfl rfl rfl rfl rfl rfl rfl⟩
      · rw [AttFile.saveCall, if_pos (by simp [hc]), hf]
        have := hdef s rfl rfl hc.2 hf hl hfile
        rw [hf] at this
        exact this
      all_goals simp [hf]
    | data =>
      have hl : s.libDefine = false := by
        cases hl : s.libDefine with
        | false => rfl
        | true => rw [h2.1 hl] at hf; cases hf
      refine ⟨_, ?_, ?_, ?_, ?_, hrel { s with
          file := t.entries, atts := s.atts.map fun g => { g with written := true }, defined := true }
          rfl rfl rfl rfl rfl rfl rfl rfl⟩
      · rw [AttFile.saveCall, if_pos (by simp [hc]), hf]
        simp only [AttFile.redef, hl, AttFile.andThen, Bool.false_eq_true, if_false]
        rw [hdef { s with libDefine := true, flag := .define } rfl rfl hc.2 rfl rfl hfile]
        simp [AttFile.enddef, hf, hl]
      all_goals simp [hf]
  · refine ⟨s, ?_, rfl, rfl, rfl, ?_⟩
    · rw [AttFile.saveCall, if_neg (by simpa using hc)]
    · have hst : t.stored = true := by
        cases hn : t.isNew with
        | false => exact (h.old hn).1
        | true =>
          rw [(h.new hn).1]
          rw [h.isNew] at hn
          cases hd : s.defined with
          | true => rfl
          | false => exact absurd ⟨hn, hd⟩ hc
      rw [show { t with stored := true } = t by cases t; simp_all]
      exact h

/-! ### Updating an attribute -/

theorem replaceFirst_map {gs : List (GAtt V)} {old : String} {a : Att V} (hn : (gs.map fun g => g.att.name).Nodup) :
    AttFile.replaceFirst old a gs = gs.map fun g => if g.att.name = old then { g with att := a } else g := by
  induction gs with
  | nil => rfl
  | cons g gs ih =>
    rw [AttFile.replaceFirst, List.map_cons]
    rw [List.map_cons, List.nodup_cons] at hn
    split
    · rename_i hg
      congr 1
      rw [List.map_congr_left (g := id)]
      · simp
      · intro g' hg'
        rw [if_neg]
        · rfl
        · intro h
          exact hn.1 (List.mem_map.2 ⟨g', hg', h.trans hg.symm⟩)
    · rw [ih hn.2]

theorem find_map {gs : List (GAtt V)} {old : String} :
    (gs.map GAtt.inFile).find? (fun e => e.name = old) = (gs.find? fun g => g.att.name = old).map GAtt.inFile := by
  rw [List.find?_map]; rfl

theorem nodup_replaced {es : List (FileAtt V)} {old new : String} {ty : NcType} {v : List V}
    (hn : (es.map FileAtt.name).Nodup) (h : new = old ∨ new ∉ es.map FileAtt.name) :
    ((es.map fun f => if f.name = old then (⟨new, ty, v⟩ : FileAtt V) else f).map FileAtt.name).Nodup := by
  rw [List.map_map]
  rw [List.nodup_iff_pairwise_ne] at *
  rw [List.pairwise_map] at *
  refine List.Pairwise.imp_of_mem ?_ hn
  intro a b ha hb hab
  simp only [Function.comp]
  have key : ∀ x ∈ es, x.name ≠ old → x.name ≠ new := by
    intro x hx h1 h2
    rcases h with h | h
    · exact h1 (h2.trans h)
    · exact h (List.mem_map.2 ⟨x, hx, h2⟩)
  by_cases h1 : a.name = old <;> by_cases h2 : b.name = old
  · exact absurd (h1.trans h2.symm) hab
  · rw [if_pos h1, if_neg h2]; exact (key b hb h2).symm
  · rw [if_neg h1, if_pos h2]; exact key a ha h1
  · rw [if_neg h1, if_neg h2]; exact hab

theorem libRename_ok {file : List (FileAtt V)} {old new : String} (ho : old ∈ file.map FileAtt.name)
    (hne : new ∉ file.map FileAtt.name) (hl : new.utf8ByteSize ≤ old.utf8ByteSize) :
    AttFile.libRename false file old new = .ok (file.map fun f => if f.name = old then { f with name := new } else f) := by
  rw [AttFile.libRename, if_neg (by simpa using ho), if_neg hne, if_neg (by omega)]

theorem libPut_ok {file : List (FileAtt V)} {e a : FileAtt V} (hn : (file.map FileAtt.name).Nodup) (he : e ∈ file)
    (hname : e.name = a.name) (hty : e.ty = a.ty) (hl : a.value.length ≤ e.value.length) :
    AttFile.libPut false file a = .ok (file.map fun f => if f.name = a.name then a else f) := by
  have hf : file.find? (fun f => f.name = a.name) = some e := by
    cases hf : file.find? (fun f => f.name = a.name) with
    | none =>
      rw [List.find?_eq_none] at hf
      exact absurd (by simpa using hname) (hf e he)
    | some f =>
      have h1 := List.mem_of_find?_eq_some hf
      have h2 : f.name = a.name := by simpa using List.find?_some hf
      rw [List.inj_on_of_nodup_map hn h1 he (h2.trans hname.symm)]
  rw [AttFile.libPut, hf]
  simp only
  rw [if_pos (Or.inr ⟨hty, hl⟩)]

theorem toData_rel {t : AttTable V} {s : AttFile V} (h : AttRel t s) :
    AttRel t (if s.flag ≠ .data then { s with libDefine := false, flag := .data } else s) := by
  split
  · exact ⟨h.entries, h.ok, h.isNew, h.writable, h.touched, h.registered, by simp, h.written, h.file,
      fun hn => ⟨(h.new hn).1, by simp, fun _ => rfl⟩, fun hn => ⟨(h.old hn).1, rfl⟩⟩
  · exact h

theorem toData_lib {t : AttTable V} {s : AttFile V} (h : AttRel t s) :
    (if s.flag ≠ .data then { s with libDefine := false, flag := .data } else s : AttFile V).libDefine = false ∧
    (if s.flag ≠ .data then { s with libDefine := false, flag := .data } else s : AttFile V).flag = .data := by
  split
  · exact ⟨rfl, rfl⟩
  · rename_i hf
    have hf : s.flag = .data := by simpa using hf
    refine ⟨?_, hf⟩
    cases hn : t.isNew with
    | false => exact (h.old hn).2
    | true =>
      cases hl : s.libDefine with
      | false => rfl
      | true => rw [(h.new hn).2.1.1 hl] at hf; cases hf

theorem update_rel {t : AttTable V} {s : AttFile V} (h : AttRel t s) {old new : String} {ty : NcType} {v : List V}
    (hc : new = old ∨ new ∉ t.names) :
    Meets (s.updateAtt old new ty v).1 (t.step (.updateAtt old new ty v)).1 ∧
      AttRel (t.step (.updateAtt old new ty v)).2 (s.updateAtt old new ty v).2 ∧
      ((s.updateAtt old new ty v).2.flag = .data ∨ s.mode = .read ∧ (s.updateAtt old new ty v).2.flag = s.flag) ∧
      (s.updateAtt old new ty v).2.mode = s.mode := by
  by_cases hr : s.mode = .read
  · have hw : t.writable = false := by rw [h.writable, hr]; rfl
    have h1 : t.step (.updateAtt old new ty v) = (false, t) := by
      rw [AttTable.step]
      split
      · rw [if_neg (by simp [AttTable.Replaceable, hw])]
      · rfl
    have h2 : s.updateAtt old new ty v = (.throw .fileIOError, s) := by rw [AttFile.updateAtt, if_pos hr]
    rw [h1, h2]
    exact ⟨rfl, h, Or.inr ⟨hr, rfl⟩, rfl⟩
  rw [AttFile.updateAtt, if_neg hr]
  have h1 := toData_rel h
  obtain ⟨hl, hf⟩ := toData_lib h
  have hm : (if s.flag ≠ .data then { s with libDefine := false, flag := .data } else s : AttFile V).mode = s.mode := by
    split <;> rfl
  dsimp only
  generalize (if s.flag ≠ .data then { s with libDefine := false, flag := .data } else s : AttFile V) = s1 at h1 hl hf hm
  have hfind : t.entries.find? (fun e => e.name = old) = (s1.atts.find? fun g => g.att.name = old).map GAtt.inFile := by
    rw [← h1.entries, find_map]
  cases hg : s1.atts.find? (fun g => g.att.name = old) with
  | none =>
    rw [hg] at hfind
    rw [AttTable.step, hfind]
    exact ⟨rfl, h1, Or.inl hf, hm⟩
  | some g =>
    rw [hg] at hfind
    have hgm := List.mem_of_find?_eq_some hg
    have hgn : g.att.name = old := by simpa using List.find?_some hg
    have hw : t.writable = true := by rw [h.writable]; simpa using hr
    rw [AttTable.step, hfind]
    simp only [Option.map_some, h1.written g hgm]
    by_cases hst : t.stored = true
    swap
    · have hrep : ¬ t.Replaceable g.inFile new ty v := fun hr' => hst hr'.2.1
      rw [if_neg hrep, if_pos hst]
      exact ⟨rfl, h1, Or.inl hf, hm⟩
    rw [if_neg (not_not.2 hst), AttFile.updated]
    by_cases hty : g.att.ty = ty
    swap
    · have hrep : ¬ t.Replaceable g.inFile new ty v := fun hr' => hty hr'.2.2.1
      rw [if_neg hrep, if_pos hty]
      exact ⟨rfl, h1, Or.inl hf, hm⟩
    by_cases hsz : g.att.name.utf8ByteSize < new.utf8ByteSize
    · have hrep : ¬ t.Replaceable g.inFile new ty v := fun hr' => absurd hr'.2.2.2.2.1 (Nat.not_le.2 hsz)
      rw [if_neg hrep, if_neg (not_not.2 hty), if_pos hsz]
      exact ⟨rfl, h1, Or.inl hf, hm⟩
    by_cases hlen : g.att.value.length < v.length
    · have hrep : ¬ t.Replaceable g.inFile new ty v := fun hr' => absurd hr'.2.2.2.1 (Nat.not_le.2 hlen)
      rw [if_neg hrep, if_neg (not_not.2 hty), if_neg hsz, if_pos hlen]
      exact ⟨rfl, h1, Or.inl hf, hm⟩
    have hstored : ty.stored = true := by
      rw [← hty]
      exact h1.ok.types g.inFile (by rw [← h1.entries]; exact List.mem_map_of_mem hgm)
    have hrep : t.Replaceable g.inFile new ty v :=
      ⟨hw, hst, hty, Nat.not_lt.1 hlen, Nat.not_lt.1 hsz, by rw [show g.inFile.name = old from hgn]; exact hc⟩
    rw [if_pos hrep, if_neg (not_not.2 hty), if_neg hsz, if_neg hlen]
    have hreg : ({ g.att with name := new, nelems := v.length } : Att V).registerValue v =
        .ok ⟨new, ty, v.length, v, true⟩ := by
      simp [Att.registerValue, hty, hstored, takePtr]
    rw [hreg]
    simp only
    have hent := h1.entries
    have hfile : s1.file = t.entries := by rw [h1.file, if_pos hst]
    have hnd := h1.ok.nodup
    have hnames : (s1.atts.map fun g => g.att.name) = t.entries.map FileAtt.name := by
      rw [← hent, List.map_map]; rfl
    have hge : g.inFile ∈ t.entries := by rw [← hent]; exact List.mem_map_of_mem hgm
    rw [replaceFirst_map (by rw [hnames]; exact hnd)]
    have hlib : AttFile.updateLib { s1 with atts := s1.atts.map fun g => if g.att.name = old then
          { g with att := ⟨new, ty, v.length, v, true⟩ } else g } old new ⟨new, ty, v.length, v, true⟩ =
        (.ok (), AttFile.markChanged { s1 with
          file := t.entries.map fun f => if f.name = old then ⟨new, ty, v⟩ else f,
          atts := s1.atts.map fun g => if g.att.name = old then { g with att := ⟨new, ty, v.length, v, true⟩ } else g }) := by
      rw [AttFile.updateLib]
      simp only [hl, hfile]
      by_cases hon : old = new
      · subst hon
        simp only [ne_eq, not_true_eq_false, if_false]
        rw [libPut_ok (a := ⟨old, ty, v⟩) hnd hge hgn hty (Nat.not_lt.1 hlen)]
      · have hnn : new ∉ t.entries.map FileAtt.name := by
          rcases hc with hc | hc
          · exact absurd hc.symm hon
          · exact hc
        simp only [ne_eq, hon, not_false_eq_true, if_true]
        rw [libRename_ok (List.mem_map.2 ⟨_, hge, hgn⟩) hnn (by rw [← hgn]; exact Nat.not_lt.1 hsz)]
        simp only
        rw [libPut_ok (e := { g.inFile with name := new })]
        · simp only [List.map_map]
          congr 3
          apply List.map_congr_left
          intro f hf'
          simp only [Function.comp]
          by_cases hfo : f.name = old
          · simp [hfo]
          · have : f.name ≠ new := fun h => hnn (List.mem_map.2 ⟨f, hf', h⟩)
            simp [hfo, this]
        · rw [List.map_map]
          have := nodup_replaced (ty := ty) (v := v) hnd (Or.inr hnn) (old := old)
          rw [List.map_map] at this
          refine cast (congrArg List.Nodup (List.map_congr_left ?_)) this
          intro f _
          simp only [Function.comp]
          split <;> rfl
        · refine List.mem_map.2 ⟨g.inFile, hge, ?_⟩
          rw [if_pos (show g.inFile.name = old from hgn)]
        · rfl
        · exact hty
        · exact Nat.not_lt.1 hlen
    rw [hlib]
    have hmr : s1.mode ≠ .read := by rw [hm]; exact hr
    refine ⟨rfl, ?_, Or.inl ?_, ?_⟩
    · rw [AttFile.markChanged, if_pos hmr]
      refine ⟨?_, ⟨nodup_replaced hnd hc, ?_⟩, h1.isNew, h1.writable, rfl, h1.registered, h1.flag, ?_, ?_, h1.new, h1.old⟩
      · simp only [← hent, List.map_map]
        apply List.map_congr_left
        intro g' _
        simp only [Function.comp]
        by_cases hg0 : g'.att.name = old
        · rw [if_pos hg0, if_pos (show g'.inFile.name = old from hg0)]
          rfl
        · rw [if_neg hg0, if_neg (show ¬ g'.inFile.name = old from hg0)]
      · intro f hf'
        obtain ⟨f0, h0, rfl⟩ := List.mem_map.1 hf'
        split
        · exact hstored
        · exact h1.ok.types f0 h0
      · intro g' hg'
        obtain ⟨g0, h0, rfl⟩ := List.mem_map.1 hg'
        have := h1.written g0 h0
        split <;> exact this
      · simp [hst]
    · rw [AttFile.markChanged, if_pos hmr]; exact hf
    · rw [AttFile.markChanged, if_pos hmr]; exact hm

/-! ### All calls -/

theorem write_rel {t : AttTable V} {s : AttFile V} (h : AttRel t s) {name : String} {ty : NcType} {v : List V}
    (hty : ty.stored = true) :
    Meets (s.writeAtt name ty v).1 (t.step (.writeAtt name ty v)).1 ∧
      AttRel (t.step (.writeAtt name ty v)).2 (s.writeAtt name ty v).2 ∧
      (s.writeAtt name ty v).2.flag = s.flag ∧ (s.writeAtt name ty v).2.mode = s.mode := by
  rw [AttFile.writeAtt, AttTable.step, names_eq h]
  by_cases hn : t.isNew = true
  swap
  · have hc : ¬ creating s.mode := by rw [← h.isNew]; exact hn
    have h0 : ¬ (t.isNew = true ∧ ¬ t.stored = true ∧ name ∉ t.names) := fun h' => hn h'.1
    rw [if_neg h0]
    by_cases hd : s.defined = true
    · rw [if_pos hd]; exact ⟨rfl, h, rfl, rfl⟩
    · rw [if_neg hd, if_pos hc]; exact ⟨rfl, h, rfl, rfl⟩
  have hst := (h.new hn).1
  have hc : creating s.mode = true := by rw [← h.isNew]; exact hn
  by_cases hd : s.defined = true
  · have h0 : ¬ (t.isNew = true ∧ ¬ t.stored = true ∧ name ∉ t.names) := fun h' => h'.2.1 (hst.trans hd)
    rw [if_neg h0, if_pos hd]; exact ⟨rfl, h, rfl, rfl⟩
  rw [if_neg hd, if_neg (not_not.2 hc)]
  by_cases hm : name ∈ t.names
  · have h0 : ¬ (t.isNew = true ∧ ¬ t.stored = true ∧ name ∉ t.names) := fun h' => h'.2.2 hm
    rw [if_neg h0, if_pos hm]; exact ⟨rfl, h, rfl, rfl⟩
  have hs : t.stored = false := by rw [hst]; simpa using hd
  have h0 : t.isNew = true ∧ ¬ t.stored = true ∧ name ∉ t.names := ⟨hn, by simp [hs], hm⟩
  rw [if_pos h0, if_neg hm]
  refine ⟨rfl, ⟨?_, ⟨?_, ?_⟩, h.isNew, h.writable, h.touched, h.registered, h.flag, ?_, ?_, h.new, h.old⟩, rfl, rfl⟩
  · simp [h.entries, GAtt.inFile, Att.ofValue]
  · rw [List.map_append, List.nodup_append]
    refine ⟨h.ok.nodup, by simp, ?_⟩
    intro a ha b hb hab
    simp only [List.map_cons, List.map_nil, List.mem_singleton] at hb
    subst hb
    subst hab
    exact hm ha
  · intro f hf
    rcases List.mem_append.1 hf with hf | hf
    · exact h.ok.types f hf
    · rw [List.mem_singleton] at hf
      rw [hf]; exact hty
  · intro g hg
    rcases List.mem_append.1 hg with hg | hg
    · exact h.written g hg
    · rw [List.mem_singleton] at hg
      rw [hg, hs]
  · have := h.file
    rw [hs] at this
    simpa [hs] using this

theorem touch_rel {t : AttTable V} {s : AttFile V} (h : AttRel t s) (hr : s.mode ≠ .read) :
    AttRel { t with touched := true } s.markChanged := by
  rw [AttFile.markChanged, if_pos hr]
  exact ⟨h.entries, h.ok, h.isNew, h.writable, rfl, h.registered, h.flag, h.written, h.file, h.new, h.old⟩

theorem data_rel {t : AttTable V} {s : AttFile V} (h : AttRel t s) :
    Meets s.writeData.1 (t.step .writeData).1 ∧ AttRel (t.step .writeData).2 s.writeData.2 ∧
      s.writeData.2.flag = s.flag ∧ s.writeData.2.mode = s.mode := by
  obtain ⟨s', h1, h2, h3, h4, h5⟩ := saveCall_rel h
  have h6 : s'.registered = t.registered := h5.registered.symm
  rw [AttFile.writeData, h1, AttFile.andThen, AttTable.step]
  by_cases hok : t.writable = true ∧ t.registered = true
  · have hr : s.mode ≠ .read := by have := hok.1; rw [h.writable] at this; simpa using this
    have hl : s.libDefine = false := by
      cases hn : t.isNew with
      | false => exact (h.old hn).2
      | true =>
        cases hl : s.libDefine with
        | false => rfl
        | true =>
          have := (h.new hn).2.1.1 hl
          rw [(h.new hn).2.2 (by rw [← h.registered, hok.2])] at this
          cases this
    have hcond : ¬ (¬ s'.registered = true ∨ s'.libDefine = true ∨ s'.mode = .read) := by
      rw [h4, h2, hl, h6]; simp [hok.2, hr]
    rw [if_pos hok, if_neg hcond]
    have := touch_rel h5 (by rw [h2]; exact hr)
    refine ⟨rfl, this, ?_, ?_⟩
    all_goals
      rw [AttFile.markChanged, if_pos (by rw [h2]; exact hr)]
      assumption
  · have hcond : ¬ s'.registered = true ∨ s'.libDefine = true ∨ s'.mode = .read := by
      by_cases hw : t.writable = true
      · left; rw [h6]; exact fun h' => hok ⟨hw, h'⟩
      · right; right
        rw [h.writable] at hw
        rw [h2]
        simpa using hw
    rw [if_neg hok, if_pos hcond]
    exact ⟨rfl, h5, h3, h2⟩

theorem register_rel {t : AttTable V} {s : AttFile V} (h : AttRel t s) (hold : t.isNew = false → s.flag = .define) :
    Meets s.registerColl.1 (t.step .register).1 ∧ AttRel (t.step .register).2 s.registerColl.2 ∧
      (s.registerColl.2.flag = if t.isNew then .data else .define) ∧ s.registerColl.2.mode = s.mode := by
  rw [AttFile.registerColl, AttTable.step]
  cases hn : t.isNew with
  | false =>
    have hf := hold hn
    have hc : creating s.mode = false := by rw [← h.isNew, hn]
    simp only [hf, ne_eq, not_true_eq_false, if_false, AttFile.andThen, hc, Bool.false_eq_true, if_false, Bool.or_false]
    refine ⟨rfl, ?_, trivial, trivial⟩
    refine ⟨h.entries, h.ok, ?_, h.writable, h.touched, rfl, ?_, h.written, h.file, ?_, ?_⟩
    · simp [hc]
    · simp
    · intro h'; cases h'
    · intro _; exact h.old hn
  | true =>
    have hc : creating s.mode = true := by rw [← h.isNew, hn]
    have hr := creating_ne_read hc
    have key : AttRel { t with touched := true, registered := true }
          (AttFile.markChanged { s with libDefine := false, flag := .data, registered := true }) ∧
        (AttFile.markChanged { s with libDefine := false, flag := .data, registered := true }).flag = .data ∧
        (AttFile.markChanged { s with libDefine := false, flag := .data, registered := true }).mode = s.mode := by
      refine ⟨touch_rel (t := { t with registered := true }) ?_ hr, ?_, ?_⟩
      · exact ⟨h.entries, h.ok, h.isNew, h.writable, h.touched, rfl, by simp, h.written, h.file,
          fun hn => ⟨(h.new hn).1, by simp, fun _ => rfl⟩, fun hn => ⟨(h.old hn).1, rfl⟩⟩
      all_goals rw [AttFile.markChanged, if_pos hr]
    rw [hn] at key
    obtain ⟨hst, hlib, -⟩ := h.new hn
    cases hf : s.flag with
    | undefined => exact absurd hf h.flag
    | define =>
      have hl : s.libDefine = true := hlib.2 hf
      simp only [ne_eq, not_true_eq_false, if_false, AttFile.andThen, hc, if_true, AttFile.enddef, hl, Bool.or_true]
      exact ⟨rfl, key⟩
    | data =>
      have hl : s.libDefine = false := by
        cases hl : s.libDefine with
        | false => rfl
        | true => rw [hlib.1 hl] at hf; cases hf
      simp only [ne_eq, reduceCtorEq, not_false_eq_true, if_true, AttFile.redef, hl, AttFile.andThen, hc, AttFile.enddef,
        Bool.or_true, Bool.false_eq_true, if_false]
      exact ⟨rfl, key⟩

theorem isNew_step (t : AttTable V) (op : AttOp V) : (t.step op).2.isNew = t.isNew := by
  cases op with
  | writeAtt => rw [AttTable.step]; split <;> rfl
  | updateAtt =>
    rw [AttTable.step]
    split
    · split <;> rfl
    · rfl
  | register => rfl
  | writeData => rw [AttTable.step]; split <;> rfl

theorem run_rel : ∀ (ops : List (AttOp V)) {t : AttTable V} {s : AttFile V} {seen : Bool}, AttRel t s →
    (∀ op ∈ ops, Typed op) → t.NoClash ops → (t.isNew = false → Orderly seen ops ∧ (s.flag = .data → seen = true)) →
    List.Forall₂ Meets (s.run ops).1 (t.run ops).1 ∧ AttRel (t.run ops).2 (s.run ops).2 ∧ (s.run ops).2.mode = s.mode
  | [], t, s, seen, h, _, _, _ => ⟨.nil, h, rfl⟩
  | op :: ops, t, s, seen, h, hty, hnc, hord => by
    have hty' : ∀ op ∈ ops, Typed op := fun o ho => hty o (List.mem_cons_of_mem _ ho)
    have key : ∃ seen', Meets (s.step op).1 (t.step op).1 ∧ AttRel (t.step op).2 (s.step op).2 ∧
        (s.step op).2.mode = s.mode ∧
        (t.isNew = false → Orderly seen' ops ∧ ((s.step op).2.flag = .data → seen' = true)) := by
      cases op with
      | writeAtt n ty v =>
        obtain ⟨h1, h2, h3, h4⟩ := write_rel h (hty _ List.mem_cons_self)
        exact ⟨seen, h1, h2, h4, fun hn => ⟨(hord hn).1, fun hf => (hord hn).2 (h3.symm.trans hf)⟩⟩
      | updateAtt old new ty v =>
        obtain ⟨h1, h2, h3, h4⟩ := update_rel (ty := ty) (v := v) h hnc.1
        exact ⟨true, h1, h2, h4, fun hn => ⟨(hord hn).1, fun _ => rfl⟩⟩
      | register =>
        obtain ⟨h1, h2, h3, h4⟩ := register_rel h (fun hn => by
          obtain ⟨h5, h6⟩ := hord hn
          have h7 : seen = false := h5.1
          cases hf : s.flag with
          | undefined => exact absurd hf h.flag
          | define => rfl
          | data => rw [h6 hf] at h7; cases h7)
        refine ⟨seen, h1, h2, h4, fun hn => ⟨(hord hn).1.2, fun hf => ?_⟩⟩
        have : s.registerColl.2.flag = .define := by rw [h3, hn]; rfl
        rw [show (s.step .register).2 = s.registerColl.2 from rfl, this] at hf
        cases hf
      | writeData =>
        obtain ⟨h1, h2, h3, h4⟩ := data_rel h
        exact ⟨seen, h1, h2, h4, fun hn => ⟨(hord hn).1, fun hf => (hord hn).2 (h3.symm.trans hf)⟩⟩
    obtain ⟨seen', h1, h2, h3, h4⟩ := key
    obtain ⟨k1, k2, k3⟩ := run_rel ops h2 hty' hnc.2 (seen := seen') (by rw [isNew_step]; exact h4)
    exact ⟨.cons h1 k1, k2, k3.trans h3⟩

/-! ### Closing -/

theorem lib_false {t : AttTable V} {s : AttFile V} (h : AttRel t s) (hf : s.flag = .data) : s.libDefine = false := by
  cases hn : t.isNew with
  | false => exact (h.old hn).2
  | true =>
    cases hl : s.libDefine with
    | false => rfl
    | true => rw [(h.new hn).2.1.1 hl] at hf; cases hf

theorem lastModified_rel {t : AttTable V} {s : AttFile V} (h : AttRel t s) (hm : s.mode ≠ .read) (date time : List V) :
    let r1 := t.step (.updateAtt "last_modified_date" "last_modified_date" .char date)
    let r2 := r1.2.step (.updateAtt "last_modified_time" "last_modified_time" .char time)
    Meets (s.lastModified date time).1 (r1.1 && r2.1) ∧
      (r1.1 = true → r2.1 = true → AttRel r2.2 (s.lastModified date time).2 ∧ (s.lastModified date time).2.flag = .data) := by
  intro r1 r2
  obtain ⟨h1, h2, -, h4⟩ := update_rel (old := "last_modified_date") (ty := .char) (v := date) h (Or.inl rfl)
  rw [AttFile.lastModified]
  rcases hu : s.updateAtt "last_modified_date" "last_modified_date" .char date with ⟨o, s1⟩
  rw [hu] at h1 h2 h4
  obtain ⟨k1, k2, k3, -⟩ := update_rel (old := "last_modified_time") (ty := .char) (v := time) h2 (Or.inl rfl)
  cases hr : r1.1 with
  | false =>
    rw [show (t.step (.updateAtt "last_modified_date" "last_modified_date" .char date)).1 = false from hr] at h1
    rw [show o = .throw .fileIOError from h1]
    exact ⟨rfl, fun h => by cases h⟩
  | true =>
    rw [show (t.step (.updateAtt "last_modified_date" "last_modified_date" .char date)).1 = true from hr] at h1
    rw [show o = .ok () from h1]
    refine ⟨k1, fun _ _ => ⟨k2, ?_⟩⟩
    rcases k3 with k3 | k3
    · exact k3
    · exact absurd (h4.symm.trans k3.1) hm

theorem isNew_closed (t : AttTable V) (date time : List V) :
    let r1 := t.step (.updateAtt "last_modified_date" "last_modified_date" .char date)
    let r2 := r1.2.step (.updateAtt "last_modified_time" "last_modified_time" .char time)
    r2.2.isNew = t.isNew := by
  intro r1 r2
  rw [isNew_step, isNew_step]

theorem stored_update {t : AttTable V} {old new : String} {ty : NcType} {v : List V} :
    (t.step (.updateAtt old new ty v)).2.stored = t.stored := by
  rw [AttTable.step]
  split
  · split <;> rfl
  · rfl

theorem close_rel {t : AttTable V} {s : AttFile V} (h : AttRel t s) (date time : List V) :
    Meets (s.close date time).1 (t.closed date time).1 ∧
      ((t.closed date time).1 = true → (s.close date time).2.file = (t.closed date time).2 ∧ AttsOk (t.closed date time).2) := by
  obtain ⟨s', h1, h2, h3, h4, h5⟩ := saveCall_rel h
  rw [AttFile.close, h1]
  simp only [AttFile.andThen]
  rw [AttFile.lastModifiedSave, AttTable.closed]
  have hch : s'.changed = t.touched := h5.touched.symm
  by_cases hcond : t.touched = true ∧ t.writable = true
  swap
  · have : ¬ (s'.mode ≠ .read ∧ s'.changed = true) := by
      rw [h2, hch]
      intro hx
      exact hcond ⟨hx.2, by rw [h.writable]; simpa using hx.1⟩
    rw [if_neg hcond, if_neg this]
    refine ⟨rfl, fun _ => ⟨?_, h.ok⟩⟩
    rw [h5.file]; rfl
  have hm : s'.mode ≠ .read := by
    have := hcond.2; rw [h.writable] at this; rw [h2]; simpa using this
  rw [if_pos hcond, if_pos ⟨hm, by rw [hch]; exact hcond.1⟩]
  have hflag := h5.flag
  have hdata : AttRel { t with stored := true } { s' with libDefine := false, flag := .data } :=
    ⟨h5.entries, h5.ok, h5.isNew, h5.writable, h5.touched, h5.registered, by simp, h5.written, h5.file,
      fun hn => ⟨(h5.new hn).1, by simp, fun _ => rfl⟩, fun hn => ⟨(h5.old hn).1, rfl⟩⟩
  have hlm := lastModified_rel hdata hm date time
  dsimp only at hlm ⊢
  generalize hr1 : ({ t with stored := true } : AttTable V).step
    (.updateAtt "last_modified_date" "last_modified_date" .char date) = r1 at hlm ⊢
  generalize hr2 : r1.2.step (.updateAtt "last_modified_time" "last_modified_time" .char time) = r2 at hlm ⊢
  have hst : r2.2.stored = true := by rw [← hr2, stored_update, ← hr1, stored_update]
  obtain ⟨m1, m2⟩ := hlm
  -- the two branches
  have fin : ∀ (s2 : AttFile V) (o : Res Unit), AttFile.lastModified date time { s' with libDefine := false, flag := .data } =
      (o, s2) → (r1.1 && r2.1) = true → o = .ok () ∧ s2.file = r2.2.entries ∧ AttsOk r2.2.entries ∧ s2.libDefine = false := by
    intro s2 o hs2 hb
    rw [hs2] at m1 m2
    have hb' := Bool.and_eq_true_iff.1 hb
    obtain ⟨hrel, hfl⟩ := m2 hb'.1 hb'.2
    have ho : o = .ok () := by have := m1; rw [hb] at this; exact this
    exact ⟨ho, by rw [hrel.file, hst]; rfl, hrel.ok, lib_false hrel hfl⟩
  have bad : ∀ (s2 : AttFile V) (o : Res Unit), AttFile.lastModified date time { s' with libDefine := false, flag := .data } =
      (o, s2) → (r1.1 && r2.1) = false → o = .throw .fileIOError := by
    intro s2 o hs2 hb
    rw [hs2, hb] at m1
    exact m1
  rcases hlmv : AttFile.lastModified date time { s' with libDefine := false, flag := .data } with ⟨o, s2⟩
  cases hf : s'.flag with
  | undefined => exact absurd hf hflag
  | data =>
    simp only [hlmv]
    cases hb : (r1.1 && r2.1) with
    | false => rw [bad s2 o hlmv hb]; exact ⟨rfl, fun h => by cases h⟩
    | true =>
      obtain ⟨f1, f2, f3, f4⟩ := fin s2 o hlmv hb
      rw [f1]
      exact ⟨rfl, fun _ => ⟨f2, f3⟩⟩
  | define =>
    simp only [hlmv]
    cases hb : (r1.1 && r2.1) with
    | false => rw [bad s2 o hlmv hb]; exact ⟨rfl, fun h => by cases h⟩
    | true =>
      obtain ⟨f1, f2, f3, f4⟩ := fin s2 o hlmv hb
      rw [f1]
      cases hl : s'.libDefine with
      | false => exact ⟨rfl, fun _ => ⟨f2, f3⟩⟩
      | true =>
        simp only [AttFile.andThen, AttFile.redef, f4, if_true]
        exact ⟨rfl, fun _ => ⟨f2, f3⟩⟩

/-! ### What a user reads -/

theorem reads_rel {t : AttTable V} {s : AttFile V} (h : AttRel t s) (n : String) : t.Reads n (s.readAtt n) := by
  rw [AttTable.Reads, AttFile.readAtt, ← h.entries, List.find?_map]
  have : ((fun e : FileAtt V => decide (e.name = n)) ∘ GAtt.inFile) = fun g : GAtt V => decide (g.att.name = n) := rfl
  rw [this]
  cases s.atts.find? (fun g => decide (g.att.name = n)) with
  | none => rfl
  | some g => exact ⟨g.att, rfl, rfl⟩

/-! ### The dates can be replaced -/

theorem hasRoom_update {l : List (FileAtt V)} {n : String} {k : Nat} (h : HasRoom l n k) {old : String} {f0 : FileAtt V}
    (h1 : old ≠ n) (h2 : f0.name ≠ n) : HasRoom (l.map fun f => if f.name = old then f0 else f) n k := by
  obtain ⟨e, he, ht, hk⟩ := h
  refine ⟨e, ?_, ht, hk⟩
  induction l with
  | nil => cases he
  | cons f fs ih =>
    rw [List.map_cons]
    by_cases hf : f.name = n
    · rw [List.find?_cons_of_pos (by simpa using hf)] at he
      rw [if_neg (by rw [hf]; exact fun h => h1 h.symm), List.find?_cons_of_pos (by simpa using hf)]
      exact he
    · rw [List.find?_cons_of_neg (by simpa using hf)] at he
      rw [List.find?_cons_of_neg]
      · exact ih he
      · split
        · simpa using h2
        · simpa using hf

theorem hasRoom_step {t : AttTable V} {n : String} {k : Nat} (h : HasRoom t.entries n k) {op : AttOp V}
    (ho : ∀ old new ty v, op = .updateAtt old new ty v → old ≠ n ∧ new ≠ n) : HasRoom (t.step op).2.entries n k := by
  cases op with
  | register => exact h
  | writeData => rw [AttTable.step]; split <;> exact h
  | writeAtt m ty v =>
    rw [AttTable.step]
    split
    · obtain ⟨e, he, h'⟩ := h
      exact ⟨e, by rw [List.find?_append, he]; rfl, h'⟩
    · exact h
  | updateAtt old new ty v =>
    rw [AttTable.step]
    split
    · split
      · exact hasRoom_update h (ho _ _ _ _ rfl).1 (ho _ _ _ _ rfl).2
      · exact h
    · exact h

theorem hasRoom_run : ∀ (ops : List (AttOp V)) {t : AttTable V} {n : String} {k : Nat}, HasRoom t.entries n k →
    (∀ op ∈ ops, ∀ old new ty v, op = .updateAtt old new ty v → old ≠ n ∧ new ≠ n) → HasRoom (t.run ops).2.entries n k
  | [], _, _, _, h, _ => h
  | op :: ops, _, _, _, h, ho => hasRoom_run ops (hasRoom_step h (ho op List.mem_cons_self))
      fun o hm => ho o (List.mem_cons_of_mem _ hm)

theorem update_room {t : AttTable V} {n : String} {v : List V} (h : HasRoom t.entries n v.length) (hw : t.writable = true)
    (hs : t.stored = true) :
    t.step (.updateAtt n n .char v) =
      (true, { t with entries := t.entries.map fun f => if f.name = n then ⟨n, .char, v⟩ else f, touched := true }) := by
  obtain ⟨e, he, ht, hk⟩ := h
  have hn : e.name = n := by simpa using List.find?_some he
  rw [AttTable.step, he]
  simp only
  rw [if_pos]
  exact ⟨hw, hs, ht, hk, by rw [hn], .inl hn.symm⟩

theorem closed_room {t : AttTable V} {date time : List V} (h1 : HasRoom t.entries "last_modified_date" date.length)
    (h2 : HasRoom t.entries "last_modified_time" time.length) : (t.closed date time).1 = true := by
  rw [AttTable.closed]
  split
  · rename_i h
    dsimp only
    rw [update_room (t := { t with stored := true }) h1 h.2 rfl]
    dsimp only
    rw [update_room]
    · rfl
    · exact hasRoom_update h2 (by decide) (show "last_modified_date" ≠ "last_modified_time" by decide)
    · exact h.2
    · rfl
  · rfl

/-! ### Opening -/

theorem create_rel (mode : OpenMode) (hm : creating mode = true) (v : AutoVals V) :
    AttRel ⟨true, true, false, false, false, v.atts⟩ (AttFile.create mode v) := by
  refine ⟨?_, ⟨by simp [AutoVals.atts], by simp [AutoVals.atts, NcType.stored]⟩, by simp [AttFile.create, hm], ?_, rfl, rfl,
    by simp [AttFile.create], ?_, rfl, ?_, fun h => by cases h⟩
  · rw [AttFile.create, List.map_map]
    exact List.map_id _
  · exact (decide_eq_true (creating_ne_read hm)).symm
  · intro g hg
    obtain ⟨f, -, rfl⟩ := List.mem_map.1 hg
    rfl
  · intro _
    exact ⟨rfl, by simp [AttFile.create], by simp [AttFile.create]⟩

theorem registerNames_new : ∀ (file : List (FileAtt V)) (atts : List (Att V)),
    (atts.map Att.name ++ file.map FileAtt.name).Nodup → (∀ f ∈ file, f.ty.stored = true) →
    registerAttNames atts file = .ok (atts ++ file.map fun f => ⟨f.name, f.ty, f.value.length, [], false⟩)
  | [], atts, _, _ => by simp [registerAttNames]
  | f :: fs, atts, hn, hty => by
    have h0 : f.name ∉ atts.map Att.name := by
      intro h
      exact (List.nodup_append.1 hn).2.2 _ h f.name (by simp) rfl
    have hot : f.ty ≠ .other := by
      intro h
      have := hty f List.mem_cons_self
      rw [h] at this
      cases this
    have ih := registerNames_new fs (atts ++ [⟨f.name, f.ty, f.value.length, [], false⟩]) (by simpa using hn)
      fun f' h' => hty f' (List.mem_cons_of_mem _ h')
    simp [registerAttNames, registerAtt, h0, Att.ofName, hot, ih]

variable [Zero V] [DecidableEq V]

theorem registerValue_new {file : List (FileAtt V)} (hn : (file.map FileAtt.name).Nodup) {f : FileAtt V} (hf : f ∈ file)
    (hty : f.ty.stored = true) :
    registerAttValue file ⟨f.name, f.ty, f.value.length, [], false⟩ = .ok ⟨f.name, f.ty, f.value.length, f.value, true⟩ := by
  have hfind : file.find? (fun f' => f'.name = f.name) = some f := by
    cases h : file.find? (fun f' => f'.name = f.name) with
    | none =>
      rw [List.find?_eq_none] at h
      exact absurd (by simp) (h f hf)
    | some f' =>
      have h1 := List.mem_of_find?_eq_some h
      have h2 : f'.name = f.name := by simpa using List.find?_some h
      rw [List.inj_on_of_nodup_map hn h1 hf h2]
  simp [registerAttValue, Att.reserve, hty, getAtt, hfind, Att.registerValue, takePtr]

theorem registerValues_new {file : List (FileAtt V)} (hn : (file.map FileAtt.name).Nodup) :
    ∀ fs : List (FileAtt V), (∀ f ∈ fs, f ∈ file ∧ f.ty.stored = true) →
      registerAttValues file (fs.map fun f => ⟨f.name, f.ty, f.value.length, [], false⟩) =
        .ok (fs.map fun f => ⟨f.name, f.ty, f.value.length, f.value, true⟩)
  | [], _ => rfl
  | f :: fs, h => by
    have h0 := h f List.mem_cons_self
    have ih := registerValues_new hn fs fun f' h' => h f' (List.mem_cons_of_mem _ h')
    rw [List.map_cons, registerAttValues, registerValue_new hn h0.1 h0.2, ih]
    rfl

theorem openFile_eq {mode : OpenMode} {file : List (FileAtt V)} (h : AttsOk file) :
    AttFile.openFile mode file = .ok ⟨mode, (file.take 30).map fun f => ⟨⟨f.name, f.ty, f.value.length, f.value, true⟩, true⟩,
      false, .define, false, false, file, false⟩ := by
  have h1 : ((file.take 30).map FileAtt.name).Nodup := by
    rw [List.map_take]
    exact h.nodup.sublist (List.take_sublist _ _)
  have h2 : ∀ f ∈ file.take 30, f ∈ file ∧ f.ty.stored = true := fun f hf =>
    ⟨List.mem_of_mem_take hf, h.types f (List.mem_of_mem_take hf)⟩
  rw [AttFile.openFile, AttFile.registerNames, registerNames_new _ [] (by simpa using h1) fun f hf => (h2 f hf).2]
  simp only [List.nil_append, Res.ok_bind]
  rw [registerValues_new h.nodup _ h2]
  simp [List.map_map, Function.comp_def]

theorem open_rel {mode : OpenMode} (hm : mode = .read ∨ mode = .append) {file : List (FileAtt V)} (h : AttsOk file)
    (hl : file.length ≤ 30) :
    ∃ s, AttFile.openFile mode file = .ok s ∧ s.mode = mode ∧ s.flag = .define ∧
      AttRel ⟨false, decide (mode = .append), true, false, false, file⟩ s := by
  refine ⟨_, openFile_eq h, rfl, rfl, ?_⟩
  rw [List.take_of_length_le hl]
  refine ⟨?_, h, ?_, ?_, rfl, rfl, NcMode.noConfusion, ?_, rfl, (fun h => by cases h), fun _ => ⟨rfl, rfl⟩⟩
  · rw [List.map_map]
    exact List.map_id _
  · rcases hm with rfl | rfl <;> rfl
  · rcases hm with rfl | rfl <;> rfl
  · intro g hg
    obtain ⟨f, -, rfl⟩ := List.mem_map.1 hg
    rfl

/-! ### The order of calls in append mode -/

omit [Zero V] [DecidableEq V] in
theorem updateLib_modes (s : AttFile V) (old new : String) (a : Att V) : (s.updateLib old new a).2.flag = s.flag ∧
    (s.updateLib old new a).2.libDefine = s.libDefine ∧ (s.updateLib old new a).2.mode = s.mode ∧
      (s.updateLib old new a).2.registered = s.registered := by
  rw [AttFile.updateLib]
  split
  · split
    · rw [AttFile.markChanged]; split <;> exact ⟨rfl, rfl, rfl, rfl⟩
    · exact ⟨rfl, rfl, rfl, rfl⟩
    · exact ⟨rfl, rfl, rfl, rfl⟩
  · exact ⟨rfl, rfl, rfl, rfl⟩
  · exact ⟨rfl, rfl, rfl, rfl⟩

omit [Zero V] [DecidableEq V] in
theorem updateAtt_modes {s : AttFile V} (hm : s.mode ≠ .read) (hl : s.libDefine = false) (old new : String) (ty : NcType)
    (v : List V) : (s.updateAtt old new ty v).2.flag = .data ∧ (s.updateAtt old new ty v).2.libDefine = false ∧
      (s.updateAtt old new ty v).2.mode = s.mode ∧ (s.updateAtt old new ty v).2.registered = s.registered := by
  rw [AttFile.updateAtt, if_neg hm]
  generalize hs1 : (if s.flag ≠ .data then { s with libDefine := false, flag := .data } else s) = s1
  have h1 : s1.flag = .data ∧ s1.libDefine = false ∧ s1.mode = s.mode ∧ s1.registered = s.registered := by
    rw [← hs1]
    split
    · exact ⟨rfl, rfl, rfl, rfl⟩
    · rename_i h
      exact ⟨Classical.not_not.1 h, hl, rfl, rfl⟩
  dsimp only
  split
  · exact h1
  · split
    · exact h1
    · split
      · rename_i a _
        have := updateLib_modes { s1 with atts := AttFile.replaceFirst old a s1.atts } old new a
        exact ⟨this.1.trans h1.1, this.2.1.trans h1.2.1, this.2.2.1.trans h1.2.2.1, this.2.2.2.trans h1.2.2.2⟩
      · exact h1
      · exact h1

end Verif.NetCDFAtt
