import Verif.Spec.FileHandles
import Verif.Props.FileSystem
/-
File objects and the handles they hold.
-/
namespace Verif.Props
open Verif Verif.FileIO Verif.NetCDF
open Verif.PyFile (lift)

variable {α : Type}

/-! ### Calls on a closed object -/

theorem refusedTransfer_cases (s : Sess) (x : SessVar) (frame : Int) :
    s.refusedTransfer x frame = .ok () ∨ s.refusedTransfer x frame = .throw .fileIOError := by
  unfold Sess.refusedTransfer varFrame handleFrame
  split <;> split <;> simp <;> split <;> simp <;> split <;> simp

theorem closedWrite_cases (s : Sess) (frame : Int) (ns : List String) :
    s.closedWrite frame ns = .ok () ∨ s.closedWrite frame ns = .throw .fileIOError := by
  induction ns with
  | nil => exact Or.inl rfl
  | cons n ns ih =>
    rw [Sess.closedWrite]
    split
    · rename_i x _
      have h1 : s.closedEntriesForWrite x = .ok () ∨ s.closedEntriesForWrite x = .throw .fileIOError := by
        unfold Sess.closedEntriesForWrite
        repeat' split
        all_goals simp
      rcases h1 with h1 | h1
      · rw [h1, Res.ok_bind]
        rcases refusedTransfer_cases s x frame with h2 | h2
        · rw [h2, Res.ok_bind]; exact ih
        · rw [h2, Res.throw_bind]; exact Or.inr rfl
      · rw [h1, Res.throw_bind]; exact Or.inr rfl
    · exact Or.inr rfl

theorem closedRead_cases (s : Sess) (frame : Int) (ns : List String) :
    s.closedRead frame ns = .ok () ∨ s.closedRead frame ns = .throw .fileIOError := by
  induction ns with
  | nil => exact Or.inl rfl
  | cons n ns ih =>
    rw [Sess.closedRead]
    split
    · rename_i x _
      have h1 : s.closedEntriesForRead x = .ok () ∨ s.closedEntriesForRead x = .throw .fileIOError := by
        unfold Sess.closedEntriesForRead
        repeat' split
        all_goals simp
      rcases h1 with h1 | h1
      · rw [h1, Res.ok_bind]
        rcases refusedTransfer_cases s x frame with h2 | h2
        · rw [h2, Res.ok_bind]; exact ih
        · rw [h2, Res.throw_bind]; exact Or.inr rfl
      · rw [h1, Res.throw_bind]; exact Or.inr rfl
    · exact Or.inr rfl

theorem closedStep_cases (s : Sess) (op : FileOp Empty) :
    (s.closedStep op).1 = .ok () ∨ (s.closedStep op).1 = .throw .fileIOError := by
  cases op with
  | appendFrame => exact Or.inl rfl
  | write frame names => exact closedWrite_cases s frame names
  | writeAll frame => exact closedWrite_cases s frame _
  | read frame names => exact closedRead_cases s frame names
  | readAll frame => exact closedRead_cases s frame _
  | compute m => exact m.elim

/-! ### The objects and the handles -/

/-- Every object has its own file, and nobody else has it. -/
structure Handled (h : HandleSystem α) (s : NamedSystem α) : Prop where
  files : s.fs.files = h.files
  mem : s.fs.mem = h.mem
  ids : (h.lib.map Handle.id).Nodup
  names : (h.lib.map Handle.name).Nodup
  nonneg : ∀ c ∈ h.lib, 0 ≤ c.id
  closedObj : ∀ k, s.objs k = some none → ∃ o, h.objs k = some o ∧ o.id = -1
  noObj : ∀ k, s.objs k = none → h.objs k = none
  openObj : ∀ k name, s.objs k = some (some name) → ∃ o, h.objs k = some o ∧ ∃ c ∈ h.lib, c.id = o.id ∧ c.name = name ∧
    s.fs.objs name = some ⟨c.dims, c.vars, o.sess, c.file⟩
  opened : ∀ c ∈ h.lib, ∃ k, s.objs k = some (some c.name)
  shut : ∀ name, (∀ c ∈ h.lib, c.name ≠ name) → s.fs.objs name = none
  own : ∀ k k' name, s.objs k = some (some name) → s.objs k' = some (some name) → k = k'

theorem Handled.empty : Handled (α := α) HandleSystem.empty NamedSystem.empty where
  files := rfl
  mem := rfl
  ids := List.nodup_nil
  names := List.nodup_nil
  nonneg := fun c hc => absurd hc List.not_mem_nil
  closedObj := fun k h => by cases h
  noObj := fun k _ => rfl
  openObj := fun k name h => by cases h
  opened := fun c hc => absurd hc List.not_mem_nil
  shut := fun _ _ => rfl
  own := fun k k' name h => by cases h

theorem lookup_mem {lib : List (Handle α)} (hn : (lib.map Handle.id).Nodup) {c : Handle α} (hc : c ∈ lib) :
    lookup lib c.id = some c := by
  unfold lookup
  induction lib with
  | nil => exact absurd hc List.not_mem_nil
  | cons d lib ih =>
    rw [List.map_cons, List.nodup_cons] at hn
    rw [List.find?_cons]
    rcases List.mem_cons.1 hc with rfl | hc
    · simp
    · have : d.id ≠ c.id := fun e => hn.1 (e ▸ List.mem_map_of_mem hc)
      simp only [this, decide_false]
      exact ih hn.2 hc

theorem lookup_neg {lib : List (Handle α)} (h : ∀ c ∈ lib, 0 ≤ c.id) : lookup lib (-1) = none := by
  unfold lookup
  rw [List.find?_eq_none]
  intro c hc
  have := h c hc
  simp only [decide_eq_true_eq]
  omega

theorem handle_name {lib : List (Handle α)} (hn : (lib.map Handle.name).Nodup) {c : Handle α} (hc : c ∈ lib) :
    lib.find? (fun d => d.name = c.name) = some c := by
  induction lib with
  | nil => exact absurd hc List.not_mem_nil
  | cons d lib ih =>
    rw [List.map_cons, List.nodup_cons] at hn
    rw [List.find?_cons]
    rcases List.mem_cons.1 hc with rfl | hc
    · simp
    · have : d.name ≠ c.name := fun e => hn.1 (e ▸ List.mem_map_of_mem hc)
      simp only [this, decide_false]
      exact ih hn.2 hc

theorem find_no_name {lib : List (Handle α)} {name : String} :
    lib.find? (fun d => d.name = name) = none ↔ ∀ c ∈ lib, c.name ≠ name := by
  rw [List.find?_eq_none]
  simp

theorem store_ids (lib : List (Handle α)) (id : Int) (file : NcFile α) :
    (store lib id file).map Handle.id = lib.map Handle.id := by
  unfold store
  rw [List.map_map]
  apply List.map_congr_left
  intro c _
  simp only [Function.comp]
  split <;> rfl

theorem store_names (lib : List (Handle α)) (id : Int) (file : NcFile α) :
    (store lib id file).map Handle.name = lib.map Handle.name := by
  unfold store
  rw [List.map_map]
  apply List.map_congr_left
  intro c _
  simp only [Function.comp]
  split <;> rfl

theorem ids_inj {lib : List (Handle α)} (hn : (lib.map Handle.id).Nodup) {c d : Handle α} (hc : c ∈ lib) (hd : d ∈ lib)
    (h : c.id = d.id) : c = d := by
  have h1 := lookup_mem hn hc
  rw [h, lookup_mem hn hd] at h1
  exact (Option.some.inj h1).symm

theorem names_inj {lib : List (Handle α)} (hn : (lib.map Handle.name).Nodup) {c d : Handle α} (hc : c ∈ lib) (hd : d ∈ lib)
    (h : c.name = d.name) : c = d := by
  have h1 := handle_name hn hc
  rw [h, handle_name hn hd] at h1
  exact (Option.some.inj h1).symm

theorem Handled.objNone {h : HandleSystem α} {s : NamedSystem α} (hs : Handled h s) (k : Nat) : h.objs k = none ↔ s.objs k = none := by
  constructor
  · intro hk
    cases hsk : s.objs k with
    | none => rfl
    | some v =>
      cases v with
      | none => obtain ⟨o, h1, -⟩ := hs.closedObj k hsk; rw [hk] at h1; cases h1
      | some name => obtain ⟨o, h1, -⟩ := hs.openObj k name hsk; rw [hk] at h1; cases h1
  · exact hs.noObj k

/-- A file is open in the library exactly if an object has it. -/
theorem Handled.nameNone {h : HandleSystem α} {s : NamedSystem α} (hs : Handled h s) (name : String) :
    h.lib.find? (fun c => c.name = name) = none ↔ s.fs.objs name = none := by
  rw [find_no_name]
  constructor
  · exact hs.shut name
  · intro hn c hc he
    obtain ⟨k, hk⟩ := hs.opened c hc
    obtain ⟨o, -, c', -, -, -, h3⟩ := hs.openObj k _ hk
    rw [he, hn] at h3
    cases h3

/-- What `close` does. -/
theorem Handled.shutFile {h : HandleSystem α} {s : NamedSystem α} (hs : Handled h s) {k : Nat} {name : String} {c : Handle α}
    {o : IdObj} (hk : s.objs k = some (some name)) (hc : c ∈ h.lib) (hid : c.id = o.id) (hcn : c.name = name)
    (hfo : s.fs.objs name = some ⟨c.dims, c.vars, o.sess, c.file⟩) (v : Option IdObj) (v' : Option (Option String))
    (hv : (v = none ∧ v' = none) ∨ (∃ o', v = some o' ∧ o'.id = -1) ∧ v' = some none) :
    (s.fs.step (.close name)).1 = .ok () ∧
      Handled { h with files := putAt h.files c.name (some c.disk), lib := forget h.lib o.id, objs := putObj h.objs k v }
        ⟨(s.fs.step (.close name)).2, putObj s.objs k v'⟩ := by
  have hstep : s.fs.step (.close name) = (.ok (), ⟨putAt s.fs.files name (some ⟨c.dims, c.vars, c.file⟩),
      putAt s.fs.objs name none, s.fs.mem⟩) := by
    simp only [FileSystem.step, hfo]
    rfl
  rw [hstep]
  have hmem : ∀ d, d ∈ forget h.lib o.id ↔ d ∈ h.lib ∧ d.id ≠ o.id := by
    intro d
    unfold forget
    simp
  have hne : ∀ d ∈ forget h.lib o.id, d.name ≠ name := by
    intro d hd he
    obtain ⟨hd1, hd2⟩ := (hmem d).1 hd
    have := names_inj hs.names hd1 hc (he.trans hcn.symm)
    exact hd2 (this ▸ hid)
  refine ⟨rfl, ⟨?_, hs.mem, ?_, ?_, ?_, ?_, ?_, ?_, ?_, ?_, ?_⟩⟩
  · show putAt s.fs.files name _ = putAt h.files c.name _
    rw [hs.files, hcn]
    rfl
  · exact hs.ids.sublist (List.Sublist.map _ List.filter_sublist)
  · exact hs.names.sublist (List.Sublist.map _ List.filter_sublist)
  · exact fun d hd => hs.nonneg d ((hmem d).1 hd).1
  · intro j hj
    show ∃ o', putObj h.objs k v j = some o' ∧ _
    have hj' : putObj s.objs k v' j = some none := hj
    unfold putObj at hj' ⊢
    by_cases e : j = k
    · rw [if_pos e] at hj' ⊢
      rcases hv with ⟨-, h2⟩ | ⟨⟨o', h1, h1'⟩, -⟩
      · rw [h2] at hj'; cases hj'
      · exact ⟨o', h1, h1'⟩
    · rw [if_neg e] at hj' ⊢
      exact hs.closedObj j hj'
  · intro j hj
    have hj' : putObj s.objs k v' j = none := hj
    show putObj h.objs k v j = none
    unfold putObj at hj' ⊢
    by_cases e : j = k
    · rw [if_pos e] at hj' ⊢
      rcases hv with ⟨h1, -⟩ | ⟨-, h2⟩
      · exact h1
      · rw [h2] at hj'; cases hj'
    · rw [if_neg e] at hj' ⊢
      exact hs.noObj j hj'
  · intro j n hj
    have hj' : putObj s.objs k v' j = some (some n) := hj
    unfold putObj at hj'
    by_cases e : j = k
    · rw [if_pos e] at hj'
      rcases hv with ⟨-, h2⟩ | ⟨-, h2⟩ <;> rw [h2] at hj' <;> cases hj'
    · rw [if_neg e] at hj'
      obtain ⟨o', h1, c', h2, h3, h4, h5⟩ := hs.openObj j n hj'
      have hnn : n ≠ name := fun en => e (hs.own j k n hj' (en ▸ hk))
      refine ⟨o', ?_, c', (hmem c').2 ⟨h2, ?_⟩, h3, h4, ?_⟩
      · show putObj h.objs k v j = some o'
        unfold putObj
        rw [if_neg e]; exact h1
      · intro ei
        have := ids_inj hs.ids h2 hc (ei.trans hid.symm)
        exact hnn (h4.symm.trans (this ▸ hcn))
      · show putAt s.fs.objs name none n = _
        unfold putAt
        rw [if_neg hnn]; exact h5
  · intro d hd
    obtain ⟨j, hj⟩ := hs.opened d ((hmem d).1 hd).1
    refine ⟨j, ?_⟩
    show putObj s.objs k v' j = _
    unfold putObj
    rw [if_neg]
    · exact hj
    · intro e
      rw [e, hk] at hj
      exact hne d hd (Option.some.inj (Option.some.inj hj)).symm
  · intro n hn
    show putAt s.fs.objs name none n = none
    unfold putAt
    by_cases e : n = name
    · rw [if_pos e]
    · rw [if_neg e]
      refine hs.shut n fun d hd he => ?_
      by_cases hdi : d.id = o.id
      · have := ids_inj hs.ids hd hc (hdi.trans hid.symm)
        exact e (he.symm.trans (this ▸ hcn))
      · exact hn d ((hmem d).2 ⟨hd, hdi⟩) he
  · intro j j' n hj hj'
    have h1 : putObj s.objs k v' j = some (some n) := hj
    have h2 : putObj s.objs k v' j' = some (some n) := hj'
    unfold putObj at h1 h2
    by_cases e : j = k
    · rw [if_pos e] at h1
      rcases hv with ⟨-, h3⟩ | ⟨-, h3⟩ <;> rw [h3] at h1 <;> cases h1
    · by_cases e' : j' = k
      · rw [if_pos e'] at h2
        rcases hv with ⟨-, h3⟩ | ⟨-, h3⟩ <;> rw [h3] at h2 <;> cases h2
      · rw [if_neg e] at h1
        rw [if_neg e'] at h2
        exact hs.own j j' n h1 h2

theorem Handled.step {fresh : List Int → Int} (hf : GivesFresh fresh) {h : HandleSystem α} {s : NamedSystem α} (hs : Handled h s)
    (op : ObjOp (Memory α) (Memory α) (OpenArgs α)) :
    OutcomeIs (h.step fresh op).1 (s.step op).1 ∧ Handled (h.step fresh op).2 (s.step op).2 := by
  cases op with
  | start mem =>
    refine ⟨rfl, ⟨?_, rfl, List.nodup_nil, List.nodup_nil, fun c hc => absurd hc List.not_mem_nil, fun k hk => (by cases hk),
      fun k _ => rfl, fun k n hk => (by cases hk), fun c hc => absurd hc List.not_mem_nil, fun n _ => rfl,
      fun k k' n hk => (by cases hk)⟩⟩
    funext n
    show (match s.fs.objs n with | some o => some o.disk | none => s.fs.files n) =
      match h.lib.find? (fun c => c.name = n) with | some c => some c.disk | none => h.files n
    cases hl : h.lib.find? (fun c => c.name = n) with
    | none =>
      rw [(hs.nameNone n).1 hl, hs.files]
    | some c =>
      have hc := List.mem_of_find?_eq_some hl
      have hcn : c.name = n := by simpa using List.find?_some hl
      obtain ⟨k, hk⟩ := hs.opened c hc
      obtain ⟨o, -, c', h1, -, h2, h3⟩ := hs.openObj k _ hk
      have := names_inj hs.names h1 hc h2
      subst this
      rw [← hcn, h3]
      rfl
  | compute mem =>
    exact ⟨rfl, ⟨hs.files, rfl, hs.ids, hs.names, hs.nonneg, hs.closedObj, hs.noObj, hs.openObj, hs.opened, hs.shut, hs.own⟩⟩
  | close k =>
    cases hk : s.objs k with
    | none =>
      simp only [HandleSystem.step, NamedSystem.step, hk, hs.noObj k hk]
      exact ⟨rfl, hs⟩
    | some v =>
      cases v with
      | none =>
        obtain ⟨o, h1, h2⟩ := hs.closedObj k hk
        simp only [HandleSystem.step, NamedSystem.step, hk, h1, h2, lookup_neg hs.nonneg]
        exact ⟨rfl, hs⟩
      | some name =>
        obtain ⟨o, h1, c, hc, hid, hcn, hfo⟩ := hs.openObj k name hk
        have hl := lookup_mem hs.ids hc
        rw [hid] at hl
        simp only [HandleSystem.step, NamedSystem.step, hk, h1, hl, NamedSystem.plain]
        obtain ⟨e1, e2⟩ := hs.shutFile hk hc hid hcn hfo (some ⟨-1, o.sess⟩) (some none) (Or.inr ⟨⟨_, rfl, rfl⟩, rfl⟩)
        exact ⟨e1.symm, e2⟩
  | drop k =>
    cases hk : s.objs k with
    | none =>
      simp only [HandleSystem.step, NamedSystem.step, hk, hs.noObj k hk]
      exact ⟨rfl, hs⟩
    | some v =>
      cases v with
      | none =>
        obtain ⟨o, h1, h2⟩ := hs.closedObj k hk
        simp only [HandleSystem.step, NamedSystem.step, hk, h1, h2, if_true]
        refine ⟨rfl, ⟨hs.files, hs.mem, hs.ids, hs.names, hs.nonneg, ?_, ?_, ?_, ?_, hs.shut, ?_⟩⟩
        · intro j hj
          simp only [putObj] at hj ⊢
          by_cases e : j = k
          · rw [if_pos e] at hj; cases hj
          · rw [if_neg e] at hj ⊢; exact hs.closedObj j hj
        · intro j hj
          simp only [putObj] at hj ⊢
          by_cases e : j = k
          · rw [if_pos e]
          · rw [if_neg e] at hj ⊢; exact hs.noObj j hj
        · intro j n hj
          simp only [putObj] at hj ⊢
          by_cases e : j = k
          · rw [if_pos e] at hj; cases hj
          · rw [if_neg e] at hj ⊢; exact hs.openObj j n hj
        · intro c hc
          obtain ⟨j, hj⟩ := hs.opened c hc
          refine ⟨j, ?_⟩
          simp only [putObj]
          rw [if_neg]
          · exact hj
          · intro e
            rw [e, hk] at hj
            cases hj
        · intro j j' n hj hj'
          simp only [putObj] at hj hj'
          by_cases e : j = k
          · rw [if_pos e] at hj; cases hj
          · by_cases e' : j' = k
            · rw [if_pos e'] at hj'; cases hj'
            · rw [if_neg e] at hj
              rw [if_neg e'] at hj'
              exact hs.own j j' n hj hj'
      | some name =>
        obtain ⟨o, h1, c, hc, hid, hcn, hfo⟩ := hs.openObj k name hk
        have hl := lookup_mem hs.ids hc
        rw [hid] at hl
        have hne : ¬ o.id = -1 := by
          have := hs.nonneg c hc
          omega
        simp only [HandleSystem.step, NamedSystem.step, hk, h1, hl, NamedSystem.plain, if_neg hne]
        obtain ⟨e1, e2⟩ := hs.shutFile hk hc hid hcn hfo none none (Or.inl ⟨rfl, rfl⟩)
        exact ⟨e1.symm, e2⟩
  | openFile k name mode a =>
    cases hk : s.objs k with
    | some v =>
      have hk' : h.objs k ≠ none := fun e => by rw [(hs.objNone k).1 e] at hk; cases hk
      simp only [HandleSystem.step, NamedSystem.step, hk]
      cases ho : h.objs k with
      | none => exact absurd ho hk'
      | some o => exact ⟨rfl, hs⟩
    | none =>
      have ho := hs.noObj k hk
      cases hn : s.fs.objs name with
      | some fo =>
        have : h.lib.find? (fun c => c.name = name) ≠ none := fun e => by rw [(hs.nameNone name).1 e] at hn; cases hn
        simp only [HandleSystem.step, NamedSystem.step, hk, hn, ho]
        cases hl : h.lib.find? (fun c => c.name = name) with
        | none => exact absurd hl this
        | some c => exact ⟨rfl, hs⟩
      | none =>
        have hl := (hs.nameNone name).2 hn
        simp only [HandleSystem.step, NamedSystem.step, hk, hn, ho, hl, NamedSystem.plain, FileSystem.step]
        rw [hs.files]
        cases hopen : FileObj.open mode a (h.files name) with
        | throw e =>
          simp only [hn, Option.isSome_none, Bool.false_eq_true, if_false]
          exact ⟨rfl, hs⟩
        | ub =>
          simp only [hn, Option.isSome_none, Bool.false_eq_true, if_false]
          exact ⟨rfl, hs⟩
        | ok r =>
          have hnew : (putAt s.fs.objs name (some r.2) name).isSome = true := by simp [putAt]
          simp only [hnew, if_true]
          obtain ⟨hf0, hf1⟩ := hf (h.lib.map Handle.id)
          have hnn := find_no_name.1 hl
          refine ⟨rfl, ⟨rfl, hs.mem, ?_, ?_, ?_, ?_, ?_, ?_, ?_, ?_, ?_⟩⟩
          · rw [List.map_cons, List.nodup_cons]
            exact ⟨hf1, hs.ids⟩
          · rw [List.map_cons, List.nodup_cons]
            refine ⟨fun hm => ?_, hs.names⟩
            obtain ⟨c, hc, he⟩ := List.mem_map.1 hm
            exact hnn c hc he
          · intro c hc
            rcases List.mem_cons.1 hc with rfl | hc
            · exact hf0
            · exact hs.nonneg c hc
          · intro j hj
            simp only [putObj] at hj ⊢
            by_cases e : j = k
            · rw [if_pos e] at hj; cases hj
            · rw [if_neg e] at hj ⊢; exact hs.closedObj j hj
          · intro j hj
            simp only [putObj] at hj ⊢
            by_cases e : j = k
            · rw [if_pos e] at hj; cases hj
            · rw [if_neg e] at hj ⊢; exact hs.noObj j hj
          · intro j n hj
            simp only [putObj] at hj ⊢
            by_cases e : j = k
            · rw [if_pos e] at hj ⊢
              cases hj
              exact ⟨_, rfl, _, List.mem_cons_self, rfl, rfl, by simp [putAt]⟩
            · rw [if_neg e] at hj ⊢
              obtain ⟨o, h1, c, h2, h3, h4, h5⟩ := hs.openObj j n hj
              refine ⟨o, h1, c, List.mem_cons_of_mem _ h2, h3, h4, ?_⟩
              have : n ≠ name := fun en => by rw [en, hn] at h5; cases h5
              simp only [putAt]
              rw [if_neg this]; exact h5
          · intro c hc
            rcases List.mem_cons.1 hc with rfl | hc
            · exact ⟨k, by simp [putObj]⟩
            · obtain ⟨j, hj⟩ := hs.opened c hc
              refine ⟨j, ?_⟩
              simp only [putObj]
              rw [if_neg]
              · exact hj
              · intro e
                rw [e, hk] at hj; cases hj
          · intro n hn'
            have h1 : n ≠ name := fun e => hn' _ List.mem_cons_self e.symm
            simp only [putAt]
            rw [if_neg h1]
            exact hs.shut n fun c hc => hn' c (List.mem_cons_of_mem _ hc)
          · intro j j' n hj hj'
            simp only [putObj] at hj hj'
            have hfree : ∀ i, s.objs i ≠ some (some name) := by
              intro i hi
              obtain ⟨o, -, c, -, -, -, h5⟩ := hs.openObj i name hi
              rw [hn] at h5; cases h5
            by_cases e : j = k
            · rw [if_pos e] at hj
              cases hj
              by_cases e' : j' = k
              · rw [e, e']
              · rw [if_neg e'] at hj'
                exact absurd hj' (hfree j')
            · rw [if_neg e] at hj
              by_cases e' : j' = k
              · rw [if_pos e'] at hj'
                cases hj'
                exact absurd hj (hfree j)
              · rw [if_neg e'] at hj'
                exact hs.own j j' n hj hj'
  | on k op =>
    cases hk : s.objs k with
    | none =>
      simp only [HandleSystem.step, NamedSystem.step, hk, hs.noObj k hk]
      exact ⟨rfl, hs⟩
    | some v =>
      cases v with
      | none =>
        obtain ⟨o, h1, h2⟩ := hs.closedObj k hk
        simp only [HandleSystem.step, NamedSystem.step, hk, h1, h2, lookup_neg hs.nonneg]
        refine ⟨closedStep_cases _ _, ⟨hs.files, hs.mem, hs.ids, hs.names, hs.nonneg, ?_, ?_, ?_, hs.opened, hs.shut, hs.own⟩⟩
        · intro j hj
          simp only [putObj]
          by_cases e : j = k
          · rw [if_pos e]
            exact ⟨_, rfl, rfl⟩
          · rw [if_neg e]; exact hs.closedObj j hj
        · intro j hj
          simp only [putObj]
          rw [if_neg]
          · exact hs.noObj j hj
          · intro e
            rw [e, hk] at hj; cases hj
        · intro j n hj
          simp only [putObj]
          rw [if_neg]
          · exact hs.openObj j n hj
          · intro e
            rw [e, hk] at hj; cases hj
      | some name =>
        obtain ⟨o, h1, c, hc, hid, hcn, hfo⟩ := hs.openObj k name hk
        have hl := lookup_mem hs.ids hc
        rw [hid] at hl
        simp only [HandleSystem.step, NamedSystem.step, hk, h1, hl, NamedSystem.plain, FileSystem.step, hfo]
        rw [hs.mem]
        generalize World.step ⟨o.sess, c.file, h.mem⟩ (lift op) = r
        have hmem : ∀ d, d ∈ store h.lib o.id r.2.file ↔ ∃ d' ∈ h.lib, (if d'.id = o.id then { d' with file := r.2.file } else d') = d := by
          intro d
          unfold store
          rw [List.mem_map]
        refine ⟨rfl, ⟨hs.files, rfl, ?_, ?_, ?_, ?_, ?_, ?_, ?_, ?_, hs.own⟩⟩
        · rw [store_ids]; exact hs.ids
        · rw [store_names]; exact hs.names
        · intro d hd
          obtain ⟨d', h1', rfl⟩ := (hmem d).1 hd
          have := hs.nonneg d' h1'
          split <;> exact this
        · intro j hj
          simp only [putObj]
          rw [if_neg]
          · exact hs.closedObj j hj
          · intro e
            rw [e, hk] at hj; cases hj
        · intro j hj
          simp only [putObj]
          rw [if_neg]
          · exact hs.noObj j hj
          · intro e
            rw [e, hk] at hj; cases hj
        · intro j n hj
          simp only [putObj]
          by_cases e : j = k
          · rw [if_pos e]
            rw [e, hk] at hj
            cases hj
            refine ⟨_, rfl, { c with file := r.2.file }, (hmem _).2 ⟨c, hc, by rw [if_pos hid]⟩, hid, hcn, ?_⟩
            simp [putAt]
          · rw [if_neg e]
            obtain ⟨o', g1, c', g2, g3, g4, g5⟩ := hs.openObj j n hj
            have hnn : n ≠ name := fun en => e (hs.own j k n hj (en ▸ hk))
            have hci : ¬ c'.id = o.id := fun ei => by
              have := ids_inj hs.ids g2 hc (ei.trans hid.symm)
              exact hnn (g4.symm.trans (this ▸ hcn))
            refine ⟨o', g1, c', (hmem _).2 ⟨c', g2, by rw [if_neg hci]⟩, g3, g4, ?_⟩
            simp only [putAt]
            rw [if_neg hnn]; exact g5
        · intro d hd
          obtain ⟨d', h1', rfl⟩ := (hmem d).1 hd
          obtain ⟨j, hj⟩ := hs.opened d' h1'
          refine ⟨j, ?_⟩
          split <;> exact hj
        · intro n hn
          have h1 : n ≠ name := by
            intro e
            exact hn { c with file := r.2.file } ((hmem _).2 ⟨c, hc, by rw [if_pos hid]⟩) (hcn.trans e.symm)
          simp only [putAt]
          rw [if_neg h1]
          refine hs.shut n fun d hd he => ?_
          refine hn _ ((hmem _).2 ⟨d, hd, rfl⟩) ?_
          split <;> exact he

theorem Handled.run {fresh : List Int → Int} (hf : GivesFresh fresh) (ops : List (ObjOp (Memory α) (Memory α) (OpenArgs α))) :
    ∀ {h : HandleSystem α} {s : NamedSystem α}, Handled h s →
      List.Forall₂ OutcomeIs (h.run fresh ops).1 (s.run ops).1 ∧ Handled (h.run fresh ops).2 (s.run ops).2 := by
  induction ops with
  | nil => exact fun hs => ⟨.nil, hs⟩
  | cons op ops ih =>
    intro h s hs
    obtain ⟨h1, h2⟩ := hs.step hf op
    obtain ⟨h3, h4⟩ := ih h2
    exact ⟨.cons h1 h3, h4⟩

end Verif.Props
