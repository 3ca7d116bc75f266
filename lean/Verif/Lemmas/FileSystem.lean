import Verif.Props.FileParts
import Verif.Lemmas.PyFileRun
import Verif.Spec.FileSystem
/-
Helper lemmas for C100: programs with several files.
-/
namespace Verif.Props
open Verif Verif.NetCDF
open Verif.PyFile (lift)

variable {α : Type}

/-! ### Only the fields of a file change -/

theorem readNames_mem {file : NcFile α} {frame : Int} {m : String} (names : List String) (st : Sess × Memory α)
    (hm : m ∉ st.1.names) : (readNames file frame names st).2.2 m = st.2 m := by
  induction names generalizing st with
  | nil => rfl
  | cons n ns ih =>
    rw [readNames]
    cases hf : st.1.find n with
    | some x =>
      have hx : x.name ≠ m := by
        rintro rfl
        exact hm (List.mem_map_of_mem (List.mem_of_find?_eq_some hf))
      dsimp only
      cases he : st.1.entriesForRead x file with
      | ok s1 =>
        dsimp only
        have hv : s1.vars = st.1.vars := entriesForRead_vars he
        cases hp : s1.getVar file x frame st.2 with
        | ok m2 =>
          dsimp only
          rw [ih _ (by rw [Sess.names, hv]; exact hm)]
          unfold Sess.getVar at hp
          split at hp
          · cases hp
          · obtain ⟨ms, -, e⟩ := Res.bind_eq_ok.1 hp
            rw [Res.pure_eq] at e
            cases e
            exact if_neg (c := m = x.name) fun e => hx e.symm
        | throw e => rfl
        | ub => rfl
      | throw e => rfl
      | ub => rfl
    | none =>
      dsimp only
      cases hp : st.1.getEntries n frame file with
      | ok s1 =>
        dsimp only
        rw [ih _ (by rw [Sess.names, getEntries_vars hp]; exact hm)]
      | throw e => rfl
      | ub => rfl

theorem stepOn_mem (w : World α) (op : FileOp Empty) {m : String} (hm : m ∉ w.sess.names) :
    (w.step (lift op)).2.mem m = w.mem m := by
  cases op with
  | appendFrame => rfl
  | write fr ns => rfl
  | writeAll fr => rfl
  | read fr ns => exact readNames_mem ns (w.sess, w.mem) hm
  | readAll fr => exact readNames_mem _ (w.sess, w.mem) hm
  | compute c => exact c.elim

theorem Table.read_cur {V : Type} {known : List String} {frame : Int} {m : String} (hm : m ∉ known) :
    ∀ (names : List String) (t : Table V), (t.read known frame names).2.cur m = t.cur m
  | [], _ => rfl
  | n :: ns, t => by
    rw [Table.read]
    split
    · rename_i hn
      cases hf : meantFrame t.nb frame with
      | none => rfl
      | some fr =>
        dsimp only
        cases hc : t.cell fr n with
        | none => rfl
        | some v =>
          dsimp only
          rw [Table.read_cur hm ns]
          exact if_neg (c := m = n) fun e => hm (e ▸ hn)
    · rfl

theorem Table.read_writable {V : Type} {known : List String} {frame : Int} :
    ∀ (names : List String) (t : Table V), (t.read known frame names).2.writable = t.writable
  | [], _ => rfl
  | n :: ns, t => by
    rw [Table.read]
    split
    · cases hf : meantFrame t.nb frame with
      | none => rfl
      | some fr =>
        dsimp only
        cases hc : t.cell fr n with
        | none => rfl
        | some v => exact Table.read_writable ns _
    · rfl

theorem Table.write_keeps {V : Type} {known : List String} {frame : Int} :
    ∀ (names : List String) (t : Table V), (t.write known frame names).2.cur = t.cur ∧
      (t.write known frame names).2.writable = t.writable
  | [], _ => ⟨rfl, rfl⟩
  | n :: ns, t => by
    rw [Table.write]
    split
    · cases hf : meantFrame t.nb frame with
      | none => exact ⟨rfl, rfl⟩
      | some fr => exact Table.write_keeps ns (t.put fr n)
    · exact ⟨rfl, rfl⟩

theorem Table.step_cur {V : Type} {known : List String} {m : String} (hm : m ∉ known) (t : Table V) (op : FileOp Empty) :
    (t.step known (lift op)).2.cur m = t.cur m := by
  cases op with
  | appendFrame => rfl
  | write fr ns => exact congrFun (Table.write_keeps ns t).1 m
  | writeAll fr => exact congrFun (Table.write_keeps known t).1 m
  | read fr ns => exact Table.read_cur hm ns t
  | readAll fr => exact Table.read_cur hm known t
  | compute c => exact c.elim

theorem Table.step_writable {V : Type} {known : List String} (t : Table V) (op : FileOp Empty) :
    (t.step known (lift op)).2.writable = t.writable := by
  cases op with
  | appendFrame => rfl
  | write fr ns => exact (Table.write_keeps ns t).2
  | writeAll fr => exact (Table.write_keeps known t).2
  | read fr ns => exact Table.read_writable ns t
  | readAll fr => exact Table.read_writable known t
  | compute c => exact c.elim

/-! ### Some of the collections -/

theorem localColl_iff {r : FileRank} (hd : ∀ c ∈ r.colls, ∀ c' ∈ r.colls, c.kind ≠ none → c'.kind ≠ none → c.name = c'.name → c = c')
    {c : IoColl} (hc : c ∈ r.colls) {ids : List Int} {total off : Int} (hl : c.domain = .isLocal ids total off) :
    r.localColl c.name = some (ids, total, off) := by
  unfold FileRank.localColl
  rw [List.findSome?_eq_some_iff]
  have hkc : c.kind ≠ none := by rw [IoColl.kind, hl]; simp
  obtain ⟨l₁, l₂, e, hnot⟩ : ∃ l₁ l₂, r.colls = l₁ ++ c :: l₂ ∧ c ∉ l₁ := by
    exact List.eq_append_cons_of_mem hc
  refine ⟨l₁, c, l₂, e, by simp [hl], fun x hx => ?_⟩
  cases hxd : x.domain with
  | global nb sh lo => rfl
  | isLocal i t o =>
    dsimp only
    rw [if_neg]
    intro hn
    have := hd x (by rw [e]; simp [hx]) c hc (by rw [IoColl.kind, hxd]; simp) hkc hn
    exact hnot (this ▸ hx)

theorem _root_.Verif.SomeOf.view {r r' : FileRank}
    (hd : ∀ c ∈ r.colls, ∀ c' ∈ r.colls, c.kind ≠ none → c'.kind ≠ none → c.name = c'.name → c = c')
    (h : r'.dom = r.dom ∧ ∀ c ∈ r'.colls, c ∈ r.colls) {e : Option (String × Int) × String × IoField × Option Nat}
    (he : e ∈ r'.entries) : r'.view e.1 = r.view e.1 := by
  obtain ⟨c, hc, hx⟩ := List.mem_flatMap.1 he
  obtain ⟨x, -, rfl⟩ := List.mem_map.1 hx
  have hd' : ∀ c ∈ r'.colls, ∀ c' ∈ r'.colls, c.kind ≠ none → c'.kind ≠ none → c.name = c'.name → c = c' :=
    fun a ha b hb => hd a (h.2 a ha) b (h.2 b hb)
  cases hcd : c.domain with
  | global nb sh lo =>
    have : c.kind = none := by rw [IoColl.kind, hcd]
    rw [this]
    rfl
  | isLocal ids total off =>
    have hk : c.kind = some (c.name, total) := by rw [IoColl.kind, hcd]
    rw [hk]
    have e1 : r'.ids c.name = r.ids c.name := by
      rw [FileRank.ids, FileRank.ids, localColl_iff hd' hc hcd, localColl_iff hd (h.2 c hc) hcd]
    have e2 : r'.coord = r.coord := by
      funext id
      rw [FileRank.coord, FileRank.coord, h.1]
    funext g
    rw [FileRank.view, FileRank.view, e1, e2]

theorem _root_.Verif.SomeOf.entries {r r' : FileRank} (h : r'.dom = r.dom ∧ ∀ c ∈ r'.colls, c ∈ r.colls)
    {e : Option (String × Int) × String × IoField × Option Nat} (he : e ∈ r'.entries) : e ∈ r.entries := by
  obtain ⟨c, hc, hx⟩ := List.mem_flatMap.1 he
  exact List.mem_flatMap.2 ⟨c, h.2 c hc, hx⟩

theorem eq_of_name {l : List (Option (String × Int) × String × IoField × Option Nat)} (h : (l.map fun e => e.2.1).Nodup)
    {a b : Option (String × Int) × String × IoField × Option Nat} (ha : a ∈ l) (hb : b ∈ l) (e : a.2.1 = b.2.1) : a = b :=
  List.inj_on_of_nodup_map h ha hb e

theorem stored_mem {dom : List Int} {rs : List FileRank} (h : Verif.ProgramOk dom rs) {r : FileRank} (hr : r ∈ rs) {n : String}
    (hn : n ∈ storedNames rs) : ∃ e ∈ r.entries, e.2.1 = n := by
  cases hrs : rs with
  | nil => rw [hrs] at hr; cases hr
  | cons r0 rest =>
    rw [hrs] at hn
    obtain ⟨e, he, hen⟩ := List.mem_map.1 hn
    obtain ⟨e', he', -, h2, -⟩ := sig_entry (h.same r0 (by rw [hrs]; simp) r hr) he
    exact ⟨e', he', h2.trans hen⟩

theorem _root_.Verif.SomeOf.names {all rs : List FileRank} (h : SomeOf all rs) : ∀ n ∈ storedNames rs, n ∈ storedNames all := by
  cases h with
  | nil => exact fun _ h => h
  | cons h1 _ =>
    intro n hn
    obtain ⟨e, he, hen⟩ := List.mem_map.1 hn
    exact List.mem_map.2 ⟨e, SomeOf.entries h1 he, hen⟩

theorem forall₂_other {β γ δ : Type} {P : β → δ → Prop} {S : β → γ → Prop} {Q : γ → δ → Prop} {l : List β} {l' : List γ}
    {ms : List δ} (h : List.Forall₂ S l l') (hp : List.Forall₂ P l ms)
    (hq : ∀ r ∈ l, ∀ r' ∈ l', ∀ m, S r r' → P r m → Q r' m) : List.Forall₂ Q l' ms := by
  induction h generalizing ms with
  | nil => cases hp; exact .nil
  | @cons r r' l l' h1 _ ih =>
    cases hp with
    | cons p1 p2 =>
      exact .cons (hq r (by simp) r' (by simp) _ h1 p1) (ih p2 fun a ha b hb => hq a (by simp [ha]) b (by simp [hb]))

theorem forall₂_back {β γ δ : Type} {P : γ → δ → Prop} {S : β → γ → Prop} {Q : β → δ → Prop} {l : List β} {l' : List γ}
    {ms : List δ} (h : List.Forall₂ S l l') (hp : List.Forall₂ P l' ms)
    (hq : ∀ r ∈ l, ∀ r' ∈ l', ∀ m, S r r' → P r' m → Q r m) : List.Forall₂ Q l ms := by
  induction h generalizing ms with
  | nil => cases hp; exact .nil
  | @cons r r' l l' h1 _ ih =>
    cases hp with
    | cons p1 p2 =>
      exact .cons (hq r (by simp) r' (by simp) _ h1 p1) (ih p2 fun a ha b hb => hq a (by simp [ha]) b (by simp [hb]))

theorem _root_.Verif.SomeOf.holds {dom : List Int} {all rs : List FileRank} (h : SomeOf all rs) (hd : Distinct all)
    (hok : Verif.ProgramOk dom rs) {mem : Memory α} {cur : String → Values α} (hh : ProgramHolds all mem cur) :
    ProgramHolds rs mem cur := by
  intro n hn
  refine forall₂_other h (hh n (h.names n hn)) fun r hr r' hr' m hs hp => ?_
  obtain ⟨e, he, hen, hpart⟩ := hp
  obtain ⟨e', he', hen'⟩ := stored_mem hok hr' hn
  have : e' = e := eq_of_name (hd r hr).1 (SomeOf.entries hs he') he (hen'.trans hen.symm)
  subst this
  refine ⟨e', he', hen, ?_⟩
  rw [SomeOf.view (hd r hr).2 hs he']
  exact hpart

theorem _root_.Verif.SomeOf.holds_back {all rs : List FileRank} (h : SomeOf all rs) (hd : Distinct all) {mem mem' : Memory α}
    {cur cur' : String → Values α} (hh : ProgramHolds all mem cur) (hh' : ProgramHolds rs mem' cur')
    (hm : ∀ n, n ∉ storedNames rs → mem' n = mem n) (hc : ∀ n, n ∉ storedNames rs → cur' n = cur n) :
    ProgramHolds all mem' cur' := by
  intro n hn
  by_cases hin : n ∈ storedNames rs
  · refine forall₂_back h (hh' n hin) fun r hr r' hr' m hs hp => ?_
    obtain ⟨e, he, hen, hpart⟩ := hp
    refine ⟨e, SomeOf.entries hs he, hen, ?_⟩
    rw [← SomeOf.view (hd r hr).2 hs he]
    exact hpart
  · rw [hm n hin, hc n hin]
    exact hh n hn

/-! ### What is known about the rest of a session -/

/-- What is known about a file object, whatever the program does with it. -/
def Rest (rs : List FileRank) (P : FileOp (Memory α) → Prop) (Q : World α → Table (Values α) → Prop) (w : World α)
    (t : Table (Values α)) : Prop :=
  ∀ ops sops, List.Forall₂ (SameOp (ProgramHolds rs)) ops sops → (∀ op ∈ ops, P op) → t.NoGaps (storedNames rs) sops →
    List.Forall₂ AsExpected (w.run ops).1 (t.run (storedNames rs) sops).1 ∧
      ProgramHolds rs (w.run ops).2.mem (t.run (storedNames rs) sops).2.cur ∧
      Q (w.run ops).2 (t.run (storedNames rs) sops).2

section
variable {rs : List FileRank} {P : FileOp (Memory α) → Prop} {Q : World α → Table (Values α) → Prop} {w : World α}
  {t : Table (Values α)}

theorem Rest.now (h : Rest rs P Q w t) : ProgramHolds rs w.mem t.cur ∧ Q w t := (h [] [] .nil (by simp) trivial).2

theorem Rest.step (h : Rest rs P Q w t) {op : FileOp (Memory α)} {sop : FileOp (String → Values α)}
    (hs : SameOp (ProgramHolds rs) op sop) (hn : P op) (hg : t.ReadsFilled (storedNames rs) sop) :
    AsExpected (w.step op).1 (t.step (storedNames rs) sop).1 ∧
      Rest rs P Q (w.step op).2 (t.step (storedNames rs) sop).2 := by
  constructor
  · have := (h [op] [sop] (.cons hs .nil) (by simpa using hn) ⟨hg, trivial⟩).1
    cases this with
    | cons h1 _ => exact h1
  · intro ops sops h1 h2 h3
    obtain ⟨k1, k2⟩ := h (op :: ops) (sop :: sops) (.cons hs h1) (by
      intro o ho
      rcases List.mem_cons.1 ho with rfl | ho
      · exact hn
      · exact h2 o ho) ⟨hg, h3⟩
    cases k1 with
    | cons _ k1 => exact ⟨k1, k2⟩

end

/-- What the program may do with a file that is open. -/
def MayDo (rs : List FileRank) (writable : Bool) (op : FileOp (Memory α)) : Prop :=
  NoLocalNames rs op ∧ (writable = false → RefusedBy rs op)

theorem mayDo_lift {rs : List FileRank} {b : Bool} {op : FileOp Empty} (h1 : NoLocalNames rs op)
    (h2 : b = false → RefusedBy rs op) : MayDo rs b (lift op : FileOp (Memory α)) := by
  cases op with
  | appendFrame => exact ⟨h1, h2⟩
  | write fr ns => exact ⟨h1, h2⟩
  | writeAll fr => exact ⟨h1, h2⟩
  | read fr ns => exact ⟨h1, h2⟩
  | readAll fr => exact ⟨h1, h2⟩
  | compute c => exact c.elim

theorem mayDo_compute {rs : List FileRank} {b : Bool} (m : Memory α) : MayDo rs b (.compute m) := ⟨trivial, fun _ => trivial⟩

/-! ### The files -/

theorem nbFrames_nonneg {V : Type} {cell : Int → String → Option V} {a : Int} (h : NbFrames cell a) : 0 ≤ a := by
  rcases h.2 with rfl | ⟨n, v, hv⟩
  · exact le_refl _
  · have := h.1 _ _ _ hv
    omega

theorem nbFrames_le {V : Type} {cell : Int → String → Option V} {a b : Int} (ha : NbFrames cell a) (hb : NbFrames cell b) :
    a ≤ b := by
  rcases ha.2 with rfl | ⟨n, v, hv⟩
  · exact nbFrames_nonneg hb
  · have := hb.1 _ _ _ hv
    omega

theorem nbRows_eq {V : Type} {cell : Int → String → Option V} {a : Int} (h : NbFrames cell a) : nbRows cell = a := by
  have hex : ∃ nb, NbFrames cell nb := ⟨a, h⟩
  rw [nbRows, dif_pos hex]
  exact le_antisymm (nbFrames_le hex.choose_spec h) (nbFrames_le h hex.choose_spec)

/-- The file on the disk is the one that is expected. -/
def FileIs (f : ShutFile α) (d : Disk α) : Prop :=
  ∃ dom mode D, Verif.ProgramOk dom f.made ∧ (mode = .write ∨ mode = .overwrite) ∧ FileHas dom f.made mode D d f.cell

/-- The open file object is the one that is expected. -/
structure ObjIs (all : List FileRank) (cur : String → Values α) (mem : Memory α) (o : OpenedFile α) (p : FileObj α) :
    Prop where
  ok : ∃ dom, Verif.ProgramOk dom o.ranks
  some : SomeOf all o.ranks
  names : p.sess.names = storedNames o.ranks
  rest : Rest o.ranks (MayDo o.ranks o.writable)
    (fun w t => FileIs ⟨o.made, t.cell⟩ ⟨p.dims, p.vars, w.file⟩) ⟨p.sess, p.file, mem⟩ (o.table cur)

theorem firstBad_ok {rs : List (Res Unit)} (h : ∀ r ∈ rs, r = .ok ()) : firstBad rs = .ok () := by
  induction rs with
  | nil => rfl
  | cons r rs ih =>
    rw [h r (by simp)]
    exact ih fun x hx => h x (by simp [hx])

theorem create_is {dom : List Int} {all rs : List FileRank} (h : Verif.ProgramOk dom rs) (hn : Numbered rs)
    (hd : Distinct all) (hs : SomeOf all rs) {mode : OpenMode} (hm : mode = .write ∨ mode = .overwrite) {a : OpenArgs α}
    (ha : a.colls = rs.map FileRank.colls) {mem : Memory α} {cur : String → Values α} (hh : ProgramHolds all mem cur) :
    (FileObj.create mode a).1 = .ok () ∧
      ObjIs all cur mem ⟨rs, rs, true, 0, fun _ _ => none⟩ (FileObj.create mode a).2 := by
  have hrs := hs.holds hd h hh
  have key := fun ops sops h1 h2 h3 => create_has h hn hm a.garbage a.garbageInt hrs (ops := ops) (sops := sops) h1 h2 h3
  have hc : FileObj.create mode a = FileObj.make mode (registerRanks mode [] [] 0 (rs.map FileRank.colls))
    fun s => NcFile.created s.vars s.hidden a.garbage a.garbageInt := by rw [FileObj.create, ha]
  rw [hc]
  refine ⟨?_, ⟨⟨dom, h⟩, hs, ?_, ?_⟩⟩
  · obtain ⟨k, -⟩ := key [] [] .nil (by simp) trivial
    exact firstBad_ok fun r hr => by
      obtain ⟨os, hos, hr⟩ := List.mem_flatten.1 hr
      exact k os hos r hr
  · show (joinVars ((registerRanks mode [] [] 0 (rs.map FileRank.colls)).map Prod.snd)).map SessVar.name = _
    rw [registerRanks_snd]
    exact storedNames_eq h fun r hr => regOf_new h hm hr
  · intro ops sops h1 h2 h3
    obtain ⟨-, k2, k3, -, D, k5⟩ := key ops sops h1 (fun op hop => (h2 op hop).1) h3
    exact ⟨k2, k3, dom, mode, D, h, hm, k5⟩

theorem programOk_dom {dom dom' : List Int} {rs : List FileRank} (h : Verif.ProgramOk dom rs)
    (h' : Verif.ProgramOk dom' rs) : dom = dom' := by
  obtain ⟨r, hr⟩ := List.exists_mem_of_ne_nil _ h.nonempty
  rw [← h.domain r hr, ← h'.domain r hr]

theorem reopen_is {dom : List Int} {all rs : List FileRank} {f : ShutFile α} {d : Disk α} (hf : FileIs f d)
    (h : Verif.ProgramOk dom f.made) (h' : Verif.ProgramOk dom rs) (hp : PartData f.made rs)
    (hd : Distinct all) (hs : SomeOf all rs) {mode : OpenMode} (hm : mode = .read ∨ mode = .append)
    (happ : mode = .append → ∀ r' ∈ rs, ∀ e' ∈ r'.entries, ∀ l total, e'.1 = some (l, total) →
        ∀ r ∈ f.made, ∃ e ∈ r.entries, e.1 = some (l, total) ∧ HasCell f.cell e.2.1) {a : OpenArgs α}
    (ha : a.colls = rs.map FileRank.colls) {mem : Memory α} {cur : String → Values α} (hh : ProgramHolds all mem cur) :
    (FileObj.reopen mode a d).1 = .ok () ∧
      ObjIs all cur mem ⟨f.made, rs, decide (mode = .append), nbRows f.cell, f.cell⟩ (FileObj.reopen mode a d).2 := by
  have hrs := hs.holds hd h' hh
  obtain ⟨dom', mode0, D, hok, hmo, hfile⟩ := hf
  obtain rfl := programOk_dom h hok
  have hnb : nbRows f.cell = d.data.numrecs := nbRows_eq hfile.nbFrames
  have key := fun ops sops h1 h2 h3 h4 => part_has h hmo hfile (u := ⟨rs, mode, mem, cur, ops, sops⟩)
    ⟨h', hp, hm, hrs, h1, h2, h3⟩ happ h4
  have hc : FileObj.reopen mode a d = FileObj.make mode (registerRanks mode d.dims d.vars d.data.numrecs (rs.map FileRank.colls))
    fun _ => d.data := by rw [FileObj.reopen, ha]
  rw [hc, hnb]
  refine ⟨?_, ⟨⟨dom, h'⟩, hs, ?_, ?_⟩⟩
  · obtain ⟨k, -⟩ := key [] [] .nil (by simp) (by simp) trivial
    exact firstBad_ok fun r hr => by
      obtain ⟨os, hos, hr⟩ := List.mem_flatten.1 hr
      exact k os hos r hr
  · show (joinVars ((registerRanks mode d.dims d.vars d.data.numrecs (rs.map FileRank.colls)).map Prod.snd)).map SessVar.name = _
    obtain ⟨r0, h0⟩ := List.exists_mem_of_ne_nil _ h.nonempty
    obtain ⟨hd1, hd2⟩ := hfile.header r0 h0
    rw [registerRanks_snd]
    refine storedNames_eq h' (mode := mode) fun r hr => ?_
    have := (regOf_part h hmo h0 h' hp hm d.data.numrecs (r' := r) hr).2.1
    rwa [← hd1, ← hd2] at this
  · intro ops sops h1 h2 h3
    obtain ⟨-, k2, k3, -, k5, -⟩ := key ops sops h1 (fun op hop => (h2 op hop).1) (fun e op hop => (h2 op hop).2 (by
      show decide (mode = .append) = false
      have e' : mode = .read := e
      rw [e']; rfl)) h3
    exact ⟨k2, k3, dom, mode0, D, h, hmo, k5⟩

/-! ### The simulation -/

/-- The state of the model is the one that is expected. -/
structure SystemIs (s : Tables α) (w : FileSystem α) : Prop where
  distinct : Distinct s.ranks
  mem : ProgramHolds s.ranks w.mem s.cur
  objs : ∀ f, match s.opened f with
    | none => w.objs f = none
    | some o => ∃ p, w.objs f = some p ∧ ObjIs s.ranks s.cur w.mem o p
  files : ∀ f, s.opened f = none → match s.shut f with
    | none => w.files f = none
    | some c => ∃ d, w.files f = some d ∧ FileIs c d

theorem ObjIs.shut {all : List FileRank} {cur : String → Values α} {mem : Memory α} {o : OpenedFile α} {p : FileObj α}
    (h : ObjIs all cur mem o p) : FileIs o.shut p.disk := h.rest.now.2

/-- The memory changes, but not by this object. -/
theorem ObjIs.other {all : List FileRank} (hd : Distinct all) {cur cur' : String → Values α} {mem mem' : Memory α}
    {o : OpenedFile α} {p : FileObj α} (h : ObjIs all cur mem o p) (hh : ProgramHolds all mem' cur') :
    ObjIs all cur' mem' o p := by
  obtain ⟨dom, hok⟩ := h.ok
  refine ⟨h.ok, h.some, h.names, ?_⟩
  exact (h.rest.step (op := .compute mem') (sop := .compute cur') (.compute (h.some.holds hd hok hh)) (mayDo_compute _)
    trivial).2

theorem ObjIs.on {all : List FileRank} (hd : Distinct all) {cur : String → Values α} {mem : Memory α} {o : OpenedFile α}
    {p : FileObj α} (h : ObjIs all cur mem o p) (hh : ProgramHolds all mem cur) {op : FileOp Empty} (h1 : NoLocalNames o.ranks op)
    (h2 : o.writable = false → RefusedBy o.ranks op) (h3 : (o.table cur).ReadsFilled (storedNames o.ranks) (lift op)) :
    let r := World.step ⟨p.sess, p.file, mem⟩ (lift op)
    let t := (o.table cur).step (storedNames o.ranks) (lift op)
    AsExpected r.1 t.1 ∧ ProgramHolds all r.2.mem t.2.cur ∧
      ObjIs all t.2.cur r.2.mem { o with nb := t.2.nb, cell := t.2.cell } { p with sess := r.2.sess, file := r.2.file } := by
  intro r t
  obtain ⟨k1, k2⟩ := h.rest.step (sameOp_lift _ op) (mayDo_lift h1 h2) h3
  have hm : ProgramHolds o.ranks r.2.mem t.2.cur := k2.now.1
  refine ⟨k1, h.some.holds_back hd hh hm (fun n hn => ?_) (fun n hn => ?_), h.ok, h.some, ?_, ?_⟩
  · exact stepOn_mem _ op (by rw [h.names]; exact hn)
  · exact Table.step_cur hn _ op
  · exact (step_names _ _).trans h.names
  · have e : OpenedFile.table { o with nb := t.2.nb, cell := t.2.cell } t.2.cur = t.2 := by
      have hw : t.2.writable = o.writable := Table.step_writable _ op
      show (⟨o.writable, t.2.nb, t.2.cur, t.2.cell⟩ : Table (Values α)) = t.2
      rw [← hw]
    rw [e]
    exact k2

theorem SystemIs.step {s : Tables α} {w : FileSystem α} (h : SystemIs s w) {op : FsOp (Memory α) (Memory α) (OpenArgs α)}
    {sop : TablesOp α} (ht : s.Takes op sop) :
    AsExpected (w.step op).1 (s.step sop).1 ∧ SystemIs (s.step sop).2 (w.step op).2 := by
  cases op with
  | start mem =>
    cases sop with
    | start p =>
      obtain ⟨h1, h2⟩ := ht
      refine ⟨rfl, h2, h1, fun f => rfl, fun f _ => ?_⟩
      have ho := h.objs f
      have hf := h.files f
      show match (match s.opened f with | some o => some o.shut | none => s.shut f) with
        | none => (match w.objs f with | some o => some o.disk | none => w.files f) = none
        | some c => ∃ d, (match w.objs f with | some o => some o.disk | none => w.files f) = some d ∧ FileIs c d
      cases hs : s.opened f with
      | none =>
        rw [hs] at ho
        rw [show w.objs f = none from ho]
        exact hf hs
      | some o =>
        rw [hs] at ho
        obtain ⟨p', hp, hi⟩ := ho
        rw [hp]
        exact ⟨_, rfl, hi.shut⟩
    | _ => exact ht.elim
  | openFile name mode a =>
    cases sop with
    | openFile name' mode' rs =>
      obtain ⟨rfl, rfl, ha, hno, hso, hop⟩ := ht
      have ho := h.objs name'
      have hf := h.files name' hno
      rw [hno] at ho
      have ho : w.objs name' = none := ho
      have fin : ∀ {r : Res Unit × FileObj α} {o : OpenedFile α},
          FileObj.open mode' a (w.files name') = .ok r → openedAs mode' rs (s.shut name') = some o → r.1 = .ok () →
          ObjIs s.ranks s.cur w.mem o r.2 →
          AsExpected (w.step (.openFile name' mode' a)).1 (s.step (.openFile name' mode' rs)).1 ∧
            SystemIs (s.step (.openFile name' mode' rs)).2 (w.step (.openFile name' mode' a)).2 := by
        intro r o e1 e2 e3 e4
        simp only [FileSystem.step, Tables.step, ho, e1, e2, e3]
        refine ⟨rfl, h.distinct, h.mem, fun f => ?_, fun f hf' => ?_⟩
        · by_cases hfn : f = name'
          · subst hfn
            simp only [putAt, if_true]
            exact ⟨_, rfl, e4⟩
          · simp only [putAt, if_neg hfn]
            exact h.objs f
        · by_cases hfn : f = name'
          · subst hfn
            simp [putAt] at hf'
          · simp only [putAt, if_neg hfn] at hf'
            exact h.files f hf'
      have bad : FileObj.open mode' a (w.files name') = .throw .fileIOError → openedAs mode' rs (s.shut name') = none →
          AsExpected (w.step (.openFile name' mode' a)).1 (s.step (.openFile name' mode' rs)).1 ∧
            SystemIs (s.step (.openFile name' mode' rs)).2 (w.step (.openFile name' mode' a)).2 := by
        intro e1 e2
        simp only [FileSystem.step, Tables.step, ho, e1, e2]
        exact ⟨⟨rfl, rfl⟩, h⟩
      cases hsh : s.shut name' with
      | none =>
        rw [hsh] at hf hop fin bad
        have hf : w.files name' = none := hf
        rw [hf] at fin bad
        have mk : mode' = .write ∨ mode' = .overwrite → FileObj.open mode' a none = .ok (FileObj.create mode' a) →
            openedAs mode' rs (none : Option (ShutFile α)) = some ⟨rs, rs, true, 0, fun _ _ => none⟩ →
          AsExpected (w.step (.openFile name' mode' a)).1 (s.step (.openFile name' mode' rs)).1 ∧
            SystemIs (s.step (.openFile name' mode' rs)).2 (w.step (.openFile name' mode' a)).2 := by
          intro hm e1 e2
          obtain ⟨⟨dom, hok⟩, hnum⟩ := hop hm
          obtain ⟨c1, c2⟩ := create_is hok hnum h.distinct hso hm ha h.mem
          exact fin e1 e2 c1 c2
        cases mode' with
        | write => exact mk (Or.inl rfl) rfl rfl
        | overwrite => exact mk (Or.inr rfl) rfl rfl
        | read => exact bad rfl rfl
        | append => exact bad rfl rfl
      | some c =>
        rw [hsh] at hf hop fin bad
        obtain ⟨d, hfd, hi⟩ := hf
        rw [hfd] at fin bad
        obtain ⟨o1, o2, o3⟩ := hop
        have re : mode' = .read ∨ mode' = .append → FileObj.open mode' a (some d) = .ok (FileObj.reopen mode' a d) →
            openedAs mode' rs (some c) = some ⟨c.made, rs, decide (mode' = .append), nbRows c.cell, c.cell⟩ →
          AsExpected (w.step (.openFile name' mode' a)).1 (s.step (.openFile name' mode' rs)).1 ∧
            SystemIs (s.step (.openFile name' mode' rs)).2 (w.step (.openFile name' mode' a)).2 := by
          intro hm e1 e2
          obtain ⟨dom, g1, g2, g3⟩ := o2 hm
          obtain ⟨c1, c2⟩ := reopen_is hi g1 g2 g3 h.distinct hso hm o3 ha h.mem
          exact fin e1 e2 c1 c2
        cases mode' with
        | write => exact bad rfl rfl
        | overwrite =>
          obtain ⟨⟨dom, hok⟩, hnum⟩ := o1 rfl
          obtain ⟨c1, c2⟩ := create_is hok hnum h.distinct hso (Or.inr rfl) ha h.mem
          exact fin rfl rfl c1 c2
        | read => exact re (Or.inl rfl) rfl rfl
        | append => exact re (Or.inr rfl) rfl rfl
    | _ => exact ht.elim
  | close name =>
    cases sop with
    | close name' =>
      obtain ⟨rfl, hno⟩ := ht
      have ho := h.objs name'
      cases hs : s.opened name' with
      | none => exact absurd hs hno
      | some o =>
        rw [hs] at ho
        obtain ⟨p, hp, hi⟩ := ho
        simp only [FileSystem.step, Tables.step, hp, hs]
        refine ⟨rfl, h.distinct, h.mem, fun f => ?_, fun f hf' => ?_⟩
        · by_cases hfn : f = name'
          · subst hfn
            simp only [putAt, if_true]
          · simp only [putAt, if_neg hfn]
            exact h.objs f
        · by_cases hfn : f = name'
          · subst hfn
            simp only [putAt, if_true]
            exact ⟨_, rfl, hi.shut⟩
          · simp only [putAt, if_neg hfn] at hf' ⊢
            exact h.files f hf'
    | _ => exact ht.elim
  | on name op =>
    cases sop with
    | on name' op' =>
      obtain ⟨rfl, rfl, o, hs, h1, h2, h3⟩ := ht
      have ho := h.objs name'
      rw [hs] at ho
      obtain ⟨p, hp, hi⟩ := ho
      obtain ⟨k1, k2, k3⟩ := hi.on h.distinct h.mem h1 h2 h3
      simp only [FileSystem.step, Tables.step, hp, hs]
      refine ⟨k1, h.distinct, k2, fun f => ?_, fun f hf' => ?_⟩
      · by_cases hfn : f = name'
        · subst hfn
          simp only [putAt, if_true]
          exact ⟨_, rfl, k3⟩
        · simp only [putAt, if_neg hfn]
          have hof := h.objs f
          cases hsf : s.opened f with
          | none => rw [hsf] at hof; exact hof
          | some o' =>
            rw [hsf] at hof
            obtain ⟨p', hp', hi'⟩ := hof
            exact ⟨p', hp', hi'.other h.distinct k2⟩
      · by_cases hfn : f = name'
        · subst hfn
          simp [putAt] at hf'
        · simp only [putAt, if_neg hfn] at hf'
          exact h.files f hf'
    | _ => exact ht.elim
  | compute mem =>
    cases sop with
    | compute cur =>
      have ht : ProgramHolds s.ranks mem cur := ht
      refine ⟨rfl, h.distinct, ht, fun f => ?_, h.files⟩
      have hof := h.objs f
      show match s.opened f with
        | none => w.objs f = none
        | some o => ∃ p, w.objs f = some p ∧ ObjIs s.ranks cur mem o p
      cases hsf : s.opened f with
      | none => rw [hsf] at hof; exact hof
      | some o' =>
        rw [hsf] at hof
        obtain ⟨p', hp', hi'⟩ := hof
        exact ⟨p', hp', hi'.other h.distinct ht⟩
    | _ => exact ht.elim

theorem SystemIs.run {s : Tables α} {w : FileSystem α} (h : SystemIs s w)
    {ops : List (FsOp (Memory α) (Memory α) (OpenArgs α))} {sops : List (TablesOp α)} (ht : s.TakesAll ops sops) :
    List.Forall₂ AsExpected (w.run ops).1 (s.run sops).1 ∧ SystemIs (s.run sops).2 (w.run ops).2 := by
  induction ops generalizing s w sops with
  | nil =>
    cases sops with
    | nil => exact ⟨.nil, h⟩
    | cons => exact ht.elim
  | cons op ops ih =>
    cases sops with
    | nil => exact ht.elim
    | cons sop sops =>
      obtain ⟨k1, k2⟩ := h.step ht.1
      obtain ⟨k3, k4⟩ := ih k2 ht.2
      exact ⟨.cons k1 k3, k4⟩

theorem SystemIs.empty (cur : String → Values α) : SystemIs (Tables.empty cur) FileSystem.empty :=
  ⟨fun _ h => (by cases h), fun _ h => (by cases h), fun _ => rfl, fun _ _ => rfl⟩

end Verif.Props
