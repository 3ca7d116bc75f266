import Verif.Lemmas.PyFile
/-
Helper lemmas for C82: runs of a python program that uses a file.
-/
set_option linter.unusedSectionVars false

namespace Verif.Props
open Verif Verif.Ccoord Verif.Layout Verif.Layout.FieldLayout Verif.RawMemory Verif.Numpy Verif.Collection
  Verif.Collection.Coll Verif.PyField Verif.PySession Verif.PyArrays Verif.NetCDF Verif.PyFile Verif.FileIO

/-! ### The file code keeps the list of the variables -/

section
variable {α : Type}

theorem getEntries_vars {s s' : Sess} {l : String} {frame : Int} {file : NcFile α}
    (h : s.getEntries l frame file = .ok s') : s'.vars = s.vars := by
  unfold Sess.getEntries at h
  split at h
  · obtain ⟨ms, -, e⟩ := Res.bind_eq_ok.1 h
    rw [Res.pure_eq] at e
    cases e
    rfl
  · cases h

theorem entriesForWrite_vars {s : Sess} {x : SessVar} {frame : Int} {file : NcFile α} {q : Sess × NcFile α}
    (h : s.entriesForWrite x frame file = .ok q) : q.1.vars = s.vars := by
  unfold Sess.entriesForWrite at h
  split at h
  · cases h; rfl
  · split at h
    · split at h
      · cases h; rfl
      · obtain ⟨ms, -, e⟩ := Res.bind_eq_ok.1 h
        rw [Res.pure_eq] at e
        cases e
        rfl
    · split at h
      · cases h; rfl
      · obtain ⟨ms, -, e⟩ := Res.bind_eq_ok.1 h
        rw [Res.pure_eq] at e
        cases e
        rfl
    · split at h
      · cases h; rfl
      · obtain ⟨ms, h1, e⟩ := Res.bind_eq_ok.1 h
        rw [Res.pure_eq] at e
        cases e
        have := getEntries_vars h1
        exact this
    · cases h; rfl

theorem entriesForRead_vars {s s' : Sess} {x : SessVar} {file : NcFile α} (h : s.entriesForRead x file = .ok s') :
    s'.vars = s.vars := by
  unfold Sess.entriesForRead at h
  split at h
  · cases h; rfl
  · split at h
    · cases h; rfl
    · obtain ⟨ms, h1, e⟩ := Res.bind_eq_ok.1 h
      rw [Res.pure_eq] at e
      cases e
      have := getEntries_vars h1
      exact this

theorem writeNames_vars (mem : Memory α) (frame : Int) (names : List String) (st : Sess × NcFile α) :
    (writeNames mem frame names st).2.1.vars = st.1.vars := by
  induction names generalizing st with
  | nil => rfl
  | cons n ns ih =>
    rw [writeNames]
    split
    · split
      · rename_i q hq
        have := entriesForWrite_vars hq
        split
        · rw [ih]; exact this
        · exact this
        · exact this
      · rfl
      · rfl
    · split
      · rw [ih]
      · rfl
      · rfl

theorem readNames_vars (file : NcFile α) (frame : Int) (names : List String) (st : Sess × Memory α) :
    (readNames file frame names st).2.1.vars = st.1.vars := by
  induction names generalizing st with
  | nil => rfl
  | cons n ns ih =>
    rw [readNames]
    split
    · split
      · rename_i q hq
        have := entriesForRead_vars hq
        split
        · rw [ih]; exact this
        · exact this
        · exact this
      · rfl
      · rfl
    · split
      · rename_i q hq
        rw [ih]; exact getEntries_vars hq
      · rfl
      · rfl

theorem step_names (w : World α) (op : FileOp (Memory α)) : (w.step op).2.sess.names = w.sess.names := by
  have : (w.step op).2.sess.vars = w.sess.vars := by
    cases op with
    | appendFrame => rfl
    | write fr ns => exact writeNames_vars _ _ _ _
    | writeAll fr => exact writeNames_vars _ _ _ _
    | read fr ns => exact readNames_vars _ _ _ _
    | readAll fr => exact readNames_vars _ _ _ _
    | compute c => rfl
  rw [Sess.names, this, Sess.names]

/-- What is known about the rest of a program, whatever it does. -/
def Cont (rs : List FileRank) (names : List String) (Q : World α → Table (Values α) → Prop) (w : World α)
    (t : Table (Values α)) : Prop :=
  ∀ ops sops, List.Forall₂ (SameOp (ProgramHolds rs)) ops sops → (∀ op ∈ ops, NoLocalNames rs op) → t.NoGaps names sops →
    List.Forall₂ AsExpected (w.run ops).1 (t.run names sops).1 ∧
      ProgramHolds rs (w.run ops).2.mem (t.run names sops).2.cur ∧ Q (w.run ops).2 (t.run names sops).2

variable {rs : List FileRank} {names : List String} {Q : World α → Table (Values α) → Prop} {w : World α}
  {t : Table (Values α)}

theorem Cont.now (h : Cont rs names Q w t) : ProgramHolds rs w.mem t.cur ∧ Q w t :=
  (h [] [] .nil (by simp) trivial).2

theorem Cont.step (h : Cont rs names Q w t) {op : FileOp (Memory α)} {sop : FileOp (String → Values α)}
    (hs : SameOp (ProgramHolds rs) op sop) (hn : NoLocalNames rs op) (hg : t.ReadsFilled names sop) :
    AsExpected (w.step op).1 (t.step names sop).1 ∧ Cont rs names Q (w.step op).2 (t.step names sop).2 := by
  constructor
  · have := (h [op] [sop] (.cons hs .nil) (by simpa using hn) ⟨hg, trivial⟩).1
    cases this with
    | cons h1 _ => exact h1
  · intro ops sops h1 h2 h3
    obtain ⟨k1, k2⟩ := h (op :: ops) (sop :: sops) (.cons hs h1) (by
      intro o ho
      rcases List.mem_cons.1 ho with rfl | ho
      · exact hn
      · exact h2 o ho) ⟨hg, h3⟩
    cases k1 with
    | cons _ k1 => exact ⟨k1, k2⟩

theorem sameOp_lift {C D : Type} (R : C → D → Prop) (op : FileOp Empty) : SameOp R (lift op) (lift op) := by
  cases op with
  | appendFrame => exact .appendFrame
  | write fr ns => exact .write fr ns
  | writeAll fr => exact .writeAll fr
  | read fr ns => exact .read fr ns
  | readAll fr => exact .readAll fr
  | compute c => exact c.elim

theorem noLocal_lift {C : Type} (hl : localNames rs = []) (op : FileOp Empty) : NoLocalNames rs (lift op : FileOp C) := by
  cases op with
  | write fr ns => intro n _; rw [hl]; simp
  | read fr ns => intro n _; rw [hl]; simp
  | compute c => exact c.elim
  | _ => trivial

theorem refused_rankOf {C U : Type} [Inhabited α] [DecidableEq U] (cs : List (Coll α U)) (op : FileOp C) : RefusedBy (cs.map rankOf) op := by
  have key : ∀ n, ¬ ∃ r ∈ cs.map rankOf, ∃ e ∈ r.entries, e.2.1 = n ∧ e.1 ≠ none := by
    rintro n ⟨r, hr, e, he, -, hk⟩
    obtain ⟨c, -, rfl⟩ := List.mem_map.1 hr
    rw [entries_rankOf] at he
    obtain ⟨e, -, rfl⟩ := List.mem_map.1 he
    exact hk rfl
  cases op <;> first | trivial | exact fun n _ => key n

theorem step_mem (w : World α) {op : FileOp Empty} (h : isRead op = false) : (w.step (lift op)).2.mem = w.mem := by
  cases op with
  | read fr ns => cases h
  | readAll fr => cases h
  | compute c => exact c.elim
  | _ => rfl

theorem write_cur (known : List String) (frame : Int) (ns : List String) (t : Table (Values α)) :
    (t.write known frame ns).2.cur = t.cur ∧ (t.write known frame ns).2.writable = t.writable := by
  induction ns generalizing t with
  | nil => exact ⟨rfl, rfl⟩
  | cons n ns ih =>
    rw [Table.write]
    split
    · split
      · exact ih _
      · exact ⟨rfl, rfl⟩
    · exact ⟨rfl, rfl⟩

theorem read_writable (known : List String) (frame : Int) (ns : List String) (t : Table (Values α)) :
    (t.read known frame ns).2.writable = t.writable := by
  induction ns generalizing t with
  | nil => rfl
  | cons n ns ih =>
    rw [Table.read]
    split
    · split
      · split
        · exact ih _
        · rfl
      · rfl
    · rfl

theorem tstep_cur (t : Table (Values α)) {op : FileOp Empty} (h : isRead op = false) :
    (t.step names (lift op)).2.cur = t.cur := by
  cases op with
  | read fr ns => cases h
  | readAll fr => cases h
  | compute c => exact c.elim
  | appendFrame => rfl
  | write fr ns => exact (write_cur _ _ _ _).1
  | writeAll fr => exact (write_cur _ _ _ _).1

theorem tstep_writable (t : Table (Values α)) (op : FileOp Empty) :
    (t.step names (lift op)).2.writable = t.writable := by
  cases op with
  | compute c => exact c.elim
  | appendFrame => rfl
  | write fr ns => exact (write_cur _ _ _ _).2
  | writeAll fr => exact (write_cur _ _ _ _).2
  | read fr ns => exact read_writable _ _ _ _
  | readAll fr => exact read_writable _ _ _ _

end

variable {α U : Type} [Inhabited α] [DecidableEq U]

/-! ### The collections of all processes -/

/-- The collections `cs` of a program that has registered `cs0` show the arrays. -/
structure Nows (cs0 cs : List (Coll α U)) (ps : List (Part α U)) : Prop where
  len : cs.length = cs0.length
  lenP : ps.length = cs0.length
  now : ∀ (i : Nat) (c0 c : Coll α U) (p : Part α U), cs0[i]? = some c0 → cs[i]? = some c → ps[i]? = some p → Now c0 c p

/-- What was registered. -/
structure Start (dom : List Int) (names : List String) (cs0 : List (Coll α U)) : Prop where
  ok : Verif.ProgramOk dom (cs0.map rankOf)
  stored : storedNames (cs0.map rankOf) = names
  noLocal : localNames (cs0.map rankOf) = []
  isGlobal : ∀ c ∈ cs0, c.global = true
  sorted : ∀ c ∈ cs0, c.fields.Sorted

variable {dom : List Int} {names : List String} {cs0 cs : List (Coll α U)} {ps : List (Part α U)}

theorem Nows.get (h : Nows cs0 cs ps) {i : Nat} {c0 : Coll α U} (hi : cs0[i]? = some c0) :
    ∃ c p, cs[i]? = some c ∧ ps[i]? = some p ∧ Now c0 c p := by
  obtain ⟨hlt, -⟩ := List.getElem?_eq_some_iff.1 hi
  have h1 := h.len
  have h2 := h.lenP
  have e1 : cs[i]? = some cs[i] := List.getElem?_eq_getElem (by omega)
  have e2 : ps[i]? = some ps[i] := List.getElem?_eq_getElem (by omega)
  exact ⟨_, _, e1, e2, h.now i _ _ _ hi e1 e2⟩

theorem Nows.get' (h : Nows cs0 cs ps) {i : Nat} {p : Part α U} (hi : ps[i]? = some p) :
    ∃ c0 c, cs0[i]? = some c0 ∧ cs[i]? = some c ∧ Now c0 c p := by
  obtain ⟨hlt, -⟩ := List.getElem?_eq_some_iff.1 hi
  have h1 := h.len
  have h2 := h.lenP
  have e1 : cs[i]? = some cs[i] := List.getElem?_eq_getElem (by omega)
  have e2 : cs0[i]? = some cs0[i] := List.getElem?_eq_getElem (by omega)
  exact ⟨_, _, e2, e1, h.now i _ _ _ e2 e1 hi⟩

theorem Now.here {c0 c : Coll α U} {p : Part α U} (h : Now c0 c p) (hg : c0.global = true) (g : List Int) :
    (rankOf c0).Here g ↔ p.Here g := by
  show InBoxAt c0.pixels.nb c0.pixels.loc g ↔ InBoxAt p.dict.grid p.loc g
  rw [h.grid hg, h.loc]

theorem whole_at (hS : Start dom names cs0) (h : Nows cs0 cs ps) {i : Nat} {p : Part α U} (hp : ps[i]? = some p)
    {g : List Int} (hg : p.Here g) (n : String) (j : Nat) (cc : List Int) (s : Int) :
    whole ps n j cc s g = p.at n cc s g := by
  unfold whole
  cases hf : ps.find? fun p => decide (p.Here g) with
  | none =>
    have := List.find?_eq_none.1 hf p (List.mem_of_getElem? hp)
    simp [hg] at this
  | some p' =>
    have hp' : p'.Here g := by simpa using List.find?_some hf
    obtain ⟨k, hk⟩ := List.mem_iff_getElem?.1 (List.mem_of_find?_eq_some hf)
    have hik : i = k := by
      obtain ⟨a0, a, ha0, -, hn⟩ := h.get' hp
      obtain ⟨b0, b, hb0, -, hn'⟩ := h.get' hk
      have hga := (hn.here (hS.isGlobal a0 (List.mem_of_getElem? ha0)) g).2 hg
      have hgb := (hn'.here (hS.isGlobal b0 (List.mem_of_getElem? hb0)) g).2 hp'
      obtain ⟨la, ea⟩ := List.getElem?_eq_some_iff.1 ha0
      obtain ⟨lb, eb⟩ := List.getElem?_eq_some_iff.1 hb0
      have hap := List.pairwise_iff_getElem.1 hS.ok.apart
      rcases Nat.lt_trichotomy i k with hlt | he | hlt
      · exact absurd hgb (hap i k (by simpa using la) (by simpa using lb) hlt g (by simpa [ea] using hga) ∘ by
          intro x; simpa [eb] using x)
      · exact he
      · exact absurd hga (hap k i (by simpa using lb) (by simpa using la) hlt g (by simpa [eb] using hgb) ∘ by
          intro x; simpa [ea] using x)
    subst hik
    rw [hp] at hk
    cases hk
    rfl

theorem stored_find (hS : Start dom names cs0) {n : String} (hn : n ∈ names) {c0 : Coll α U} (hc : c0 ∈ cs0) :
    ∃ f0, c0.fields.find n = some f0 := by
  cases hcs : cs0 with
  | nil => rw [hcs] at hc; cases hc
  | cons a l =>
    have hs := hS.stored
    rw [hcs] at hs
    have hn' : n ∈ (rankOf a).entries.map fun e => e.2.1 := by rw [← hs] at hn; exact hn
    obtain ⟨e, he, rfl⟩ := List.mem_map.1 hn'
    have ha : rankOf a ∈ cs0.map rankOf := List.mem_map_of_mem (by rw [hcs]; simp)
    obtain ⟨e', he', -, g2, -⟩ := sig_entry (hS.ok.same _ ha _ (List.mem_map_of_mem hc)) he
    rw [entries_rankOf] at he'
    obtain ⟨⟨n', f⟩, hm, rfl⟩ := List.mem_map.1 he'
    have g2' : n' = e.2.1 := g2
    refine ⟨f, ?_⟩
    rw [← g2']
    exact SMap.find_of_mem (hS.sorted c0 hc) hm

theorem forall₂_of_get {β γ : Type} {R : β → γ → Prop} {l : List β} {l' : List γ} (hl : l.length = l'.length)
    (h : ∀ (i : Nat) x y, l[i]? = some x → l'[i]? = some y → R x y) : List.Forall₂ R l l' := by
  induction l generalizing l' with
  | nil => cases l' with
    | nil => exact .nil
    | cons _ _ => simp at hl
  | cons a l ih => cases l' with
    | nil => simp at hl
    | cons b l' => exact .cons (h 0 a b rfl rfl) (ih (by simpa using hl) fun i x y hx hy => h (i + 1) x y hx hy)

theorem get_of_forall₂ {β γ : Type} {R : β → γ → Prop} {l : List β} {l' : List γ} (h : List.Forall₂ R l l') {i : Nat}
    {x : β} (hx : l[i]? = some x) : ∃ y, l'[i]? = some y ∧ R x y := by
  induction h generalizing i with
  | nil => cases hx
  | cons h1 _ ih => cases i with
    | zero => cases hx; exact ⟨_, rfl, h1⟩
    | succ i => exact ih hx

theorem Nows.holds (hS : Start dom names cs0) (h : Nows cs0 cs ps) :
    ProgramHolds (cs0.map rankOf) (memory cs) (whole ps) := by
  intro n hn
  rw [hS.stored] at hn
  refine forall₂_of_get (by simp [memory, h.len]) fun i r m hr hm => ?_
  rw [List.getElem?_map] at hr
  obtain ⟨c0, hc0, rfl⟩ := Option.map_eq_some_iff.1 hr
  obtain ⟨c, p, hc, hp, hnow⟩ := h.get hc0
  rw [memory, List.getElem?_map, hc] at hm
  cases hm
  have hmem := List.mem_of_getElem? hc0
  obtain ⟨f0, hf0⟩ := stored_find hS hn hmem
  exact hnow.holds (hS.isGlobal _ hmem) hf0 fun a _ cc s g _ _ _ hg => (whole_at hS h hp hg n 0 cc s).symm

theorem Nows.give (hS : Start dom names cs0) (h : Nows cs0 cs ps) {mem : Memory α} {cur : String → Values α}
    (hm : ProgramHolds (cs0.map rankOf) mem cur) : Nows cs0 (takeBack names mem cs) (ps.map (Part.give names cur)) := by
  refine ⟨by simp [takeBack, h.len], by simp [h.lenP], fun i c0 c' p' h0 hc' hp' => ?_⟩
  obtain ⟨c, p, hc, hp, hnow⟩ := h.get h0
  rw [takeBack, List.getElem?_mapIdx, hc] at hc'
  cases hc'
  rw [List.getElem?_map, hp] at hp'
  cases hp'
  have hmem := List.mem_of_getElem? h0
  refine hnow.give (hS.isGlobal _ hmem) (hS.sorted _ hmem) fun n hn => ?_
  exact get_of_forall₂ (hm n (by rw [hS.stored]; exact hn)) (by rw [List.getElem?_map, h0]; rfl)

theorem receive_self {c : Coll α U} (hf : ∀ n f, c.fields.find n = some f → f.fresh = true) (hs : c.fields.Sorted)
    (names : List String) {m : String → Option (ProcMem α)} (hm : ∀ n, m n = some (memOf c n)) : receive names m c = c := by
  have : (receive names m c).fields = c.fields := by
    show (c.fields.map fun e => (e.1, if e.1 ∈ names then received e.2 (m e.1) else e.2)) = c.fields
    conv_rhs => rw [← List.map_id c.fields]
    refine List.map_congr_left fun e he => ?_
    obtain ⟨n, f⟩ := e
    have hfind := SMap.find_of_mem hs he
    have hfr := hf n f hfind
    have e1 : received f (m n) = f := by
      rw [hm]
      simp only [memOf, hfind, received, Coll.Field.ofMem]
      have : (List.range f.vals.length).map (fun i : Nat => (Coll.Field.mem f i).getD default) = f.vals := by
        refine List.ext_getElem? fun i => ?_
        rw [List.getElem?_map]
        by_cases hi : i < f.vals.length
        · rw [List.getElem?_range hi]
          simp [Coll.Field.mem, hfr, List.getElem?_eq_getElem hi]
        · rw [List.getElem?_eq_none (by simpa using hi), List.getElem?_eq_none (by simpa using hi)]; rfl
      rw [this]
    simp only [e1, ite_self, id]
  unfold receive at *
  dsimp only at this
  rw [this]

theorem Nows.takeBack_self (h : Nows cs0 cs ps) : takeBack names (memory cs) cs = cs := by
  refine List.ext_getElem? fun i => ?_
  rw [takeBack, List.getElem?_mapIdx]
  cases hc : cs[i]? with
  | none => rfl
  | some c =>
    obtain ⟨hlt, -⟩ := List.getElem?_eq_some_iff.1 hc
    have h1 := h.len
    obtain ⟨c', p, hc', -, hnow⟩ := h.get (i := i) (c0 := cs0[i]'(by omega)) (List.getElem?_eq_getElem (by omega))
    rw [hc] at hc'
    cases hc'
    have hsz := hnow.shows.size
    simp only [Option.map_some, Option.some.injEq]
    refine receive_self (fun n f hf => (hsz.size hnow.shows.init n f hf).2.2) hsz.wf.fields_sorted names fun n => ?_
    rw [memory, List.getElem?_map, hc]
    rfl

/-! ### Python calls -/

theorem Dict.call_keeps (d : Dict α U) (op : PyCall α U) : (d.call op).2.grid = d.grid ∧
    ∀ n a, d.arrs n = some a → ∃ a', (d.call op).2.arrs n = some a' ∧ a'.comps = a.comps ∧ a'.nb = a.nb := by
  have key : ∀ name (a' a0 : Arr α U), d.arrs name = some a0 → a'.comps = a0.comps → a'.nb = a0.nb →
      (d.put name a').grid = d.grid ∧
        ∀ n a, d.arrs n = some a → ∃ a'', (d.put name a').arrs n = some a'' ∧ a''.comps = a.comps ∧ a''.nb = a.nb := by
    intro name a' a0 h0 h1 h2
    refine ⟨rfl, fun n a ha => ?_⟩
    by_cases e : n = name
    · subst e
      rw [h0] at ha
      cases ha
      exact ⟨a', by simp [Dict.put], h1, h2⟩
    · exact ⟨a, by simp [Dict.put, e, ha], rfl, rfl⟩
  have triv : d.grid = d.grid ∧ ∀ n a, d.arrs n = some a → ∃ a', d.arrs n = some a' ∧ a'.comps = a.comps ∧ a'.nb = a.nb :=
    ⟨rfl, fun n a ha => ⟨a, ha, rfl, rfl⟩⟩
  cases op with
  | field name ty comps tag unit new =>
    simp only [Dict.call, Dict.field]
    split
    · split
      · exact triv
      · split
        · exact triv
        · split <;> exact triv
    · rename_i hnone
      split
      · exact triv
      · refine ⟨rfl, fun n a ha => ?_⟩
        have e : n ≠ name := by rintro rfl; rw [hnone] at ha; cases ha
        exact ⟨a, by simp [Dict.put, e, ha], rfl, rfl⟩
  | setNbSubPts tag n =>
    simp only [Dict.call, Dict.setNbSubPts]
    split <;> exact triv
  | assign name it a inp =>
    simp only [Dict.call, Dict.assign]
    split
    · exact triv
    · rename_i f hf
      split
      · exact key name _ f hf rfl rfl
      · exact triv
  | setItem name it idx v =>
    simp only [Dict.call, Dict.setItem]
    split
    · exact triv
    · rename_i f hf
      split
      · exact triv
      · split
        · exact triv
        · exact key name _ f hf rfl rfl
  | getItem name it idx => exact triv
  | setZero name =>
    simp only [Dict.call, Dict.setZero]
    split
    · exact triv
    · rename_i f hf
      exact key name _ f hf rfl rfl
  | «exists» name => exact triv

theorem call_base {srt : SortFn} (hsrt : SortSpec srt) {size : ElemType → Int} (hz : ∀ ty, 0 < size ty)
    {c : Coll α U} {d : Dict α U} (h : Displays c d) (op : PyCall α U) (hop : CallOk c.order d op) :
    (call srt size c op).2.base = c.base := by
  cases op with
  | field name ty comps tag unit new => exact (h.field name ty comps tag unit new hop).2.2
  | setNbSubPts tag n => exact (h.setNbSubPts tag n).2.2
  | assign name it a inp => exact (h.assign hsrt name it hop.1 a inp hop.2.1 hop.2.2).2.2
  | setItem name it idx v => exact (h.setItem hz name it hop idx v).2.2
  | getItem name it idx => rfl
  | setZero name => exact (h.setZero name).2.2
  | «exists» name => rfl

theorem Now.call {srt : SortFn} (hsrt : SortSpec srt) {size : ElemType → Int} (hz : ∀ ty, 0 < size ty)
    {c0 c : Coll α U} {p : Part α U} (h : Now c0 c p) (op : PyCall α U) (hop : CallOk c.order p.dict op) :
    (call srt size c op).1 = (p.dict.call op).1 ∧
      Now c0 (call srt size c op).2 { p with dict := (p.dict.call op).2 } := by
  obtain ⟨h1, h2, -⟩ := C80_call_partial hsrt hz h.shows op hop
  obtain ⟨k1, k2⟩ := Dict.call_keeps p.dict op
  refine ⟨h1, h2, (call_base hsrt hz h.shows op hop).trans h.base, h.loc, ?_, fun n f0 hf0 => ?_⟩
  · show p.loc.length = (p.dict.call op).2.grid.length
    rw [k1]; exact h.len
  · obtain ⟨f, hf, e1, e2⟩ := h.keeps n f0 hf0
    obtain ⟨a, ha⟩ := h.shows.arr hf
    have hd := h.shows.disp n f a hf ha
    obtain ⟨a', ha', g1, g2⟩ := k2 n a ha
    cases hf' : (PySession.call srt size c op).2.fields.find n with
    | none => rw [(h2.names n).1 hf'] at ha'; cases ha'
    | some f' =>
      have hd' := h2.disp n f' a' hf' ha'
      exact ⟨f', rfl, by rw [hd'.comps, g1, ← hd.comps, e1], by rw [hd'.nb, g2, ← hd.nb, e2]⟩

/-! ### The whole program -/

/-- What is asked of a statement: calls are made by the processes of the program and meet what C80 asks of them (`orders`
are the storage orders of the collections), and nothing is read that has not been written. -/
def StepOk (orders : List StorageOrder) (names : List String) (s : Shared α U) : PyOp α U → Prop
  | .py r op => ∃ p, s.parts[r]? = some p ∧ ∃ o, orders[r]? = some o ∧ CallOk o p.dict op
  | .file op => s.ReadsFilled names (.file op)

/-- What is asked of a program. -/
def StepsOk (orders : List StorageOrder) (names : List String) : Shared α U → List (PyOp α U) → Prop
  | _, [] => True
  | s, op :: ops => StepOk orders names s op ∧ StepsOk orders names (s.step names op).2 ops

/-- The program and what the user sees. -/
structure Sim (cs0 : List (Coll α U)) (names : List String) (Q : World α → Table (Values α) → Prop) (w : PyWorld α U)
    (s : Shared α U) : Prop where
  nows : Nows cs0 w.colls s.parts
  known : w.sess.names = names
  cont : Cont (cs0.map rankOf) names Q ⟨w.sess, w.file, memory w.colls⟩ s.table

theorem asExpected_out {r : Res Unit} {b : Bool} (h : AsExpected r b) :
    (noResult r : Res (Out α)) = if b then .ok .nothing else .throw .fileIOError := by
  cases r with
  | ok _ => rw [show b = true from h]; rfl
  | throw e => obtain ⟨rfl, rfl⟩ := h; rfl
  | ub => exact h.elim

theorem Sim.step {srt : SortFn} (hsrt : SortSpec srt) {size : ElemType → Int} (hz : ∀ ty, 0 < size ty)
    (hS : Start dom names cs0) {Q : World α → Table (Values α) → Prop} {w : PyWorld α U} {s : Shared α U}
    (h : Sim cs0 names Q w s) {op : PyOp α U} (hop : StepOk (cs0.map fun c => c.order) names s op) :
    (w.step srt size op).1 = (s.step names op).1 ∧ Sim cs0 names Q (w.step srt size op).2 (s.step names op).2 := by
  cases op with
  | py r op =>
    obtain ⟨p, hp, o, ho, hc⟩ := hop
    obtain ⟨c0, c, hc0, hcc, hnow⟩ := h.nows.get' hp
    have hord : c.order = o := by
      rw [List.getElem?_map, hc0] at ho
      cases ho
      have hb := hnow.base
      simp only [Coll.base, Prod.mk.injEq] at hb
      exact hb.2.2.1
    rw [← hord] at hc
    obtain ⟨k1, k2⟩ := hnow.call hsrt hz op hc
    have hn : Nows cs0 (w.colls.set r (call srt size c op).2) (s.parts.set r { p with dict := (p.dict.call op).2 }) := by
      refine ⟨by simp [h.nows.len], by simp [h.nows.lenP], fun i c0' c' p' h0' hc' hp' => ?_⟩
      by_cases e : r = i
      · subst e
        rw [hc0] at h0'
        cases h0'
        obtain ⟨l1, -⟩ := List.getElem?_eq_some_iff.1 hcc
        obtain ⟨l2, -⟩ := List.getElem?_eq_some_iff.1 hp
        rw [List.getElem?_set_self l1] at hc'
        rw [List.getElem?_set_self l2] at hp'
        cases hc'
        cases hp'
        exact k2
      · rw [List.getElem?_set_ne e] at hc' hp'
        exact h.nows.now i _ _ _ h0' hc' hp'
    simp only [PyWorld.step, hcc, Shared.step, hp]
    refine ⟨k1, hn, h.known, ?_⟩
    exact (h.cont.step (op := .compute _) (sop := .compute _) (.compute (hn.holds hS)) trivial trivial).2
  | file op =>
    have hs := sameOp_lift (ProgramHolds (α := α) (cs0.map rankOf)) op
    obtain ⟨k1, k2⟩ := h.cont.step hs (noLocal_lift hS.noLocal op) hop
    have hnm := step_names ⟨w.sess, w.file, memory w.colls⟩ (lift op)
    have hw := tstep_writable (names := names) s.table op
    simp only [PyWorld.step, Shared.step]
    refine ⟨asExpected_out k1, ?_⟩
    rw [h.known]
    have hn : Nows cs0 (takeBack names (World.step ⟨w.sess, w.file, memory w.colls⟩ (lift op)).2.mem w.colls)
        (if isRead op then s.parts.map (Part.give names (s.table.step names (lift op)).2.cur) else s.parts) := by
      cases hr : isRead op with
      | true => exact h.nows.give hS k2.now.1
      | false =>
        rw [step_mem _ hr, h.nows.takeBack_self]
        exact h.nows
    refine ⟨hn, by rw [hnm]; exact h.known, ?_⟩
    have := (k2.step (op := .compute _) (sop := .compute _) (.compute (hn.holds hS)) trivial trivial).2
    have e : (Shared.table ⟨s.writable, (s.table.step names (lift op)).2.nb,
        if isRead op then s.parts.map (Part.give names (s.table.step names (lift op)).2.cur) else s.parts,
        (s.table.step names (lift op)).2.cell⟩ : Table (Values α)) =
        ((s.table.step names (lift op)).2.step names (.compute (whole
          (if isRead op then s.parts.map (Part.give names (s.table.step names (lift op)).2.cur) else s.parts)))).2 := by
      have hw' : (s.table.step names (lift op)).2.writable = s.writable := hw
      rw [Shared.table, ← hw']
      rfl
    rw [e]
    exact this

theorem Sim.run {srt : SortFn} (hsrt : SortSpec srt) {size : ElemType → Int} (hz : ∀ ty, 0 < size ty)
    (hS : Start dom names cs0) {Q : World α → Table (Values α) → Prop} (ops : List (PyOp α U)) {w : PyWorld α U}
    {s : Shared α U} (h : Sim cs0 names Q w s) (hop : StepsOk (cs0.map fun c => c.order) names s ops) :
    (w.run srt size ops).1 = (s.run names ops).1 ∧ Sim cs0 names Q (w.run srt size ops).2 (s.run names ops).2 := by
  induction ops generalizing w s with
  | nil => exact ⟨rfl, h⟩
  | cons op ops ih =>
    obtain ⟨h1, h2⟩ := h.step hsrt hz hS hop.1
    obtain ⟨k1, k2⟩ := ih h2 hop.2
    refine ⟨?_, k2⟩
    simp only [PyWorld.run, Shared.run, h1, k1]

/-! ### Registration -/

theorem start_of (ht : Together dom names ps) (h : List.Forall₂ (OnPart dom) cs ps) :
    Start dom names cs ∧ Numbered (cs.map rankOf) ∧ Nows cs cs ps := by
  obtain ⟨h1, h2, h3, h4⟩ := programOk_of ht h
  refine ⟨⟨h1, h3, h4, fun c hc => ?_, fun c hc => ?_⟩, h2, rfl, h.length_eq.symm, fun i c0 c p h0 hc hp => ?_⟩
  · obtain ⟨p, -, ho⟩ := forall₂_mem_left h hc
    exact ho.isGlobal
  · obtain ⟨p, -, ho⟩ := forall₂_mem_left h hc
    exact ho.shows.size.wf.fields_sorted
  · rw [h0] at hc
    cases hc
    obtain ⟨p', hp', ho⟩ := get_of_forall₂ h h0
    rw [hp] at hp'
    cases hp'
    have hin := (ht.inside p (List.mem_of_getElem? hp)).lengths
    exact ho.now (by omega)

end Verif.Props
