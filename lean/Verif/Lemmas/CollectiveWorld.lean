import Verif.Lemmas.CollectiveSession
/-
All processes make the same collective calls: operations and sequences of them.
-/
namespace Verif.NetCDF
open Verif Verif.RawMemory Verif.FileIO

variable {α : Type} {conv : Conv α} {convI : Conv Int} {n : Nat}

/-- What an operation leaves as it is. -/
structure Kept (n : Nat) (p q : ParWorld α) : Prop where
  matched : p.Matched n → q.Matched n
  vars : q.sess.vars = p.sess.vars
  hidden : q.sess.hidden = p.sess.hidden

theorem Kept.refl (p : ParWorld α) : Kept n p p := ⟨id, rfl, rfl⟩

theorem Kept.trans {p q r : ParWorld α} (h : Kept n p q) (h' : Kept n q r) : Kept n p r :=
  ⟨h'.matched ∘ h.matched, h'.vars.trans h.vars, h'.hidden.trans h.hidden⟩

/-- What does not touch variables, memory and entries. -/
theorem kept_same {p q : ParWorld α} (h1 : q.sess.vars = p.sess.vars) (h2 : q.sess.hidden = p.sess.hidden)
    (h3 : q.sess.marks = p.sess.marks) (h4 : q.mem = p.mem) : Kept n p q :=
  ⟨fun h => ⟨by rw [h1]; exact h.parts, by rw [h1, h4]; exact h.mem, by rw [h1, h3]; exact h.marks,
    by rw [h1, h2]; exact h.hidden⟩, h1, h2⟩

theorem next_kept {β : Type} {p : ParWorld α} {r : Joint β × ParWorld α} {f : ParWorld α → Joint Unit × ParWorld α}
    (h : Kept n p r.2) (hf : ∀ q, q = r.2 → Kept n q (f q).2) : Kept n p (Joint.next r f).2 := by
  obtain ⟨j, q⟩ := r
  cases j with
  | ok x => exact h.trans (hf q rfl)
  | throw e => exact h
  | ub => exact h
  | apart => exact h

theorem putEntries_kept (l : String) (frame : Int) (p : ParWorld α) : Kept n p (p.putEntries convI l frame).2 := by
  unfold ParWorld.putEntries
  split
  · split <;> exact kept_same rfl rfl rfl rfl
  · exact Kept.refl p

theorem getEntries_kept {l : String} (p : ParWorld α) {x : SessVar} (hx : x ∈ p.sess.vars) (hl : x.localName = some l)
    (frame : Int) : Kept n p (p.getEntries convI l frame).2 := by
  unfold ParWorld.getEntries
  split
  · rename_i vs fv hvs hfv
    split
    · rename_i bs i hp
      split
      · rename_i ms hms
        refine ⟨fun h => ⟨h.parts, h.mem, fun y hy m hm => ?_, h.hidden⟩, rfl, rfl⟩
        show (setAt p.sess.marks l ms m).length = n
        unfold setAt
        split
        · have a := mapRes_length hms
          have b := getCall_length hp
          have c := (h.hidden x hx l hl vs hvs).1
          have d := h.marks x hx l hl
          simp only [List.length_zip, List.length_map] at a b
          omega
        · exact h.marks y hy m hm
      · exact kept_same rfl rfl rfl rfl
      · exact kept_same rfl rfl rfl rfl
    · exact kept_same rfl rfl rfl rfl
    · exact kept_same rfl rfl rfl rfl
    · exact kept_same rfl rfl rfl rfl
  · exact Kept.refl p

theorem entriesForWrite_kept (p : ParWorld α) {x : SessVar} (hx : x ∈ p.sess.vars) (frame : Int) :
    Kept n p (p.entriesForWrite convI x frame).2 := by
  unfold ParWorld.entriesForWrite
  cases hl : x.localName with
  | none => exact Kept.refl p
  | some l =>
    dsimp only
    split
    · split
      · exact Kept.refl p
      · exact next_kept (putEntries_kept l 0 p) fun q _ => kept_same rfl rfl rfl rfl
    · split
      · exact Kept.refl p
      · exact next_kept (putEntries_kept l 0 p) fun q _ => kept_same rfl rfl rfl rfl
    · split
      · exact Kept.refl p
      · exact next_kept (getEntries_kept p hx hl frame) fun q _ => kept_same rfl rfl rfl rfl
    · exact Kept.refl p

theorem entriesForRead_kept (p : ParWorld α) {x : SessVar} (hx : x ∈ p.sess.vars) :
    Kept n p (p.entriesForRead convI x).2 := by
  unfold ParWorld.entriesForRead
  cases hl : x.localName with
  | none => exact Kept.refl p
  | some l =>
    dsimp only
    split
    · exact Kept.refl p
    · exact next_kept (getEntries_kept p hx hl 0) fun q _ => kept_same rfl rfl rfl rfl

theorem putVar_kept (x : SessVar) (frame : Int) (p : ParWorld α) : Kept n p (p.putVar conv x frame).2 := by
  unfold ParWorld.putVar
  split
  · exact Kept.refl p
  · split
    · exact Kept.refl p
    · exact Kept.refl p
    · split <;> exact kept_same rfl rfl rfl rfl

theorem procData_of {p : ParWorld α} (h : p.Matched n) {x : SessVar} (hx : x ∈ p.sess.vars) :
    (procData x.parts (p.sess.marksOf x) (p.mem x.name)).length = n ∧
      PartsOf x.name x.localName.isNone (sources (procData x.parts (p.sess.marksOf x) (p.mem x.name))) := by
  have hm : (p.sess.marksOf x).length = n := by
    unfold Sess.marksOf
    cases hl : x.localName with
    | none => dsimp only; rw [List.length_map, (h.parts x hx).1]
    | some l => exact h.marks x hx l hl
  obtain ⟨a, b⟩ := procData_facts (h.parts x hx).1 hm (h.mem x hx)
  exact ⟨a, by rw [b]; exact (h.parts x hx).2⟩

theorem getVar_kept {x : SessVar} (frame : Int) (p : ParWorld α) (hx : x ∈ p.sess.vars) : Kept n p (p.getVar conv x frame).2 := by
  unfold ParWorld.getVar
  split
  · exact Kept.refl p
  · split
    · rename_i ms i hp
      refine ⟨fun h => ⟨h.parts, fun y hy => ?_, h.marks, h.hidden⟩, rfl, rfl⟩
      show (setAt p.mem x.name ms y.name).length = n
      unfold setAt
      split
      · rw [SessVar.getPar_length hp, (procData_of h hx).1]
      · exact h.mem y hy
    · exact kept_same rfl rfl rfl rfl
    · exact kept_same rfl rfl rfl rfl
    · exact kept_same rfl rfl rfl rfl

/-! ### The calls -/

theorem next_agreed {β : Type} {r : Joint β × ParWorld α} {f : ParWorld α → Joint Unit × ParWorld α}
    (h : (Joint.next r f).1.Agreed) : r.1.Agreed ∧ (∀ x, r.1 = .ok x → (f r.2).1.Agreed) := by
  obtain ⟨j, q⟩ := r
  cases j with
  | ok x => exact ⟨trivial, fun _ _ => h⟩
  | throw e => exact ⟨trivial, fun _ h => (by cases h)⟩
  | ub => cases h
  | apart => cases h

theorem nextTrace_same {β : Type} {r : Joint β × ParWorld α} {l : Nat → List CollCall} {f : Nat → ParWorld α → List CollCall}
    (h : Same n l) (hf : ∀ x, r.1 = .ok x → Same n fun i => f i r.2) : Same n fun i => Joint.nextTrace (l i) r (f i) := by
  obtain ⟨j, q⟩ := r
  unfold Joint.nextTrace
  cases j with
  | ok x => exact h.append (hf x rfl)
  | throw e => exact h.append (Same.nil n)
  | ub => exact h.append (Same.nil n)
  | apart => exact h.append (Same.nil n)

theorem putEntries_same {p : ParWorld α} (h : p.Matched n) {x : SessVar} (hx : x ∈ p.sess.vars) {l : String}
    (hl : x.localName = some l) {frame : Int} (ha : (p.putEntries convI l frame).1.Agreed) :
    Same n (p.putEntriesTrace convI l frame) := by
  unfold ParWorld.putEntries at ha
  unfold ParWorld.putEntriesTrace
  cases hvs : p.sess.hidden l with
  | none => exact Same.nil n
  | some vs =>
    cases hfv : p.file.hidden l with
    | none => exact Same.nil n
    | some fv =>
      rw [hvs, hfv] at ha
      dsimp only at ha ⊢
      obtain ⟨h1, h2⟩ := h.hidden x hx l hl vs hvs
      have h3 := h.marks x hx l hl
      refine putTrace_same (nm := l) (g := true) (by rw [List.length_zipWith]; omega) ?_ ?_
      · intro v hv
        obtain ⟨w, hw, rfl⟩ := List.mem_map.1 hv
        rw [List.zipWith_eq_zipWith_take_min, ← List.map_uncurry_zip_eq_zipWith] at hw
        obtain ⟨vm, hvm, rfl⟩ := List.mem_map.1 hw
        exact h2 _ (List.mem_of_mem_take (List.of_mem_zip hvm).1)
      · rcases hp : putCall convI (decide (p.sess.mode ≠ .read)) p.indep p.sess.nbFrames frame 0
          (List.zipWith (fun v m => (v, [], entryBuf m)) vs (p.sess.marks l)) fv with ⟨j, i, g⟩
        rw [hp] at ha
        cases j <;> exact ha

theorem getEntries_same {p : ParWorld α} (h : p.Matched n) {x : SessVar} (hx : x ∈ p.sess.vars) {l : String}
    (hl : x.localName = some l) {frame : Int} (ha : (p.getEntries convI l frame).1.Agreed) :
    Same n (p.getEntriesTrace convI l frame) := by
  unfold ParWorld.getEntries at ha
  unfold ParWorld.getEntriesTrace
  cases hvs : p.sess.hidden l with
  | none => exact Same.nil n
  | some vs =>
    cases hfv : p.file.hidden l with
    | none => exact Same.nil n
    | some fv =>
      rw [hvs, hfv] at ha
      dsimp only at ha ⊢
      obtain ⟨h1, h2⟩ := h.hidden x hx l hl vs hvs
      have h3 := h.marks x hx l hl
      refine getTrace_same (nm := l) (g := true) (by rw [List.length_map, List.length_zip]; omega) ?_ ?_
      · intro v hv
        obtain ⟨w, hw, rfl⟩ := List.mem_map.1 hv
        obtain ⟨vm, hvm, rfl⟩ := List.mem_map.1 hw
        exact h2 _ (List.of_mem_zip hvm).1
      · rcases hp : getCall convI p.indep p.sess.nbFrames frame 0 p.file.numrecs fv
          ((vs.zip (p.sess.marks l)).map fun vm => (vm.1, [], entryBuf vm.2)) with ⟨j, i⟩
        rw [hp] at ha
        cases j with
        | ok bs => rw [hp]; trivial
        | throw e => rw [hp]; trivial
        | ub => cases ha
        | apart => cases ha

theorem entriesForWrite_same {p : ParWorld α} (h : p.Matched n) {x : SessVar} (hx : x ∈ p.sess.vars) {frame : Int}
    (ha : (p.entriesForWrite convI x frame).1.Agreed) : Same n (p.entriesForWriteTrace convI x frame) := by
  unfold ParWorld.entriesForWrite at ha
  unfold ParWorld.entriesForWriteTrace
  cases hl : x.localName with
  | none => exact Same.nil n
  | some l =>
    rw [hl] at ha
    dsimp only at ha ⊢
    cases hm : p.sess.mode with
    | read => exact Same.nil n
    | write =>
      rw [hm] at ha
      dsimp only at ha ⊢
      by_cases hw : l ∈ p.sess.written
      · simp only [if_pos hw]; exact Same.nil n
      · simp only [if_neg hw] at ha ⊢; exact putEntries_same h hx hl (next_agreed ha).1
    | overwrite =>
      rw [hm] at ha
      dsimp only at ha ⊢
      by_cases hw : l ∈ p.sess.written
      · simp only [if_pos hw]; exact Same.nil n
      · simp only [if_neg hw] at ha ⊢; exact putEntries_same h hx hl (next_agreed ha).1
    | append =>
      rw [hm] at ha
      dsimp only at ha ⊢
      by_cases hw : l ∈ p.sess.readIn
      · simp only [if_pos hw]; exact Same.nil n
      · simp only [if_neg hw] at ha ⊢; exact getEntries_same h hx hl (next_agreed ha).1

theorem entriesForRead_same {p : ParWorld α} (h : p.Matched n) {x : SessVar} (hx : x ∈ p.sess.vars)
    (ha : (p.entriesForRead convI x).1.Agreed) : Same n (p.entriesForReadTrace convI x) := by
  unfold ParWorld.entriesForRead at ha
  unfold ParWorld.entriesForReadTrace
  cases hl : x.localName with
  | none => exact Same.nil n
  | some l =>
    rw [hl] at ha
    dsimp only at ha ⊢
    by_cases hw : l ∈ p.sess.readIn
    · simp only [if_pos hw]; exact Same.nil n
    · simp only [if_neg hw] at ha ⊢; exact getEntries_same h hx hl (next_agreed ha).1

theorem putVar_same {p : ParWorld α} (h : p.Matched n) {x : SessVar} (hx : x ∈ p.sess.vars) {frame : Int}
    (ha : (p.putVar conv x frame).1.Agreed) : Same n (p.putVarTrace conv x frame) := by
  unfold ParWorld.putVar at ha
  unfold ParWorld.putVarTrace
  cases hfv : p.file.vars x.name with
  | none => exact Same.nil n
  | some fv =>
    rw [hfv] at ha
    dsimp only at ha ⊢
    cases hfr : varFrame p.sess.nbFrames frame with
    | throw e => exact Same.nil n
    | ub => exact Same.nil n
    | ok fr =>
      rw [hfr] at ha
      dsimp only at ha ⊢
      obtain ⟨h1, h2⟩ := procData_of h hx
      refine SessVar.putTrace_same h1 h2 ?_
      rcases hp : x.putPar conv (decide (p.sess.mode ≠ .read)) p.indep p.sess.nbFrames frame
        (procData x.parts (p.sess.marksOf x) (p.mem x.name)) fv with ⟨j, i, g⟩
      rw [hp] at ha
      cases j <;> exact ha

theorem getVar_same {p : ParWorld α} (h : p.Matched n) {x : SessVar} (hx : x ∈ p.sess.vars) {frame : Int}
    (ha : (p.getVar conv x frame).1.Agreed) : Same n (p.getVarTrace conv x frame) := by
  unfold ParWorld.getVar at ha
  unfold ParWorld.getVarTrace
  cases hfv : p.file.vars x.name with
  | none => exact Same.nil n
  | some fv =>
    rw [hfv] at ha
    dsimp only at ha ⊢
    obtain ⟨h1, h2⟩ := procData_of h hx
    refine SessVar.getTrace_same h1 h2 ?_
    rcases hp : x.getPar conv p.indep p.sess.nbFrames frame p.file.numrecs
      (procData x.parts (p.sess.marksOf x) (p.mem x.name)) fv with ⟨j, i⟩
    rw [hp] at ha
    cases j <;> exact ha

/-! ### Loops over names -/

theorem find_mem {s : Sess} {nm : String} {x : SessVar} (h : s.find nm = some x) : x ∈ s.vars :=
  List.mem_of_find?_eq_some h

theorem find_none {s : Sess} {nm : String} (h : s.find nm = none) : nm ∉ s.vars.map SessVar.name := by
  intro hm
  obtain ⟨x, hx, rfl⟩ := List.mem_map.1 hm
  have := List.find?_eq_none.1 h x hx
  simp at this

theorem putEntries_no_hidden {p : ParWorld α} {l : String} {frame : Int} (h : p.sess.hidden l = none) :
    p.putEntries convI l frame = (.throw .fileIOError, p) ∧ ∀ i, p.putEntriesTrace convI l frame i = [] := by
  unfold ParWorld.putEntries ParWorld.putEntriesTrace
  rw [h]
  exact ⟨rfl, fun _ => rfl⟩

theorem getEntries_no_hidden {p : ParWorld α} {l : String} {frame : Int} (h : p.sess.hidden l = none) :
    p.getEntries convI l frame = (.throw .fileIOError, p) ∧ ∀ i, p.getEntriesTrace convI l frame i = [] := by
  unfold ParWorld.getEntries ParWorld.getEntriesTrace
  rw [h]
  exact ⟨rfl, fun _ => rfl⟩

theorem writeNames_kept (frame : Int) (ns : List String) (p : ParWorld α)
    (ho : ∀ nm ∈ ns, nm ∈ p.sess.vars.map SessVar.name ∨ p.sess.hidden nm = none) :
    Kept n p (p.writeNames conv convI frame ns).2 := by
  induction ns generalizing p with
  | nil => exact Kept.refl p
  | cons nm ns ih =>
    rw [ParWorld.writeNames]
    have next : ∀ r : Joint Unit × ParWorld α, Kept n p r.2 → Kept n p (Joint.next r (ParWorld.writeNames conv convI frame ns)).2 :=
      fun r key => next_kept key fun q hq => ih q fun m hm => by
        rw [hq, key.vars, key.hidden]; exact ho m (List.mem_cons_of_mem _ hm)
    refine next _ ?_
    cases hf : p.sess.find nm with
    | some x => exact next_kept (entriesForWrite_kept p (find_mem hf) frame) fun q _ => putVar_kept x frame q
    | none => exact putEntries_kept nm frame p

theorem readNames_kept (frame : Int) (ns : List String) (p : ParWorld α)
    (ho : ∀ nm ∈ ns, nm ∈ p.sess.vars.map SessVar.name ∨ p.sess.hidden nm = none) :
    Kept n p (p.readNames conv convI frame ns).2 := by
  induction ns generalizing p with
  | nil => exact Kept.refl p
  | cons nm ns ih =>
    rw [ParWorld.readNames]
    have next : ∀ r : Joint Unit × ParWorld α, Kept n p r.2 → Kept n p (Joint.next r (ParWorld.readNames conv convI frame ns)).2 :=
      fun r key => next_kept key fun q hq => ih q fun m hm => by
        rw [hq, key.vars, key.hidden]; exact ho m (List.mem_cons_of_mem _ hm)
    refine next _ ?_
    cases hf : p.sess.find nm with
    | some x =>
      have k := entriesForRead_kept (n := n) (convI := convI) p (find_mem hf)
      exact next_kept k fun q hq => getVar_kept frame q (by rw [hq, k.vars]; exact find_mem hf)
    | none =>
      rcases ho nm (List.mem_cons_self ..) with h | h
      · exact absurd h (find_none hf)
      · dsimp only; rw [(getEntries_no_hidden h).1]; exact Kept.refl p

theorem writeTrace_same (frame : Int) (ns : List String) {p : ParWorld α} (h : p.Matched n)
    (ho : ∀ nm ∈ ns, nm ∈ p.sess.vars.map SessVar.name ∨ p.sess.hidden nm = none)
    (ha : (p.writeNames conv convI frame ns).1.Agreed) : Same n fun i => p.writeTrace conv convI frame i ns := by
  induction ns generalizing p with
  | nil => exact Same.nil n
  | cons nm ns ih =>
    rw [ParWorld.writeNames] at ha
    simp only [ParWorld.writeTrace]
    cases hf : p.sess.find nm with
    | some x =>
      rw [hf] at ha
      dsimp only at ha ⊢
      have hx := find_mem hf
      have k1 := entriesForWrite_kept (n := n) (convI := convI) p hx frame
      have k2 : Kept n p (Joint.next (p.entriesForWrite convI x frame) fun q => q.putVar conv x frame).2 :=
        next_kept k1 fun q _ => putVar_kept x frame q
      obtain ⟨a1, a2⟩ := next_agreed ha
      obtain ⟨b1, b2⟩ := next_agreed a1
      refine nextTrace_same (nextTrace_same (entriesForWrite_same h hx b1) fun u hu => ?_) fun u hu => ?_
      · exact putVar_same (k1.matched h) (by rw [k1.vars]; exact hx) (b2 u hu)
      · refine ih (k2.matched h) (fun m hm => ?_) (a2 u hu)
        rw [k2.vars, k2.hidden]; exact ho m (List.mem_cons_of_mem _ hm)
    | none =>
      rcases ho nm (List.mem_cons_self ..) with h0 | h0
      · exact absurd h0 (find_none hf)
      · dsimp only
        obtain ⟨c1, c2⟩ := putEntries_no_hidden (convI := convI) (frame := frame) h0
        simp only [c1, c2]
        exact nextTrace_same (Same.nil n) fun u hu => (by cases hu)

theorem readTrace_same (frame : Int) (ns : List String) {p : ParWorld α} (h : p.Matched n)
    (ho : ∀ nm ∈ ns, nm ∈ p.sess.vars.map SessVar.name ∨ p.sess.hidden nm = none)
    (ha : (p.readNames conv convI frame ns).1.Agreed) : Same n fun i => p.readTrace conv convI frame i ns := by
  induction ns generalizing p with
  | nil => exact Same.nil n
  | cons nm ns ih =>
    rw [ParWorld.readNames] at ha
    simp only [ParWorld.readTrace]
    cases hf : p.sess.find nm with
    | some x =>
      rw [hf] at ha
      dsimp only at ha ⊢
      have hx := find_mem hf
      have k1 := entriesForRead_kept (n := n) (convI := convI) p hx
      have k2 : Kept n p (Joint.next (p.entriesForRead convI x) fun q => q.getVar conv x frame).2 :=
        next_kept k1 fun q hq => getVar_kept frame q (by rw [hq, k1.vars]; exact hx)
      obtain ⟨a1, a2⟩ := next_agreed ha
      obtain ⟨b1, b2⟩ := next_agreed a1
      refine nextTrace_same (nextTrace_same (entriesForRead_same h hx b1) fun u hu => ?_) fun u hu => ?_
      · exact getVar_same (k1.matched h) (by rw [k1.vars]; exact hx) (b2 u hu)
      · refine ih (k2.matched h) (fun m hm => ?_) (a2 u hu)
        rw [k2.vars, k2.hidden]; exact ho m (List.mem_cons_of_mem _ hm)
    | none =>
      rcases ho nm (List.mem_cons_self ..) with h0 | h0
      · exact absurd h0 (find_none hf)
      · dsimp only
        obtain ⟨c1, c2⟩ := getEntries_no_hidden (convI := convI) (frame := frame) h0
        simp only [c1, c2]
        exact nextTrace_same (Same.nil n) fun u hu => (by cases hu)

/-! ### Operations -/

theorem step_kept {p : ParWorld α} {op : FileOp (Memory α)} (ho : NoHidden p.sess.vars p.sess.hidden op)
    (hs : op.Sized n (p.sess.vars.map SessVar.name)) : Kept n p (p.step conv convI op).2 := by
  cases op with
  | appendFrame => exact kept_same rfl rfl rfl rfl
  | write frame ns => exact writeNames_kept frame ns p ho
  | writeAll frame => exact writeNames_kept frame _ p fun m hm => .inl hm
  | read frame ns => exact readNames_kept frame ns p ho
  | readAll frame => exact readNames_kept frame _ p fun m hm => .inl hm
  | compute mem => exact ⟨fun h => ⟨h.parts, fun x hx => hs _ (List.mem_map_of_mem hx), h.marks, h.hidden⟩, rfl, rfl⟩

theorem stepTrace_same {p : ParWorld α} (h : p.Matched n) {op : FileOp (Memory α)}
    (ho : NoHidden p.sess.vars p.sess.hidden op) (ha : (p.step conv convI op).1.Agreed) :
    Same n fun i => p.stepTrace conv convI i op := by
  cases op with
  | appendFrame => exact Same.nil n
  | write frame ns => exact writeTrace_same frame ns h ho ha
  | writeAll frame => exact writeTrace_same frame _ h (fun m hm => .inl hm) ha
  | read frame ns => exact readTrace_same frame ns h ho ha
  | readAll frame => exact readTrace_same frame _ h (fun m hm => .inl hm) ha
  | compute mem => exact Same.nil n

theorem runTrace_same (ops : List (FileOp (Memory α))) {p : ParWorld α} (h : p.Matched n)
    (ho : ∀ op ∈ ops, NoHidden p.sess.vars p.sess.hidden op) (hs : ∀ op ∈ ops, op.Sized n (p.sess.vars.map SessVar.name))
    (ha : ∀ o ∈ (p.run conv convI ops).1, o.Agreed) : Same n fun i => p.runTrace conv convI i ops := by
  induction ops generalizing p with
  | nil => exact Same.nil n
  | cons op ops ih =>
    rw [ParWorld.run] at ha
    simp only [ParWorld.runTrace]
    have k := step_kept (n := n) (conv := conv) (convI := convI) (ho op (List.mem_cons_self ..)) (hs op (List.mem_cons_self ..))
    rcases hp : p.step conv convI op with ⟨j, q⟩
    rw [hp] at ha k
    dsimp only at k
    have hj : j.Agreed ∧ ∀ o ∈ (q.run conv convI ops).1, o.Agreed := by
      cases j with
      | apart => exact absurd (ha _ (List.mem_cons_self ..)) id
      | ub => exact absurd (ha _ (List.mem_cons_self ..)) id
      | ok u => exact ⟨trivial, fun o h => ha o (List.mem_cons_of_mem _ h)⟩
      | throw e => exact ⟨trivial, fun o h => ha o (List.mem_cons_of_mem _ h)⟩
    have h1 := stepTrace_same (conv := conv) (convI := convI) h (ho op (List.mem_cons_self ..)) (by rw [hp]; exact hj.1)
    have h2 := ih (k.matched h) (fun o h => by rw [k.vars, k.hidden]; exact ho o (List.mem_cons_of_mem _ h))
      (fun o h => by rw [k.vars]; exact hs o (List.mem_cons_of_mem _ h)) hj.2
    cases j with
    | apart => cases hj.1
    | ub => cases hj.1
    | ok u => exact h1.append h2
    | throw e => exact h1.append h2

end Verif.NetCDF
